import Verif.Model.Show
import Verif.Props.FloatText
import Verif.Props.Report
import Verif.Spec.Show
/-
C72: the line that tells the result.
-/
namespace Verif.Props
open Verif.Model Verif.Spec Verif.Lemmas

/-! ### Decimal notation -/

theorem decimal_append (a b : List Char) : decimal (a ++ b) = decimal a * 10 ^ b.length + decimal b := by
  induction a with
  | nil => simp [decimal]
  | cons c cs ih =>
    rw [List.cons_append, decimal_cons, decimal_cons, ih, List.length_append, Nat.pow_add, Nat.add_mul, Nat.mul_assoc, Nat.add_assoc]

theorem decimal_zeros (k : Nat) : decimal (List.replicate k '0') = 0 := by
  induction k with
  | zero => rfl
  | succ k ih => rw [List.replicate_succ, decimal_cons, ih]; simp

theorem showInt_written (n : Int) : showInt n = written n := rfl

/-! ### Rounding -/

theorem roundRat_scale (f : Fmt) (n d : Nat) {c : Nat} (hc : 0 < c) : roundRat f (n * c) (d * c) = roundRat f n d := by
  unfold roundRat
  rw [Nat.mul_div_mul_right _ _ hc]
  congr 1
  funext t
  rw [← Nat.mul_assoc, ← Nat.mul_assoc]
  simp only [compare, compareOfLessAndEq]
  have h1 : t * d * c < 2 * n * c ↔ t * d < 2 * n := Nat.mul_lt_mul_right hc
  have h2 : t * d * c = 2 * n * c ↔ t * d = 2 * n := Nat.mul_left_inj (by omega)
  simp only [h1, h2]

theorem decToFloat_sign (f : Fmt) (neg : Bool) (n : Nat) (x : Int) : decToFloat f neg n x = withSign f neg (decToFloat f false n x) := by
  unfold decToFloat
  split <;> simp [withSign]

theorem decToFloat_tenth (f : Fmt) (d : Nat) {e : Int} (he : 0 ≤ e) : decToFloat f false (d * 10 ^ (e.toNat + 1)) (-1) = decToFloat f false d e := by
  unfold decToFloat
  have h10 : 0 < 10 ^ (e.toNat + 1) := Nat.pow_pos (by decide)
  by_cases hd : d = 0
  · simp [hd]
  · rw [if_neg hd, if_neg (by intro h; rcases Nat.mul_eq_zero.mp h with h | h <;> omega)]
    congr 1
    have e1 : (-1 : Int).toNat = 0 := by decide
    have e2 : (- -1 : Int).toNat = 1 := by decide
    have e3 : (-e).toNat = 0 := by omega
    rw [e1, e2, e3, ← roundRat_scale f _ (10 ^ 0) (c := 10) (by decide)]
    congr 1
    rw [Nat.pow_succ]
    simp only [Nat.pow_zero, Nat.mul_one]
    rw [Nat.mul_assoc d, Nat.mul_assoc d, Nat.mul_assoc d, Nat.mul_comm (10 ^ e.toNat * 10), Nat.mul_assoc]

theorem exact_digits {f : Fmt} (hf : FmtOk f) {k : Nat} (hk : k < Model.infBits f) :
    decToFloat f false (magSeq f k * 5 ^ f.fracBits) (-(f.fracBits : Int)) = k := by
  have h5 : 0 < 5 ^ f.fracBits := Nat.pow_pos (by decide)
  unfold decToFloat
  split
  · rename_i h0
    have h0 : magSeq f k = 0 := by
      rcases Nat.mul_eq_zero.mp h0 with h | h
      · exact h
      · omega
    rw [magSeq_inj (h0.trans (magSeq_zero f).symm)]
    rfl
  · have e1 : (-(f.fracBits : Int)).toNat = 0 := by omega
    have e2 : (- -(f.fracBits : Int)).toNat = f.fracBits := by omega
    have e3 : magSeq f k * 5 ^ f.fracBits * 2 ^ f.fracBits = magSeq f k * 10 ^ f.fracBits := by
      rw [Nat.mul_assoc, ← Nat.mul_pow]
    rw [e1, e2, e3, Nat.pow_zero, Nat.mul_one, roundRat_exact hf (Nat.pow_pos (by decide)) (Nat.le_of_lt hk)]
    rfl

/-! ### The digits read back -/

theorem digitsAt_reads {f : Fmt} {k mag d : Nat} {e : Int} (h : digitsAt f k mag e = some d) : decToFloat f false d e = k := by
  unfold digitsAt at h
  simp only at h
  split at h
  · rename_i h1
    simp only [Bool.and_eq_true, decide_eq_true_eq] at h1
    cases h
    exact h1.1
  · split at h
    · rename_i h1
      cases h
      exact of_decide_eq_true h1
    · cases h

theorem digitsAt_exact {f : Fmt} (hf : FmtOk f) {k : Nat} (hk : k < Model.infBits f) :
    ∃ d, digitsAt f k (magSeq f k) (-(f.fracBits : Int)) = some d := by
  have e1 : (-(f.fracBits : Int)).toNat = 0 := by omega
  have e2 : (- -(f.fracBits : Int)).toNat = f.fracBits := by omega
  have e3 : magSeq f k * 10 ^ f.fracBits / (2 ^ f.fracBits * 10 ^ 0) = magSeq f k * 5 ^ f.fracBits := by
    rw [Nat.pow_zero, Nat.mul_one, show (10 : Nat) = 5 * 2 from rfl, Nat.mul_pow, ← Nat.mul_assoc, Nat.mul_div_cancel _ (Nat.two_pow_pos _)]
  unfold digitsAt
  simp only [e1, e2, e3, exact_digits hf hk, decide_true, if_true]
  split <;> exact ⟨_, rfl⟩

theorem shortest_reads {f : Fmt} {k mag : Nat} : ∀ {fuel : Nat} {e : Int} {d : Nat} {x : Int}, shortest f k mag fuel e = some (d, x) →
    decToFloat f false d x = k
  | 0, _, _, _, h => by cases h
  | fuel + 1, e, d, x, h => by
    unfold shortest at h
    split at h
    · rename_i h1
      cases h
      exact digitsAt_reads h1
    · exact shortest_reads h

theorem shortest_some {f : Fmt} (hf : FmtOk f) {k : Nat} (hk : k < Model.infBits f) : ∀ {fuel : Nat} {e : Int},
    -(f.fracBits : Int) ≤ e → e + f.fracBits < fuel → ∃ d x, shortest f k (magSeq f k) fuel e = some (d, x)
  | 0, e, h1, h2 => by omega
  | fuel + 1, e, h1, h2 => by
    unfold shortest
    split
    · exact ⟨_, _, rfl⟩
    · rename_i h
      refine shortest_some hf hk ?_ (by omega)
      by_cases he : e = -(f.fracBits : Int)
      · obtain ⟨d, hd⟩ := digitsAt_exact hf hk
        rw [he, hd] at h
        cases h
      · omega

/-! ### The notations -/

theorem decimal_digits {ds : List Char} (hd : IsDigits ds) (e : Int) (f : Fmt) :
    ∃ n x, Decimal (positional ds e) n x ∧ decToFloat f false n x = decToFloat f false (decimal ds) e := by
  have dz : ∀ k, ∀ c ∈ List.replicate k '0', c.isDigit = true := by
    intro k c hc
    rw [(List.mem_replicate.mp hc).2]; decide
  unfold positional
  split
  · rename_i he
    have hi : ∀ c ∈ ds ++ List.replicate e.toNat '0', c.isDigit = true := by
      intro c hc
      rcases List.mem_append.mp hc with h | h
      · exact hd.2 c h
      · exact dz _ c h
    refine ⟨_, _, by
      have := Decimal.point (ip := ds ++ List.replicate e.toNat '0') (fp := ['0']) (ex := []) (x := 0) hi (by decide) (by simp) .none
      simpa using this, ?_⟩
    · have : decimal (ds ++ (List.replicate e.toNat '0' ++ ['0'])) = decimal ds * 10 ^ (e.toNat + 1) := by
        rw [decimal_append, decimal_append, decimal_zeros]
        simp [decimal]
      rw [this]
      exact decToFloat_tenth f _ he
  · rename_i he
    split
    · rename_i hl
      refine ⟨_, _, by
        have := Decimal.point (ip := ds.take (ds.length - (-e).toNat)) (fp := ds.drop (ds.length - (-e).toNat)) (ex := []) (x := 0)
          (fun c hc => hd.2 c (List.mem_of_mem_take hc)) (fun c hc => hd.2 c (List.mem_of_mem_drop hc))
          (by rw [List.take_append_drop]; exact hd.1) .none
        simpa only [List.append_nil] using this, ?_⟩
      rw [List.take_append_drop, List.length_drop]
      congr 1
      omega
    · rename_i hl
      have hi : ∀ c ∈ List.replicate ((-e).toNat - ds.length) '0' ++ ds, c.isDigit = true := by
        intro c hc
        rcases List.mem_append.mp hc with h | h
        · exact dz _ c h
        · exact hd.2 c h
      refine ⟨_, _, by
        have := Decimal.point (ip := ['0']) (fp := List.replicate ((-e).toNat - ds.length) '0' ++ ds) (ex := []) (x := 0)
          (by decide) hi (by simp) .none
        simpa only [List.append_nil, List.cons_append, List.nil_append] using this, ?_⟩
      · rw [show '0' :: (List.replicate ((-e).toNat - ds.length) '0' ++ ds) = ['0'] ++ (List.replicate ((-e).toNat - ds.length) '0' ++ ds)
          from rfl, decimal_append, decimal_append, decimal_zeros, List.length_append, List.length_replicate]
        have : decimal ['0'] = 0 := by decide
        rw [this, Nat.zero_mul, Nat.zero_mul, Nat.zero_add, Nat.zero_add]
        congr 1
        omega

theorem decimal_exponential {ds : List Char} (hd : IsDigits ds) (e : Int) : Decimal (exponential ds e) (decimal ds) e := by
  have hx : Exponent ('e' :: showInt (e + ds.length - 1)) (e + ds.length - 1) := .some (.inl rfl) (written_denotes _)
  have hl : 0 < ds.length := List.length_pos_iff.mpr hd.1
  unfold exponential
  split
  · rename_i h1
    have e1 : ds.take 1 = ds := by rw [List.take_of_length_le (by omega)]
    have := Decimal.whole hd hx
    rw [h1] at this ⊢
    rw [e1, List.append_nil]
    simpa using this
  · rename_i h1
    have := Decimal.point (ip := ds.take 1) (fp := ds.drop 1) (fun c hc => hd.2 c (List.mem_of_mem_take hc))
      (fun c hc => hd.2 c (List.mem_of_mem_drop hc)) (by rw [List.take_append_drop]; exact hd.1) hx
    rw [List.take_append_drop, List.length_drop] at this
    rwa [show e + (ds.length : Int) - 1 - ((ds.length - 1 : Nat) : Int) = e by omega] at this

theorem toDigits_digits (d : Nat) : IsDigits (Nat.toDigits 10 d) ∧ decimal (Nat.toDigits 10 d) = d := digits_written d

theorem showPos_denotes {f : Fmt} (hf : FmtOk f) {k : Nat} (hk : k < Model.infBits f) (neg : Bool) :
    Unsigned f neg (showPos f k) (withSign f neg k) := by
  have hk2 : k < 2 ^ (f.e + f.m) := Nat.lt_trans hk (infBits_lt f)
  have hm : f.mag k = magSeq f k := by
    have := mag_withSign (neg := false) hk2
    simpa [withSign] using this
  unfold showPos
  simp only [hm]
  obtain ⟨d, x, h⟩ := shortest_some hf hk (fuel := (Nat.toDigits 10 (magSeq f k / 2 ^ f.fracBits)).length + f.fracBits + 1)
    (e := ((Nat.toDigits 10 (magSeq f k / 2 ^ f.fracBits)).length : Int)) (by omega) (by omega)
  rw [h]
  simp only
  have hr := shortest_reads h
  obtain ⟨hd1, hd2⟩ := toDigits_digits d
  have key : ∀ {t : List Char} {n : Nat} {y : Int}, Decimal t n y → decToFloat f false n y = k → Unsigned f neg t (withSign f neg k) := by
    intro t n y h1 h2
    refine .number h1 ?_
    have := decToFloat_correct hf neg n y
    rwa [decToFloat_sign, h2] at this
  split
  · have := decimal_exponential hd1 x
    rw [hd2] at this
    exact key this hr
  · obtain ⟨n, y, h1, h2⟩ := decimal_digits hd1 x f
    rw [hd2] at h2
    exact key h1 (h2.trans hr)

/-- The text printed for a float that is not a NaN denotes it, bit by bit. -/
theorem showFloat_denotes {f : Fmt} (hf : FmtOk f) {b : Nat} (hb : b < 2 ^ f.width) (hn : f.val b ≠ .nan) : FloatDenotes f (showFloat f b) b := by
  obtain ⟨neg, k, rfl, hk⟩ := split_sign hb
  have signed : ∀ {t : List Char} {r : Nat}, Unsigned f neg t r → FloatDenotes f ((if neg then ['-'] else []) ++ t) r := by
    intro t r h
    cases neg
    · exact .plain h
    · exact .minus h
  unfold showFloat
  rw [val_withSign hk] at hn ⊢
  rw [sign_withSign hk]
  by_cases h1 : k < Model.infBits f
  · rw [if_pos h1]
    simp only
    have hkm : withSign f neg k % 2 ^ (f.e + f.m) = k := by
      cases neg <;> simp [withSign, Nat.mod_eq_of_lt hk]
    rw [hkm]
    by_cases h0 : withNeg neg (magSeq f k) = 0
    · rw [if_pos h0]
      have h0 : magSeq f k = 0 := by cases neg <;> simp [withNeg] at h0 <;> omega
      have : k = 0 := magSeq_inj (h0.trans (magSeq_zero f).symm)
      subst this
      refine signed (.number (.point (ip := ['0']) (fp := ['0']) (ex := []) (by decide) (by decide) (by decide) .none) ?_)
      have : decimal (['0'] ++ ['0']) = 0 := by decide
      rw [this]
      exact isZero_withSign hf neg
    · rw [if_neg h0]
      exact signed (showPos_denotes hf h1 neg)
  · by_cases h2 : k = Model.infBits f
    · subst h2
      rw [if_neg (Nat.lt_irrefl _), if_pos rfl]
      exact signed (.inf (.inl (by unfold SameWord; decide)) (isInf_withSign neg))
    · rw [if_neg h1, if_neg h2] at hn; exact absurd rfl hn

/-! ### No letters that name a type -/

theorem positional_plain {ds : List Char} (hd : ∀ c ∈ ds, c.isDigit = true) (e : Int) :
    ∀ x ∈ positional ds e, x ≠ '\n' ∧ x ≠ 'I' ∧ x ≠ 'F' := by
  intro x hx
  have key : x.isDigit = true ∨ x = '.' := by
    unfold positional at hx
    split at hx
    · simp only [List.mem_append, List.mem_replicate, List.mem_cons, List.not_mem_nil, or_false] at hx
      rcases hx with (h | ⟨_, rfl⟩) | rfl | rfl
      · exact .inl (hd x h)
      · exact .inl (by decide)
      · exact .inr rfl
      · exact .inl (by decide)
    · split at hx
      · simp only [List.mem_append, List.mem_cons] at hx
        rcases hx with h | rfl | h
        · exact .inl (hd x (List.mem_of_mem_take h))
        · exact .inr rfl
        · exact .inl (hd x (List.mem_of_mem_drop h))
      · simp only [List.cons_append, List.mem_append, List.mem_replicate, List.mem_cons] at hx
        rcases hx with rfl | rfl | ⟨_, rfl⟩ | h
        · exact .inl (by decide)
        · exact .inr rfl
        · exact .inl (by decide)
        · exact .inl (hd x h)
  rcases key with h | rfl
  · exact digit_plain h
  · decide

theorem exponential_plain {ds : List Char} (hd : ∀ c ∈ ds, c.isDigit = true) (e : Int) :
    ∀ x ∈ exponential ds e, x ≠ '\n' ∧ x ≠ 'I' ∧ x ≠ 'F' := by
  intro x hx
  unfold exponential at hx
  simp only [List.mem_append, List.mem_cons] at hx
  rcases hx with (h | h) | rfl | h
  · exact digit_plain (hd x (List.mem_of_mem_take h))
  · split at h
    · cases h
    · rcases List.mem_cons.mp h with rfl | h
      · decide
      · exact digit_plain (hd x (List.mem_of_mem_drop h))
  · decide
  · exact written_plain _ x h

theorem showFloat_plain (f : Fmt) (b : Nat) : ∀ x ∈ showFloat f b, x ≠ '\n' ∧ x ≠ 'I' ∧ x ≠ 'F' := by
  have hneg : ∀ (c : Bool), ∀ x ∈ (if c then ['-'] else []), x ≠ '\n' ∧ x ≠ 'I' ∧ x ≠ 'F' := by
    intro c x hx
    cases c
    · cases hx
    · rw [List.mem_singleton.mp hx]; decide
  have dig : ∀ d, ∀ c ∈ Nat.toDigits 10 d, c.isDigit = true := fun d => (toDigits_digits d).1.2
  intro x hx
  unfold showFloat at hx
  split at hx
  · revert x; decide
  · rcases List.mem_append.mp hx with h | h
    · exact hneg _ x h
    · clear hx; revert x; decide
  · rcases List.mem_append.mp hx with h | h
    · exact hneg _ x h
    · split at h
      · clear hx; revert x; decide
      · unfold showPos at h
        simp only at h
        split at h
        · cases h
        · split at h
          · exact exponential_plain (dig _) _ x h
          · exact positional_plain (dig _) _ x h

/-! ### The printed value -/

theorem text_f32 (R : Ref → List Char) (x : BitVec 32) : Val.text R ⟨.f32, x⟩ =
    debugTuple ['N', 'u', 'm'] (debugTuple ['F', '3', '2'] (showFloat Spec.f32 x.toNat)) := rfl
theorem text_f64 (R : Ref → List Char) (x : BitVec 64) : Val.text R ⟨.f64, x⟩ =
    debugTuple ['N', 'u', 'm'] (debugTuple ['F', '6', '4'] (showFloat Spec.f64 x.toNat)) := rfl
theorem nan_text {f : Fmt} {b : Nat} (h : f.val b = .nan) : showFloat f b = ['N', 'a', 'N'] := by
  unfold showFloat; rw [h]

/-- What is printed for an integer, or a float that is not a NaN, names the type and denotes exactly the value. -/
theorem text_tells (R : Ref → List Char) {v : Val} (h : IsNumber v) : Tells (v.text R) v := by
  cases h with
  | i32 x =>
    refine ⟨['I', '3', '2'] ++ '(' :: written x.toInt ++ [')'], rfl, .mk (c := .i32) rfl ?_ (written_plain _)⟩
    have := Meant.i32 (written_denotes x.toInt) (by have := x.le_toInt; simpa using this) (by have := x.toInt_lt; simpa using this)
    rwa [BitVec.ofInt_toInt] at this
  | i64 x =>
    refine ⟨['I', '6', '4'] ++ '(' :: written x.toInt ++ [')'], rfl, .mk (c := .i64) rfl ?_ (written_plain _)⟩
    have := Meant.i64 (written_denotes x.toInt) (by have := x.le_toInt; simpa using this) (by have := x.toInt_lt; simpa using this)
    rwa [BitVec.ofInt_toInt] at this
  | @f32 x h =>
    exact ⟨['F', '3', '2'] ++ '(' :: showFloat Spec.f32 x.toNat ++ [')'], rfl,
      .mk (c := .f32) rfl (.f32 (showFloat_denotes f32_ok x.isLt h)) (showFloat_plain _ _)⟩
  | @f64 x h =>
    exact ⟨['F', '6', '4'] ++ '(' :: showFloat Spec.f64 x.toNat ++ [')'], rfl,
      .mk (c := .f64) rfl (.f64 (showFloat_denotes f64_ok x.isLt h)) (showFloat_plain _ _)⟩

/-- An entry stands for one value. -/
theorem typedEntry_unique {e : List Char} {v w : Val} (h : TypedEntry e v) (h' : TypedEntry e w) : v = w := by
  have a := typed_params_as_written (.cons h .nil)
  have b := typed_params_as_written (.cons h' .nil)
  rw [a] at b
  exact (List.cons.inj (Res.ok.inj b)).1

theorem tells_unique {t : List Char} {v w : Val} (h : Tells t v) (h' : Tells t w) : v = w := by
  obtain ⟨e, rfl, h⟩ := h
  obtain ⟨e', h2, h'⟩ := h'
  have : e = e' := by simpa using h2
  exact typedEntry_unique h (this ▸ h')

theorem nan_denotes {f : Fmt} (hf : FmtOk f) : FloatDenotes f ['N', 'a', 'N'] (fNanConst f) := by
  obtain ⟨h1, h2, h3⟩ := nan_pattern hf false
  exact .plain (.nan (by unfold SameWord; decide) (by simpa [withSign] using h1) (by simpa [withSign] using h2)
    (by simpa [withSign] using h3))

/-- No other value is printed the same way: a printed text that tells a number is printed only for that number. -/
theorem text_of_number {R : Ref → List Char} {v w : Val} (hv : IsNumber v) (h : Tells (w.text R) v) : w = v := by
  by_cases hw : IsNumber w
  · exact tells_unique (text_tells R hw) h
  · exfalso
    obtain ⟨c, x⟩ := w
    cases c with
    | i32 => exact hw (.i32 x)
    | i64 => exact hw (.i64 x)
    | f32 =>
      have hn : Spec.f32.val (BitVec.toNat (w := 32) x) = .nan := Classical.byContradiction fun hn => hw (.f32 hn)
      have ht : Tells (Val.text R ⟨.f32, x⟩) ⟨.f32, BitVec.ofNat 32 (fNanConst Spec.f32)⟩ :=
        ⟨['F', '3', '2'] ++ '(' :: ['N', 'a', 'N'] ++ [')'], by rw [text_f32, nan_text hn]; rfl,
          .mk (c := .f32) rfl (.f32 (x := BitVec.ofNat 32 (fNanConst Spec.f32)) (nan_denotes f32_ok)) (by decide)⟩
      have := tells_unique h ht
      subst this
      cases hv with
      | f32 hv => exact hv (nan_pattern f32_ok false).1.2
    | f64 =>
      have hn : Spec.f64.val (BitVec.toNat (w := 64) x) = .nan := Classical.byContradiction fun hn => hw (.f64 hn)
      have ht : Tells (Val.text R ⟨.f64, x⟩) ⟨.f64, BitVec.ofNat 64 (fNanConst Spec.f64)⟩ :=
        ⟨['F', '6', '4'] ++ '(' :: ['N', 'a', 'N'] ++ [')'], by rw [text_f64, nan_text hn]; rfl,
          .mk (c := .f64) rfl (.f64 (x := BitVec.ofNat 64 (fNanConst Spec.f64)) (nan_denotes f64_ok)) (by decide)⟩
      have := tells_unique h ht
      subst this
      cases hv with
      | f64 hv => exact hv (nan_pattern f64_ok false).1.2
    | v128 =>
      obtain ⟨e, he, _⟩ := h
      have := (List.cons.inj (he : 'V' :: _ = 'N' :: _)).1
      revert this; decide
    | ref =>
      obtain ⟨e, he, _⟩ := h
      have := (List.cons.inj (he : 'R' :: _ = 'N' :: _)).1
      revert this; decide

/-- Two numbers are printed alike only if they are the same value of the same type. -/
theorem result_text_injective {R : Ref → List Char} {v w : Val} (hv : IsNumber v) (h : v.text R = w.text R) : w = v :=
  text_of_number hv (h ▸ text_tells R hv)

/-- **C72** (for integers and floats that are not NaNs). The text inside `Num(…)` of the printed result, given to another run as a
parameter, passes exactly the value. -/
theorem printed_result_passes_on (R : Ref → List Char) {v : Val} (h : IsNumber v) :
    ∃ e, v.text R = ['N', 'u', 'm', '('] ++ e ++ [')'] ∧ parseParams rustFloat [e] = .ok [v] := by
  obtain ⟨e, h1, h2⟩ := text_tells R h
  exact ⟨e, h1, typed_params_as_written (.cons h2 .nil)⟩

/-! ### The line -/

theorem line_result {R : Ref → List Char} {X : Err → List Char} {r : Report} {t : List Char}
    (h : r.line R X = some (.out, "Result: ".toList ++ t)) : ∃ v, r = .result (some v) ∧ v.text R = t := by
  cases r with
  | result v =>
    cases v with
    | none => cases h
    | some v =>
      simp only [Report.line, Option.some.injEq, Prod.mk.injEq, true_and] at h
      exact ⟨v, rfl, List.append_cancel_left h⟩
  | checkpointed => simp [Report.line] at h
  | runFailed => simp [Report.line] at h
  | initFailed => simp [Report.line] at h
  | restoreFailed => simp [Report.line] at h
  | noFunction => simp [Report.line] at h
  | exited => cases h

theorem session_line {S : Wasi} {r : Res (Left S)} {vs : List Val} {st' : Store} {w' : S.W} {v : Val} (R : Ref → List Char) (X : Err → List Char)
    (h : seen r = .ok (.result vs.getLast?, some (st', w'))) (hv : vs.getLast? = some v) :
    ∃ l, r = .ok l ∧ l.report.line R X = some (.out, "Result: ".toList ++ v.text R) := by
  cases r with
  | ok l =>
    simp only [seen, Res.ok.injEq, Prod.mk.injEq] at h
    exact ⟨l, rfl, by rw [h.1, hv, Report.line]⟩
  | trap e => cases h
  | panic => cases h
  | ub => cases h

/-- **C72** (for modules and runs as in C54, and results that are integers or floats but not NaNs). A process, or a session of
processes that checkpoint and restore, that ends with a line `Result: …` telling the number `v` has run a call of which
WebAssembly says that its last result is `v`. Conversely, if WebAssembly says so, then that line is printed. -/
theorem result_line_partial {S : Wasi} (hS : WasiKeepsSize S) {T : FloatText} {lz : Lz} {A : SMod} {H : FloatHost}
    (h : A.WellFormed S H) (hx : MaxPages A) (hN : A.Named H) {P : Prog} (hc : (A.source H).compile A.globalTypes = some P) (hm : Movable (A.source H))
    (hn : (A.exports.map (·.1)).Nodup) {o : Options} (ho : o.restore = none) {f : Nat}
    (he : (o.invoke, .func f) ∈ A.exports) {t : FuncType} {ls : List (Nat × Cls)} {b : WSeq}
    (hf : (A.source H).funcs[f]? = some (.wasm t ls b)) {args : List Val} (hP : parseParams T o.params = .ok args)
    (hargs : args.map (·.cls) = t.params) {world : S.W} {st : Store} (hst : InitialStore A st)
    (hodd : ¬ Call S (A.source H) ((A.source H).info A.globalTypes) (.wasm t ls b) args st world (.odd .deviates))
    {r : Res (Left S)} (hs : Session T lz H (some A.file) o world r) (R : Ref → List Char) (X : Err → List Char) {v : Val} (hv : IsNumber v) :
    (∃ l text, r = .ok l ∧ l.report.line R X = some (.out, "Result: ".toList ++ text) ∧ Tells text v) ↔
    (∃ vs st' w', Call S (A.source H) ((A.source H).info A.globalTypes) (.wasm t ls b) args st world (.ok vs st' w') ∧ vs.getLast? = some v) := by
  constructor
  · rintro ⟨l, text, rfl, h1, h2⟩
    obtain ⟨w, h3, rfl⟩ := line_result h1
    have := text_of_number hv h2
    subst this
    rcases session_is_webassembly_partial hS h hx hN hc hm hn ho he hf hP hargs hst hodd hs with ⟨vs, st', w', k1, k2⟩ | ⟨c, _, k2⟩ | ⟨_, k2 | ⟨e, _, k2⟩⟩
    · simp only [seen, Res.ok.injEq, Prod.mk.injEq, h3, Report.result.injEq] at k2
      exact ⟨vs, st', w', k1, k2.1.symm⟩
    · simp only [seen, h3, Res.ok.injEq, Prod.mk.injEq, reduceCtorEq, false_and] at k2
    · cases k2
    · simp only [seen, h3, Res.ok.injEq, Prod.mk.injEq, reduceCtorEq, false_and] at k2
  · rintro ⟨vs, st', w', k1, k2⟩
    obtain ⟨fs, L, _, hL, hload, rfl, _, _⟩ := load_ok h hc
    obtain ⟨lv, hl⟩ := limits hc hm
    have hE : L.exportFunc o.invoke = .ok f := (export_resolves hL hn o.invoke f).mpr he
    obtain ⟨m, hM⟩ := new_ok hc hf (args := args) (by rw [← hargs, List.length_map]) L.inst world
    obtain ⟨y, h1, h2⟩ := session_shows hS hload hl ho hs hE hP hM
    have h3 := ((main_is_webassembly hS h hx hN hc hn he hf hargs false .loop false world hst hodd).1 vs st' w').mpr k1
    have hu : y = .ok (vs, st', w') := by
      have conv : ∀ z, MainShows (S := S) H false loopD false (some A.file) o.invoke args world z →
          Answers (envOf H false (fun _ => false) L.prog L.hasWasi) (loopD (envOf H false (fun _ => false) L.prog L.hasWasi)) false m z := by
        rintro z ⟨n, x, hx, rfl⟩
        refine ⟨n, x, ?_, rfl⟩
        unfold mainRun at hx
        simpa only [hload, hE, hM] using hx
      exact answers_unique (fun _ => rfl) (compile_preprocessed hc) .loop (conv _ h1) (conv _ h3)
    subst hu
    obtain ⟨l, rfl, h4⟩ := session_line R X h2 k2
    exact ⟨l, _, rfl, h4, text_tells R hv⟩

/-! ### Examples, and what goes wrong -/

/-- `Result: Num(I32(-5))`, `Result: Num(F64(0.1))`, `Result: Num(F32(1.5e-5))`, `Result: Num(F64(-0.0))` -/
example (R : Ref → List Char) (X : Err → List Char) :
    (Report.result (some ⟨.i32, (-5 : BitVec 32)⟩)).line R X = some (.out, "Result: Num(I32(-5))".toList) := by
  simp only [Report.line, Val.text]
  have : debugTuple ['N', 'u', 'm'] (debugTuple ['I', '3', '2'] (showInt (BitVec.toInt (-5 : BitVec 32)))) = "Num(I32(-5))".toList := by decide +kernel
  rw [this]; rfl
example : showFloat Spec.f64 0x3FB999999999999A = "0.1".toList := by decide +kernel
example : showFloat Spec.f32 0x377BA882 = "1.5e-5".toList := by decide +kernel
example : showFloat Spec.f64 0x8000000000000000 = "-0.0".toList := by decide +kernel
example : showFloat Spec.f64 0x4059000000000000 = "100.0".toList := by decide +kernel
example : showFloat Spec.f64 0x7FF0000000000000 = "inf".toList := by decide +kernel

/-- The session of the example module, checkpointed twice, ends with `Result: Num(I32(11))`, and that is a number. -/
example (R : Ref → List Char) (X : Err → List Char) : IsNumber (vi 11) ∧ ∃ r l, Session (S := SessionEx.wasi) SessionEx.text SessionEx.lz Sample.host (some SessionEx.B.file)
    SessionEx.opts (0 : Nat) r ∧ r = .ok l ∧ l.report.line R X = some (.out, "Result: Num(I32(11))".toList) := by
  refine ⟨.i32 _, ?_⟩
  obtain ⟨r, st, h1, h2⟩ := SessionEx.session
  obtain ⟨l, rfl, h3⟩ := session_line R X (vs := [vi 11]) (v := vi 11) h2 rfl
  refine ⟨_, l, h1, rfl, ?_⟩
  rw [h3]
  have : debugTuple ['N', 'u', 'm'] (debugTuple ['I', '3', '2'] (showInt (11#32).toInt)) = "Num(I32(11))".toList := by decide +kernel
  simp only [Val.text]
  rw [this]; rfl

/-- Finding: the printed result as a whole is not a parameter. `Num(I32(5))`, taken over as it stands, aborts the next run: the text
between the first and the last parenthesis is read as the number. -/
theorem printed_result_refused_violated (R : Ref → List Char) (T : FloatText) :
    Val.text R ⟨.i32, (5 : BitVec 32)⟩ = "Num(I32(5))".toList ∧ parseParams T ["Num(I32(5))".toList] = .panic := by
  constructor
  · have : debugTuple ['N', 'u', 'm'] (debugTuple ['I', '3', '2'] (showInt (BitVec.toInt (5 : BitVec 32)))) = "Num(I32(5))".toList := by decide +kernel
    exact this
  · have h1 : parseInt (-2147483648) 2147483647 "I32(5)".toList = none := by decide +kernel
    have h2 : parenText "Num(I32(5))".toList = some "I32(5)".toList := by decide +kernel
    have h3 : hasSub "I32".toList "Num(I32(5))".toList = true := by decide +kernel
    simp only [parseParams, parseParam, h3, if_true, h2, orPanic, Res.bind_ok, h1, Res.bind_panic]

/-- Finding: NaNs with different bits, which a program tells apart (`i32.reinterpret_f32`), are printed alike. -/
theorem nan_line_ambiguous_violated (R : Ref → List Char) :
    Val.text R ⟨.f32, (0x7FC00000 : BitVec 32)⟩ = Val.text R ⟨.f32, (0xFF800001 : BitVec 32)⟩ := by
  rw [text_f32, text_f32, nan_text (by decide), nan_text (by decide)]

end Verif.Props
