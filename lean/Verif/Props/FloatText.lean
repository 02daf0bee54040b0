import Verif.Props.Params
import Verif.Spec.FloatText
import Verif.Model.FloatText
import Verif.Lemmas.IeeeOps
import Verif.Lemmas.WebNum
/-
C53 for floating point parameters: `F32(text)` and `F64(text)` accept exactly the documented notations, pass the float
nearest to the number written, and every float but the NaNs can be passed.
-/
namespace Verif.Props
open Verif.Spec Verif.Model Verif.Lemmas

theorem isDig_eq (c : Char) : isDig c = c.isDigit := by
  have : c.isDigit = true ↔ 48 ≤ c.toNat ∧ c.toNat ≤ 57 := by
    simp only [Char.isDigit, ge_iff_le, Bool.and_eq_true, decide_eq_true_eq, UInt32.le_iff_toNat_le, Char.toNat]
    exact Iff.rfl
  rw [Bool.eq_iff_iff, this]
  simp [isDig]

theorem isDig_fun : isDig = Char.isDigit := funext isDig_eq

theorem digitsVal_acc : ∀ (ds : List Char) (a : Nat),
    ds.foldl (fun a c => 10 * a + (c.toNat - 48)) a = a * 10 ^ ds.length + decimal ds
  | [], a => by simp [decimal]
  | c :: cs, a => by
    rw [List.foldl_cons, digitsVal_acc cs, decimal_cons, List.length_cons, Nat.pow_succ, Nat.add_mul]
    have : 10 * a * 10 ^ cs.length = a * (10 ^ cs.length * 10) := by ac_rfl
    omega

theorem digitsVal_eq (ds : List Char) : digitsVal ds = decimal ds := by
  rw [digitsVal, digitsVal_acc]; simp

theorem parseExp_iff (t : List Char) (x : Int) : parseExp t = some x ↔ Denotes t x := by
  have key : ∀ ds : List Char, (ds.isEmpty || !ds.all isDig) = false ↔ IsDigits ds := by
    intro ds
    rw [isDig_fun, IsDigits]
    cases ds with
    | nil => simp
    | cons c cs => simp [List.all_eq_true]
  have nodig : ∀ c cs, c = '-' ∨ c = '+' → ¬ IsDigits (c :: cs) := by
    rintro c cs h ⟨_, hd⟩
    have := hd c (List.mem_cons_self ..)
    rcases h with rfl | rfl <;> cases this
  cases t with
  | nil =>
    simp only [parseExp, reduceCtorEq, false_iff]
    intro h
    cases h with
    | plain h => exact h.1 rfl
  | cons c cs =>
    rw [parseExp]
    by_cases h1 : c = '-'
    · subst h1
      simp only [if_true, digitsVal_eq]
      constructor
      · intro h
        split at h
        · cases h
        · rename_i hb
          cases h
          exact .minus ((key _).mp (by simpa using hb))
      · intro h
        cases h with
        | plain h => exact (nodig _ _ (.inl rfl) h).elim
        | minus h => rw [if_neg (by rw [(key _).mpr h]; simp)]
    · by_cases h2 : c = '+'
      · subst h2
        simp only [h1, if_false, if_true, digitsVal_eq, Bool.false_eq_true]
        constructor
        · intro h
          split at h
          · cases h
          · rename_i hb
            cases h
            exact .plus ((key _).mp (by simpa using hb))
        · intro h
          cases h with
          | plain h => exact (nodig _ _ (.inr rfl) h).elim
          | plus h => rw [if_neg (by rw [(key _).mpr h]; simp)]
      · simp only [h1, h2, if_false, digitsVal_eq, Bool.false_eq_true]
        constructor
        · intro h
          split at h
          · cases h
          · rename_i hb
            cases h
            exact .plain ((key _).mp (by simpa using hb))
        · intro h
          cases h with
          | plain h => rw [if_neg (by rw [(key _).mpr h]; simp)]
          | plus h => exact absurd rfl h2
          | minus h => exact absurd rfl h1

/-- digits in front of something that does not begin with a digit -/
theorem span_digits {ip r : List Char} (hi : ∀ c ∈ ip, c.isDigit = true) (hr : ∀ c cs, r = c :: cs → c.isDigit = false) :
    (ip ++ r).takeWhile isDig = ip ∧ (ip ++ r).dropWhile isDig = r := by
  rw [isDig_fun]
  induction ip with
  | nil =>
    cases r with
    | nil => exact ⟨rfl, rfl⟩
    | cons c cs => simp [hr c cs rfl]
  | cons c cs ih =>
    have := hi c (List.mem_cons_self ..)
    simp only [List.cons_append, List.takeWhile_cons, List.dropWhile_cons, this, if_true]
    exact ⟨congrArg _ (ih fun d hd => hi d (List.mem_cons_of_mem _ hd)).1, (ih fun d hd => hi d (List.mem_cons_of_mem _ hd)).2⟩

theorem exponent_head {ex : List Char} {x : Int} (h : Exponent ex x) : ∀ c cs, ex = c :: cs → c.isDigit = false ∧ c ≠ '.' := by
  intro c cs e
  cases h with
  | none => cases e
  | some hc _ => cases e; rcases hc with rfl | rfl <;> exact ⟨rfl, by decide⟩

theorem scaled_iff {n k : Nat} {r : List Char} {p : Nat × Int} : scaled n k r = some p ↔ ∃ x, Exponent r x ∧ p = (n, x - (k : Int)) := by
  cases r with
  | nil =>
    simp only [scaled, Option.some.injEq]
    constructor
    · rintro rfl; exact ⟨0, .none, by simp⟩
    · rintro ⟨x, h, rfl⟩; cases h; simp
  | cons c r =>
    simp only [scaled]
    constructor
    · intro h
      split at h
      · rename_i hc
        cases e : parseExp r with
        | none => rw [e] at h; cases h
        | some x =>
          rw [e] at h; cases h
          exact ⟨x, .some (by simpa using hc) ((parseExp_iff _ _).mp e), rfl⟩
      · cases h
    · rintro ⟨x, h, rfl⟩
      cases h with
      | some hc h => simp [(parseExp_iff _ _).mpr h, hc]

theorem takeWhile_digits (t : List Char) : ∀ c ∈ t.takeWhile isDig, c.isDigit = true := by
  intro c hc
  rw [← isDig_eq]
  exact List.all_eq_true.mp List.all_takeWhile c hc

theorem parseNumber_iff (t : List Char) (n : Nat) (x : Int) : parseNumber t = some (n, x) ↔ Decimal t n x := by
  constructor
  · intro h
    rw [parseNumber] at h
    have ht : t.takeWhile isDig ++ t.dropWhile isDig = t := List.takeWhile_append_dropWhile
    have hi := takeWhile_digits t
    generalize t.takeWhile isDig = ip at *
    generalize t.dropWhile isDig = r1 at *
    subst ht
    split at h
    · cases h
    · rename_i hne
      obtain ⟨y, hy, e⟩ := scaled_iff.mp h
      cases e
      rw [digitsVal_eq]
      unfold fraction at hy hne ⊢
      split at hy
      · rename_i r
        have hf := takeWhile_digits r
        have hr : r.takeWhile isDig ++ r.dropWhile isDig = r := List.takeWhile_append_dropWhile
        simp only at hy hne ⊢
        generalize r.takeWhile isDig = fp at *
        generalize r.dropWhile isDig = r2 at *
        subst hr
        rw [show ip ++ '.' :: (fp ++ r2) = ip ++ '.' :: fp ++ r2 by simp]
        refine .point hi hf ?_ hy
        intro e
        rw [List.append_eq_nil_iff] at e
        simp [e.1, e.2] at hne
      · simp only [List.append_nil, List.length_nil, Int.natCast_zero, Int.sub_zero]
        refine .whole ⟨?_, hi⟩ hy
        rintro rfl
        simp at hne
  · intro h
    cases h with
    | @whole ip ex x hi hx =>
      obtain ⟨e1, e2⟩ := span_digits (r := ex) hi.2 fun c cs e => (exponent_head hx c cs e).1
      have hm : fraction ex = ([], ex) := by
        unfold fraction
        split
        · exact absurd rfl (exponent_head hx _ _ rfl).2
        · rfl
      rw [parseNumber, e1, e2, hm]
      simp only
      rw [if_neg (by have := hi.1; simp [this]), scaled_iff]
      exact ⟨x, hx, by rw [digitsVal_eq]; simp⟩
    | @point ip fp ex x hi hf hne hx =>
      rw [List.append_assoc]
      obtain ⟨e1, e2⟩ := span_digits (r := '.' :: fp ++ ex) hi fun c cs e => by cases e; rfl
      obtain ⟨e3, e4⟩ := span_digits (r := ex) hf fun c cs e => (exponent_head hx c cs e).1
      have hm : fraction ('.' :: fp ++ ex) = (fp, ex) := by
        simp only [List.cons_append, fraction, e3, e4]
      rw [parseNumber, e1, e2, hm]
      simp only
      rw [if_neg (by simp only [Bool.and_eq_true, List.isEmpty_iff]; rintro ⟨rfl, rfl⟩; exact hne rfl), scaled_iff]
      exact ⟨x, hx, by rw [digitsVal_eq]⟩

/-! ### Rounding -/

theorem decToFloat_correct {f : Fmt} (hf : FmtOk f) (neg : Bool) (n : Nat) (x : Int) : f.IsDecimal neg n x (decToFloat f neg n x) := by
  unfold Fmt.IsDecimal decToFloat
  split
  · exact isZero_withSign hf neg
  · rename_i hn
    have hp : 0 < n * 2 ^ f.fracBits := Nat.mul_pos (by omega) (Nat.two_pow_pos _)
    have hp2 : 0 < n * 2 ^ f.fracBits * 10 ^ x.toNat := Nat.mul_pos hp (Nat.pow_pos (by decide))
    have hd : 0 < 10 ^ (-x).toNat := Nat.pow_pos (by decide)
    have h10 : ((10 : Int) ^ x.toNat) = ((10 ^ x.toNat : Nat) : Int) := by simp
    have h2 : ((2 : Int) ^ f.fracBits) = ((2 ^ f.fracBits : Nat) : Int) := by simp
    simp only
    rw [h10, h2]
    generalize 10 ^ (-x).toNat = d at *
    generalize 2 ^ f.fracBits = u at *
    generalize 10 ^ x.toNat = v at *
    have key := roundInt_nearest hf (n := (if neg then -((n : Int) * u) else (n : Int) * u) * v) hd
    have e1 : ((if neg then -((n : Int) * u) else (n : Int) * u) * v).natAbs = n * u * v := by
      cases neg <;> simp [Int.natAbs_mul]
    have e2 : decide ((if neg then -((n : Int) * u) else (n : Int) * u) * v < 0) = neg := by
      have p : (0 : Int) < (n : Int) * u * v := by rw [← Int.natCast_mul, ← Int.natCast_mul]; omega
      cases neg
      · simp; omega
      · simp [Int.neg_mul]; omega
    have hne : (if neg then -((n : Int) * u) else (n : Int) * u) * (v : Int) ≠ 0 := by
      intro h0; rw [h0] at e1; simp at e1; omega
    have := key hne
    unfold roundInt at this
    rw [e1, e2] at this
    exact this

theorem isDecimal_unique {f : Fmt} (hf : FmtOk f) {neg : Bool} {n : Nat} {x : Int} {r r' : Nat} (h : f.IsDecimal neg n x r)
    (h' : f.IsDecimal neg n x r') : r = r' := by
  unfold Fmt.IsDecimal at h h'
  split at h
  · rename_i hn; rw [if_pos hn] at h'; exact zero_unique h h'
  · rename_i hn; rw [if_neg hn] at h'; exact nearest_unique hf (Nat.pow_pos (by decide)) h h'

/-! ### The words -/

theorem decimal_head {t : List Char} {n : Nat} {x : Int} (h : Decimal t n x) : ∃ c cs, t = c :: cs ∧ (c.isDigit = true ∨ c = '.') := by
  cases h with
  | @whole ip ex x hi hx =>
    cases ip with
    | nil => exact absurd rfl hi.1
    | cons c cs => exact ⟨c, _, rfl, .inl (hi.2 c (List.mem_cons_self ..))⟩
  | @point ip fp ex x hi hf hne hx =>
    cases ip with
    | nil => exact ⟨'.', _, rfl, .inr rfl⟩
    | cons c cs => exact ⟨c, _, rfl, .inl (hi c (List.mem_cons_self ..))⟩

theorem lower_digit {c : Char} (h : c.isDigit = true ∨ c = '.') : c.toLower = c := by
  rw [Char.toLower]
  split
  · rename_i hu
    rcases h with h | rfl
    · simp only [Char.isDigit, Bool.and_eq_true, decide_eq_true_eq, UInt32.le_iff_toNat_le] at h
      simp only [UInt32.le_iff_toNat_le] at hu
      have a1 : '9'.val.toNat = 57 := rfl
      have a2 : 'A'.val.toNat = 65 := rfl
      exfalso
      have b1 := h.2
      have b2 := hu.1
      rw [a2] at b2
      have : c.val.toNat ≤ 57 := b1
      omega
    · revert hu; decide
  · rfl

theorem not_word {t : List Char} {n : Nat} {x : Int} (h : Decimal t n x) {c : Char} {w : List Char} (hc : c = 'i' ∨ c = 'n') :
    ¬ SameWord t (c :: w) := by
  obtain ⟨d, cs, rfl, hd⟩ := decimal_head h
  intro e
  rw [SameWord, List.map_cons, lower_digit hd] at e
  cases e
  rcases hd with hd | hd <;> rcases hc with rfl | rfl
  · cases hd
  · cases hd
  · cases hd
  · cases hd

theorem nanConst_eq (f : Fmt) : fNanConst f = Model.infBits f + 2 ^ (f.m - 1) := rfl

theorem nan_pattern {f : Fmt} (hf : FmtOk f) (neg : Bool) : f.IsNaN (withSign f neg (fNanConst f)) ∧
    f.sign (withSign f neg (fNanConst f)) = neg ∧ f.mant (withSign f neg (fNanConst f)) = 2 ^ (f.m - 1) := by
  have hm := hf.m
  have hM : 2 ^ f.m = 2 * 2 ^ (f.m - 1) := by rw [← Nat.pow_succ']; congr 1; omega
  have hp := Nat.two_pow_pos (f.m - 1)
  have hlt : fNanConst f < 2 ^ (f.e + f.m) := by
    have he := Nat.two_pow_pos f.e
    rw [nanConst_eq, Model.infBits, Nat.pow_add, Nat.sub_mul, Nat.one_mul]
    have := Nat.mul_le_mul_right (2 ^ f.m) he
    omega
  refine ⟨⟨withSign_lt hlt, ?_⟩, sign_withSign hlt, ?_⟩
  · rw [val_withSign hlt, if_neg (by rw [nanConst_eq]; omega), if_neg (by rw [nanConst_eq]; omega)]
  · rw [mant_withSign, fNanConst, Nat.mul_add_mod_self_right, Nat.mod_eq_of_lt (by omega)]

theorem nan_unique {f : Fmt} {neg : Bool} {r : Nat} (h : f.IsNaN r) (hs : f.sign r = neg) (hm : f.mant r = 2 ^ (f.m - 1)) :
    r = withSign f neg (fNanConst f) := by
  obtain ⟨hr, hv⟩ := h
  obtain ⟨neg', k, rfl, hk⟩ := split_sign hr
  rw [sign_withSign hk] at hs
  subst hs
  rw [mant_withSign] at hm
  rw [val_withSign hk] at hv
  split at hv
  · cases hv
  · split at hv
    · cases hv
    · congr 1
      rename_i h1 h2
      have hA := Nat.two_pow_pos f.m
      have hdm := Nat.div_add_mod k (2 ^ f.m)
      have hle : k / 2 ^ f.m < 2 ^ f.e := by
        rw [Nat.div_lt_iff_lt_mul hA, ← Nat.pow_add]; exact hk
      have hge : 2 ^ f.e - 1 ≤ k / 2 ^ f.m := by
        rw [Nat.le_div_iff_mul_le hA]
        have : Model.infBits f = (2 ^ f.e - 1) * 2 ^ f.m := rfl
        omega
      have : k / 2 ^ f.m = 2 ^ f.e - 1 := by omega
      rw [this, hm, Nat.mul_comm] at hdm
      exact hdm.symm

/-! ### The parser -/

theorem parseUnsigned_iff {f : Fmt} (hf : FmtOk f) (neg : Bool) (t : List Char) (r : Nat) :
    parseUnsigned f neg t = some r ↔ Unsigned f neg t r := by
  unfold parseUnsigned
  cases e : parseNumber t with
  | some p =>
    obtain ⟨n, x⟩ := p
    have hd := (parseNumber_iff _ _ _).mp e
    simp only [Option.some.injEq]
    constructor
    · rintro rfl
      exact .number hd (decToFloat_correct hf neg n x)
    · intro h
      cases h with
      | number h hr =>
        have := (parseNumber_iff _ _ _).mpr h
        rw [e] at this; cases this
        exact isDecimal_unique hf (decToFloat_correct hf neg n x) hr
      | inf h _ => rcases h with h | h <;> exact (not_word hd (.inl rfl) h).elim
      | nan h _ _ _ => exact (not_word hd (.inr rfl) h).elim
  | none =>
    have nd : ∀ n x, ¬ Decimal t n x := fun n x h => by rw [(parseNumber_iff _ _ _).mpr h] at e; cases e
    simp only
    split
    · rename_i h
      have h : SameWord t ['i', 'n', 'f'] ∨ SameWord t ['i', 'n', 'f', 'i', 'n', 'i', 't', 'y'] := by
        simpa [SameWord] using h
      simp only [Option.some.injEq]
      constructor
      · rintro rfl
        exact .inf h (isInf_withSign neg)
      · intro hu
        cases hu with
        | number h _ => exact (nd _ _ h).elim
        | inf _ hr => exact inf_unique (isInf_withSign neg) hr
        | nan h' _ _ _ =>
          rcases h with h | h <;> exact absurd (h.symm.trans h') (by decide)
    · rename_i h
      split
      · rename_i h'
        simp only [Option.some.injEq]
        constructor
        · rintro rfl
          exact .nan h' (nan_pattern hf neg).1 (nan_pattern hf neg).2.1 (nan_pattern hf neg).2.2
        · intro hu
          cases hu with
          | number h _ => exact (nd _ _ h).elim
          | inf h _ => rcases h with h | h <;> exact absurd (h.symm.trans h') (by decide)
          | nan _ hr hs hm => exact (nan_unique hr hs hm).symm
      · rename_i h'
        simp only [reduceCtorEq, false_iff]
        intro hu
        cases hu with
        | number h _ => exact nd _ _ h
        | inf hw _ => exact h (by simpa [SameWord] using hw)
        | nan hw _ _ _ => exact h' hw

theorem unsigned_no_sign {f : Fmt} {neg : Bool} {c : Char} {cs : List Char} {r : Nat} (hc : c = '+' ∨ c = '-')
    (h : Unsigned f neg (c :: cs) r) : False := by
  cases h with
  | number h _ =>
    obtain ⟨d, ds, e, hd⟩ := decimal_head h
    cases e
    rcases hc with rfl | rfl <;> rcases hd with hd | hd <;> cases hd
  | inf h _ =>
    rcases hc with rfl | rfl <;> rcases h with h | h <;> cases h
  | nan h _ _ _ => rcases hc with rfl | rfl <;> cases h

theorem unsigned_ne_nil {f : Fmt} {neg : Bool} {r : Nat} (h : Unsigned f neg [] r) : False := by
  cases h with
  | number h _ => obtain ⟨d, ds, e, hd⟩ := decimal_head h; cases e
  | inf h _ => rcases h with h | h <;> cases h
  | nan h _ _ _ => cases h

theorem parseFloat_iff {f : Fmt} (hf : FmtOk f) (t : List Char) (r : Nat) : parseFloat f t = some r ↔ FloatDenotes f t r := by
  cases t with
  | nil =>
    simp only [parseFloat, reduceCtorEq, false_iff]
    intro h
    cases h with
    | plain h => exact unsigned_ne_nil h
  | cons c cs =>
    rw [parseFloat]
    split
    · rename_i hc; subst hc
      rw [parseUnsigned_iff hf]
      constructor
      · exact .minus
      · intro h
        cases h with
        | plain h => exact (unsigned_no_sign (.inr rfl) h).elim
        | minus h => exact h
    · split
      · rename_i hc; subst hc
        rw [parseUnsigned_iff hf]
        constructor
        · exact .plus
        · intro h
          cases h with
          | plain h => exact (unsigned_no_sign (.inl rfl) h).elim
          | plus h => exact h
      · rename_i h1 h2
        rw [parseUnsigned_iff hf]
        constructor
        · exact .plain
        · intro h
          cases h with
          | plain h => exact h
          | plus h => exact absurd rfl h2
          | minus h => exact absurd rfl h1

theorem isDecimal_lt {f : Fmt} {neg : Bool} {n : Nat} {x : Int} {r : Nat} (h : f.IsDecimal neg n x r) : r < 2 ^ f.width := by
  unfold Fmt.IsDecimal at h
  split at h
  · exact h.1
  · exact h.range

theorem unsigned_lt {f : Fmt} {neg : Bool} {t : List Char} {r : Nat} (h : Unsigned f neg t r) : r < 2 ^ f.width := by
  cases h with
  | number _ hr => exact isDecimal_lt hr
  | inf _ hr => exact hr.1
  | nan _ hr _ _ => exact hr.1

theorem floatDenotes_lt {f : Fmt} {t : List Char} {r : Nat} (h : FloatDenotes f t r) : r < 2 ^ f.width := by
  cases h with
  | plain h => exact unsigned_lt h
  | plus h => exact unsigned_lt h
  | minus h => exact unsigned_lt h

theorem rustFloat_f32 (t : List Char) (x : BitVec 32) : rustFloat.f32 t = some x ↔ FloatDenotes f32 t x.toNat := by
  rw [← parseFloat_iff f32_ok]
  simp only [rustFloat, Option.map_eq_some_iff]
  constructor
  · rintro ⟨r, h, rfl⟩
    have : r < 2 ^ 32 := floatDenotes_lt ((parseFloat_iff f32_ok _ _).mp h)
    rw [BitVec.toNat_ofNat, Nat.mod_eq_of_lt this]
    exact h
  · intro h
    exact ⟨_, h, BitVec.eq_of_toNat_eq (by rw [BitVec.toNat_ofNat, Nat.mod_eq_of_lt x.isLt])⟩

theorem rustFloat_f64 (t : List Char) (x : BitVec 64) : rustFloat.f64 t = some x ↔ FloatDenotes f64 t x.toNat := by
  rw [← parseFloat_iff f64_ok]
  simp only [rustFloat, Option.map_eq_some_iff]
  constructor
  · rintro ⟨r, h, rfl⟩
    have : r < 2 ^ 64 := floatDenotes_lt ((parseFloat_iff f64_ok _ _).mp h)
    rw [BitVec.toNat_ofNat, Nat.mod_eq_of_lt this]
    exact h
  · intro h
    exact ⟨_, h, BitVec.eq_of_toNat_eq (by rw [BitVec.toNat_ofNat, Nat.mod_eq_of_lt x.isLt])⟩

theorem meant_iff (c : Cls) (t : List Char) (v : Val) : Meaning rustFloat.f32 rustFloat.f64 c t v ↔ Meant c t v := by
  constructor
  · intro h
    cases h with
    | i32 h lo hi => exact .i32 h lo hi
    | i64 h lo hi => exact .i64 h lo hi
    | f32 h => exact .f32 ((rustFloat_f32 _ _).mp h)
    | f64 h => exact .f64 ((rustFloat_f64 _ _).mp h)
  · intro h
    cases h with
    | i32 h lo hi => exact .i32 h lo hi
    | i64 h lo hi => exact .i64 h lo hi
    | f32 h => exact .f32 ((rustFloat_f32 _ _).mpr h)
    | f64 h => exact .f64 ((rustFloat_f64 _ _).mpr h)

/-- **C53.** Entries written `TYPE(number)`, integers and floating point numbers alike, are passed to the function as exactly the
values they denote, in order. -/
theorem typed_params_as_written {ps : List (List Char)} {vs : List Val} (h : Each TypedEntry ps vs) :
    parseParams rustFloat ps = .ok vs := by
  refine params_as_written ?_
  induction h with
  | nil => exact .nil
  | cons h _ ih =>
    obtain ⟨hn, hm, ht⟩ := h
    exact .cons (.mk hn ((meant_iff _ _ _).mpr hm) ht) ih

/-- Conversely, whatever reaches the function was written so: every entry names no type and is dropped, or names one and contributes the
value that the text between its parentheses denotes. -/
theorem typed_params_only_as_written {ps : List (List Char)} {vs : List Val} (h : parseParams rustFloat ps = .ok vs) :
    ∃ ws : List (Option Val), vs = ws.filterMap id ∧ Each (fun p w =>
      (w = none ∧ ∀ c n, typeName c = some n → ¬ Occurs n p) ∨
      (∃ c n t v, w = some v ∧ typeName c = some n ∧ Occurs n p ∧ (∃ a b, p = a ++ '(' :: t ++ ')' :: b) ∧ Meant c t v)) ps ws := by
  obtain ⟨ws, he, hv⟩ := params_only_as_written h
  refine ⟨ws, hv, ?_⟩
  clear h hv
  induction he with
  | nil => exact .nil
  | cons h _ ih =>
    refine .cons ?_ ih
    cases h with
    | skipped h => exact .inl ⟨rfl, h⟩
    | value hn ho ht hm => exact .inr ⟨_, _, _, _, rfl, hn, ho, ht, (meant_iff _ _ _).mp hm⟩

/-! ### Every float but the NaNs can be passed -/

/-- an exact notation of the finite float `± k * 2^-F`: `± (k * 5^F) e -F` -/
def writtenF (f : Fmt) (neg : Bool) (k : Nat) : List Char :=
  (if neg then ['-'] else []) ++ (Nat.toDigits 10 (k * 5 ^ f.fracBits) ++ 'e' :: written (-(f.fracBits : Int)))

theorem digits_written (n : Nat) : IsDigits (Nat.toDigits 10 n) ∧ decimal (Nat.toDigits 10 n) = n :=
  ⟨⟨Nat.toDigits_ne_nil, fun _ hc => Nat.isDigit_of_mem_toDigits (by decide) (by decide) hc⟩, by
    rw [decimal_eq, Nat.ofDigitChars_toDigits (by decide) (by decide)]⟩

theorem writtenF_denotes {f : Fmt} (hf : FmtOk f) {neg : Bool} {k : Nat} (hk : k < Model.infBits f) :
    FloatDenotes f (writtenF f neg (magSeq f k)) (withSign f neg k) := by
  obtain ⟨h1, h2⟩ := digits_written (magSeq f k * 5 ^ f.fracBits)
  have hu : Unsigned f neg (Nat.toDigits 10 (magSeq f k * 5 ^ f.fracBits) ++ 'e' :: written (-(f.fracBits : Int))) (withSign f neg k) := by
    refine .number (.whole h1 (.some (.inl rfl) (written_denotes _))) ?_
    rw [h2]
    have := decToFloat_correct hf neg (magSeq f k * 5 ^ f.fracBits) (-(f.fracBits : Int))
    have e : decToFloat f neg (magSeq f k * 5 ^ f.fracBits) (-(f.fracBits : Int)) = withSign f neg k := by
      have h5 : 0 < 5 ^ f.fracBits := Nat.pow_pos (by decide)
      unfold decToFloat
      split
      · rename_i h0
        have h0 : magSeq f k = 0 := by
          rcases Nat.mul_eq_zero.mp h0 with h | h
          · exact h
          · omega
        rw [magSeq_inj (h0.trans (magSeq_zero f).symm)]
      · have e1 : (-(f.fracBits : Int)).toNat = 0 := by omega
        have e2 : (- -(f.fracBits : Int)).toNat = f.fracBits := by omega
        have e3 : magSeq f k * 5 ^ f.fracBits * 2 ^ f.fracBits = magSeq f k * 10 ^ f.fracBits := by
          rw [Nat.mul_assoc, ← Nat.mul_pow]
        rw [e1, e2, e3, Nat.pow_zero, Nat.mul_one, roundRat_exact hf (Nat.pow_pos (by decide)) (Nat.le_of_lt hk)]
    rwa [e] at this
  cases neg
  · exact .plain hu
  · exact .minus hu

theorem writtenF_plain (f : Fmt) (neg : Bool) (k : Nat) : ∀ x ∈ writtenF f neg k, x ≠ '\n' ∧ x ≠ 'I' ∧ x ≠ 'F' := by
  intro x hx
  rcases List.mem_append.mp hx with h | h
  · split at h
    · rw [List.mem_singleton.mp h]; decide
    · cases h
  · rcases List.mem_append.mp h with h | h
    · exact digit_plain (Nat.isDigit_of_mem_toDigits (by decide) (by decide) h)
    · rcases List.mem_cons.mp h with rfl | h
      · decide
      · exact written_plain _ _ h

theorem every_float_written {f : Fmt} (hf : FmtOk f) {r : Nat} (hr : r < 2 ^ f.width) (h : f.val r ≠ .nan) :
    ∃ t, FloatDenotes f t r ∧ ∀ x ∈ t, x ≠ '\n' ∧ x ≠ 'I' ∧ x ≠ 'F' := by
  obtain ⟨neg, k, rfl, hk⟩ := split_sign hr
  rw [val_withSign hk] at h
  by_cases h1 : k < Model.infBits f
  · exact ⟨_, writtenF_denotes hf h1, writtenF_plain _ _ _⟩
  · by_cases h2 : k = Model.infBits f
    · subst h2
      cases neg
      · exact ⟨['i', 'n', 'f'], .plain (.inf (.inl (by unfold SameWord; decide)) (isInf_withSign false)), by decide⟩
      · exact ⟨['-', 'i', 'n', 'f'], .minus (.inf (.inl (by unfold SameWord; decide)) (isInf_withSign true)), by decide⟩
    · rw [if_neg h1, if_neg h2] at h; exact absurd rfl h

/-- Every f32 argument that is not a NaN can be passed, bit by bit. -/
theorem every_f32_passable (x : BitVec 32) (h : f32.val x.toNat ≠ .nan) :
    ∃ t, parseParams rustFloat [['F', '3', '2'] ++ '(' :: t ++ [')']] = .ok [⟨.f32, x⟩] := by
  obtain ⟨t, h1, h2⟩ := every_float_written f32_ok x.isLt h
  exact ⟨t, typed_params_as_written (.cons (.mk (c := .f32) rfl (.f32 h1) h2) .nil)⟩

/-- Every f64 argument that is not a NaN can be passed, bit by bit. -/
theorem every_f64_passable (x : BitVec 64) (h : f64.val x.toNat ≠ .nan) :
    ∃ t, parseParams rustFloat [['F', '6', '4'] ++ '(' :: t ++ [')']] = .ok [⟨.f64, x⟩] := by
  obtain ⟨t, h1, h2⟩ := every_float_written f64_ok x.isLt h
  exact ⟨t, typed_params_as_written (.cons (.mk (c := .f64) rfl (.f64 h1) h2) .nil)⟩

/-! ### Examples -/

/-- `F64(0.1)`, `F32(-1.5e3)`, `F32(.5)`, `F64(-inf)`, `F32(1e400)` -/
example : parseFloat f64 "0.1".toList = some 0x3FB999999999999A := by decide +kernel
example : parseFloat f32 "-1.5e3".toList = some 0xC4BB8000 := by decide +kernel
example : parseFloat f32 ".5".toList = some 0x3F000000 := by decide +kernel
example : parseFloat f64 "-inf".toList = some 0xFFF0000000000000 := by decide +kernel
example : parseFloat f32 "1e40".toList = some 0x7F800000 := by decide +kernel
example : parseFloat f32 "NaN".toList = some 0x7FC00000 := by decide +kernel
example : parseFloat f32 "1.2.3".toList = none ∧ parseFloat f32 "e5".toList = none ∧ parseFloat f32 "1e".toList = none ∧
    parseFloat f32 " 1".toList = none ∧ parseFloat f32 ".".toList = none ∧ parseFloat f32 "0x1".toList = none := by decide +kernel
example : parseParams rustFloat ["F64(0.1)".toList, "I32(-3)".toList] =
    .ok [⟨.f64, (0x3FB999999999999A : BitVec 64)⟩, ⟨.i32, (-3 : BitVec 32)⟩] := by decide +kernel

end Verif.Props
