import Verif.Lemmas.Float
/- C03 (reinterpretation), C04, C05, C06. -/
namespace Verif.Props
open Verif.Spec Verif.Model Verif.Lemmas

/-- the two formats WebAssembly has -/
def IsWasmFmt (f : Fmt) : Prop := f = f32 ∨ f = f64

theorem inf_pos {f : Fmt} (hf : IsWasmFmt f) : 0 < infBits f := by
  rcases hf with rfl | rfl <;> decide

/-- C06. Every float comparison returns 1 exactly when the WebAssembly relation holds of the two values (NaN compares
false except for `ne`; both zeros are the number 0), and 0 otherwise. -/
theorem float_relop_correct (f : Fmt) (hf : IsWasmFmt f) (op : FRelOp) (a b : Nat) (ha : a < 2 ^ f.width)
    (hb : b < 2 ^ f.width) :
    (frelop op (f.val a) (f.val b) → fRel op f a b = 1) ∧ (¬ frelop op (f.val a) (f.val b) → fRel op f a b = 0) := by
  have hi := inf_pos hf
  have h1 := fLt_iff f a b ha hb hi
  have h2 := fLt_iff f b a hb ha hi
  have h3 := fEq_iff f a b ha hb hi
  cases op <;> simp only [frelop, fRel, ← h1, ← h2, ← h3] <;>
    cases fLt f a b <;> cases fLt f b a <;> cases fEq f a b <;> simp

/-- C06. `abs`, `neg` and `copysign` keep exponent and mantissa and only set the sign bit as WebAssembly says, for
every pattern including NaNs. -/
theorem float_sign_ops_correct (f : Fmt) (a b : Nat) (ha : a < 2 ^ f.width) (hb : b < 2 ^ f.width) :
    (f.SameMagnitude (fAbs f a) a ∧ f.sign (fAbs f a) = false ∧ fAbs f a < 2 ^ f.width) ∧
    (f.SameMagnitude (fNegate f a) a ∧ f.sign (fNegate f a) = !f.sign a ∧ fNegate f a < 2 ^ f.width) ∧
    (f.SameMagnitude (fCopysign f a b) a ∧ f.sign (fCopysign f a b) = f.sign b ∧ fCopysign f a b < 2 ^ f.width) := by
  have hw : 2 ^ f.width = 2 * 2 ^ (f.e + f.m) := by
    rw [Fmt.width, Nat.add_assoc, Nat.add_comm 1, Nat.pow_succ, Nat.mul_comm]
  have hp : 0 < 2 ^ (f.e + f.m) := Nat.pow_pos (by decide)
  have hml : fMagBits f a < 2 ^ (f.e + f.m) := Nat.mod_lt _ hp
  have same : ∀ x, fMagBits f x = fMagBits f a → f.SameMagnitude x a := by
    intro x hx
    exact ⟨by rw [expo_eq, expo_eq, hx], by rw [mant_eq, mant_eq, hx]⟩
  have hlt1 : fAbs f a < 2 ^ f.width := by unfold fAbs; omega
  have hlt3 : fCopysign f a b < 2 ^ f.width := by unfold fCopysign; split <;> omega
  have hlt2 : fNegate f a < 2 ^ f.width := by unfold fNegate fNeg?; split <;> simp_all <;> omega
  refine ⟨⟨same _ ?_, ?_, hlt1⟩, ⟨same _ ?_, ?_, hlt2⟩, ⟨same _ ?_, ?_, hlt3⟩⟩
  · unfold fAbs fMagBits; rw [Nat.mod_mod]
  · rw [sign_eq f _ hlt1]; unfold fAbs fNeg?; simp; exact hml
  · unfold fNegate fNeg?
    by_cases h : 2 ^ (f.e + f.m) ≤ a
    · simp only [h, decide_true, if_true]; unfold fMagBits; rw [← Nat.mod_eq_sub_mod h]
    · simp only [h, decide_false]; unfold fMagBits; simp
  · rw [sign_eq f _ hlt2, sign_eq f _ ha]; unfold fNegate
    by_cases h : 2 ^ (f.e + f.m) ≤ a
    · simp only [fNeg?, h, decide_true, if_true, Bool.not_true, decide_eq_false_iff_not]; omega
    · simp only [fNeg?, h, decide_false, Bool.not_false, decide_eq_true_iff]; simp
  · unfold fCopysign; unfold fMagBits; split <;> simp
  · rw [sign_eq f _ hlt3, sign_eq f _ hb]; unfold fCopysign
    cases h : fNeg? f b
    · simp only [fNeg?, Bool.false_eq_true, if_false, decide_eq_false_iff_not]; omega
    · simp only [fNeg?, if_true, decide_eq_true_iff]; omega

theorem not_nan_of {f : Fmt} {b : Nat} (h : fIsNan f b = false) : f.val b ≠ .nan := by
  intro hh; rw [(isNan_iff f b).mpr hh] at h; cases h

theorem leZ_total (f : Fmt) (hf : IsWasmFmt f) (a b : Nat) (na : f.val a ≠ .nan) (nb : f.val b ≠ .nan)
    (h : ¬ (f.val a).Lt (f.val b)) : (f.val b).Lt (f.val a) ∨ f.val a = f.val b := by
  have hi := inf_pos hf
  rw [val_lt_iff f a b na nb hi] at h
  rw [val_lt_iff f b a nb na hi, val_eq_iff f a b na nb hi]
  omega

theorem canon_nan (f : Fmt) (hf : IsWasmFmt f) : f.CanonicalNaN (fNanConst f) := by
  unfold Fmt.CanonicalNaN
  rcases hf with rfl | rfl <;> decide +kernel

/-- same value, not both zero: same sign -/
theorem same_sign (f : Fmt) (hf : IsWasmFmt f) (a b : Nat) (na : f.val a ≠ .nan) (nb : f.val b ≠ .nan)
    (h : f.val a = f.val b) (hz : f.val a ≠ .fin 0) : f.sign a = f.sign b := by
  have hi := inf_pos hf
  rcases val_cases f a na with ⟨ha1, ha2⟩ | ⟨ha1, ha2⟩ <;> rcases val_cases f b nb with ⟨hb1, hb2⟩ | ⟨hb1, hb2⟩ <;>
    rw [ha2, hb2] at h
  · injection h
  · cases h
  · cases h
  · rw [ha2] at hz
    have h' : gval f a = gval f b := by injection h
    have hz' : gval f a ≠ 0 := fun hh => hz (by rw [hh])
    unfold gval at h' hz'
    cases hsa : f.sign a <;> cases hsb : f.sign b <;> simp only [hsa, hsb, if_true, if_false, Bool.false_eq_true] at h' hz' ⊢ <;>
      omega

theorem val_zero {f : Fmt} (hf : IsWasmFmt f) : f.val 0 = .fin 0 := by
  rcases hf with rfl | rfl <;> decide +kernel

theorem val_negZero {f : Fmt} (hf : IsWasmFmt f) : f.val (fNegZero f) = .fin 0 ∧ f.sign (fNegZero f) = true := by
  rcases hf with rfl | rfl <;> decide +kernel

theorem sign_zero {f : Fmt} (hf : IsWasmFmt f) : f.sign 0 = false := by
  rcases hf with rfl | rfl <;> decide +kernel

/-- a zero of a given sign is one of the two zero patterns -/
theorem zero_bits {f : Fmt} (hf : IsWasmFmt f) (a : Nat) (ha : a < 2 ^ f.width) (h : f.val a = .fin 0) :
    a = if f.sign a then fNegZero f else 0 := by
  have hi := inf_pos hf
  have na : f.val a ≠ .nan := by rw [h]; simp
  have hm : fMagBits f a = 0 := by
    rcases val_cases f a na with ⟨ha1, ha2⟩ | ⟨ha1, ha2⟩
    · rw [h] at ha2; cases ha2
    · rw [h] at ha2
      have hg : gval f a = 0 := by injection ha2 with h1; exact h1.symm
      have : gmag f (fMagBits f a) = gmag f 0 := by
        rw [gmag_zero]; unfold gval at hg; split at hg <;> omega
      exact gmag_inj f this
  have hnz := val_negZero hf
  cases hs : f.sign a
  · apply bits_eq f a 0 ha (Nat.pow_pos (by decide)) (by rw [hs, sign_zero hf])
    rw [hm]; unfold fMagBits; simp
  · apply bits_eq f a (fNegZero f) ha ?_ (by rw [hs, hnz.2])
    · rw [hm]; unfold fMagBits fNegZero; simp
    · rcases hf with rfl | rfl <;> decide +kernel

theorem leZ_refl (f : Fmt) (a : Nat) : f.LeZ a a := .inr ⟨rfl, by cases f.sign a <;> simp⟩

/-- C06. `f32.min`/`f64.min`. -/
theorem float_min_correct (f : Fmt) (hf : IsWasmFmt f) (a b : Nat) (ha : a < 2 ^ f.width) (hb : b < 2 ^ f.width) :
    IsFMin f a b (fMin f a b) := by
  have hi := inf_pos hf
  unfold IsFMin fMin
  by_cases hn : f.val a = .nan ∨ f.val b = .nan
  · rw [if_pos hn, if_pos (by rcases hn with h | h <;> simp [(isNan_iff f _).mpr h])]
    exact canon_nan f hf
  · rw [not_or] at hn
    have hna : fIsNan f a = false := by rw [Bool.eq_false_iff]; exact fun h => hn.1 ((isNan_iff f a).mp h)
    have hnb : fIsNan f b = false := by rw [Bool.eq_false_iff]; exact fun h => hn.2 ((isNan_iff f b).mp h)
    rw [if_neg (by simp [hn.1, hn.2]), if_neg (by simp [hna, hnb])]
    have ea := fEq_iff f a 0 ha (Nat.pow_pos (by decide)) hi
    have eb := fEq_iff f b 0 hb (Nat.pow_pos (by decide)) hi
    rw [val_zero hf] at ea eb
    by_cases hz : f.val a = .fin 0 ∧ f.val b = .fin 0
    · rw [if_pos (by rw [Bool.and_eq_true, ea, eb]; exact ⟨⟨hz.1, hn.1⟩, ⟨hz.2, hn.2⟩⟩)]
      have za := zero_bits hf a ha hz.1
      have zb := zero_bits hf b hb hz.2
      rw [← sign_eq f a ha, ← sign_eq f b hb]
      have hnz := val_negZero hf
      have hvz := val_zero hf
      have hsz := sign_zero hf
      cases hsa : f.sign a <;> cases hsb : f.sign b <;> simp only [hsa, hsb, if_true, if_false, Bool.false_eq_true] at za zb <;>
        subst za <;> subst zb <;> simp [Fmt.LeZ, hnz, hvz, hsz]
    · rw [if_neg (by
        rw [Bool.and_eq_true, ea, eb]; rintro ⟨h1, h2⟩; exact hz ⟨h1.1, h2.1⟩)]
      by_cases hlt : fLt f a b = true
      · rw [if_pos hlt]
        exact ⟨.inl rfl, leZ_refl f a, .inl ((fLt_iff f a b ha hb hi).mp hlt)⟩
      · rw [if_neg hlt]
        rw [fLt_iff f a b ha hb hi] at hlt
        refine ⟨.inr rfl, ?_, leZ_refl f b⟩
        rcases leZ_total f hf a b hn.1 hn.2 hlt with h | h
        · exact .inl h
        · refine .inr ⟨h.symm, ?_⟩
          have := same_sign f hf a b hn.1 hn.2 h (fun h0 => hz ⟨h0, by rw [← h, h0]⟩)
          rw [this]; cases f.sign b <;> simp

/-- C06. `f32.max`/`f64.max`. -/
theorem float_max_correct (f : Fmt) (hf : IsWasmFmt f) (a b : Nat) (ha : a < 2 ^ f.width) (hb : b < 2 ^ f.width) :
    IsFMax f a b (fMax f a b) := by
  have hi := inf_pos hf
  unfold IsFMax fMax
  by_cases hn : f.val a = .nan ∨ f.val b = .nan
  · rw [if_pos hn, if_pos (by rcases hn with h | h <;> simp [(isNan_iff f _).mpr h])]
    exact canon_nan f hf
  · rw [not_or] at hn
    have hna : fIsNan f a = false := by rw [Bool.eq_false_iff]; exact fun h => hn.1 ((isNan_iff f a).mp h)
    have hnb : fIsNan f b = false := by rw [Bool.eq_false_iff]; exact fun h => hn.2 ((isNan_iff f b).mp h)
    rw [if_neg (by simp [hn.1, hn.2]), if_neg (by simp [hna, hnb])]
    have ea := fEq_iff f a 0 ha (Nat.pow_pos (by decide)) hi
    have eb := fEq_iff f b 0 hb (Nat.pow_pos (by decide)) hi
    rw [val_zero hf] at ea eb
    by_cases hz : f.val a = .fin 0 ∧ f.val b = .fin 0
    · rw [if_pos (by rw [Bool.and_eq_true, ea, eb]; exact ⟨⟨hz.1, hn.1⟩, ⟨hz.2, hn.2⟩⟩)]
      have za := zero_bits hf a ha hz.1
      have zb := zero_bits hf b hb hz.2
      rw [← sign_eq f a ha, ← sign_eq f b hb]
      have hnz := val_negZero hf
      have hvz := val_zero hf
      have hsz := sign_zero hf
      cases hsa : f.sign a <;> cases hsb : f.sign b <;> simp only [hsa, hsb, if_true, if_false, Bool.false_eq_true] at za zb <;>
        subst za <;> subst zb <;> simp [Fmt.LeZ, hnz, hvz, hsz]
    · rw [if_neg (by
        rw [Bool.and_eq_true, ea, eb]; rintro ⟨h1, h2⟩; exact hz ⟨h1.1, h2.1⟩)]
      by_cases hlt : fLt f a b = true
      · rw [if_pos hlt]
        exact ⟨.inr rfl, .inl ((fLt_iff f a b ha hb hi).mp hlt), leZ_refl f b⟩
      · rw [if_neg hlt]
        rw [fLt_iff f a b ha hb hi] at hlt
        refine ⟨.inl rfl, leZ_refl f a, ?_⟩
        rcases leZ_total f hf a b hn.1 hn.2 hlt with h | h
        · exact .inl h
        · refine .inr ⟨h.symm, ?_⟩
          have := same_sign f hf a b hn.1 hn.2 h (fun h0 => hz ⟨h0, by rw [← h, h0]⟩)
          rw [this]; cases f.sign b <;> simp

/-! ### truncation -/

theorem scale_pos (f : Fmt) : (0 : Int) < 2 ^ f.fracBits := by
  have := Nat.pow_pos (n := f.fracBits) (show 0 < 2 by decide)
  exact_mod_cast this

/-- the value of `MAX as fNN`: the maximum itself when the mantissa can hold it, else the next power of two -/
def maxAsFloat : TruncOp → Int
  | .i32_f32_s => 2 ^ 31
  | .i32_f32_u => 2 ^ 32
  | .i32_f64_s => 2 ^ 31 - 1
  | .i32_f64_u => 2 ^ 32 - 1
  | .i64_f32_s | .i64_f64_s => 2 ^ 63
  | .i64_f32_u | .i64_f64_u => 2 ^ 64

theorem lo_const (op : TruncOp) : intAsFloat op.shape.2.2 op.lo = .fin (op.lo * 2 ^ op.shape.2.2.fracBits) := by
  unfold intAsFloat
  have : (if op.lo < 0 then -(rne (op.shape.2.2.m + 1) op.lo.natAbs : Int)
      else (rne (op.shape.2.2.m + 1) op.lo.natAbs : Int)) = op.lo := by
    cases op <;> decide +kernel
  rw [this]

theorem hi_const (op : TruncOp) :
    intAsFloat op.shape.2.2 op.hi = .fin (maxAsFloat op * 2 ^ op.shape.2.2.fracBits) := by
  unfold intAsFloat
  have : (if op.hi < 0 then -(rne (op.shape.2.2.m + 1) op.hi.natAbs : Int)
      else (rne (op.shape.2.2.m + 1) op.hi.natAbs : Int)) = maxAsFloat op := by
    cases op <;> decide +kernel
  rw [this]

theorem tdiv_bounds (x S : Int) (hS : 0 < S) :
    (0 ≤ x → 0 ≤ x.tdiv S ∧ x.tdiv S * S ≤ x ∧ x < (x.tdiv S + 1) * S) ∧
    (x ≤ 0 → x.tdiv S ≤ 0 ∧ x ≤ x.tdiv S * S ∧ (x.tdiv S - 1) * S < x) := by
  have pos : ∀ y : Int, 0 ≤ y → 0 ≤ y.tdiv S ∧ y.tdiv S * S ≤ y ∧ y < (y.tdiv S + 1) * S := by
    intro y hy
    rw [Int.tdiv_eq_ediv_of_nonneg hy]
    exact ⟨Int.ediv_nonneg hy (Int.le_of_lt hS), Int.ediv_mul_le _ (Int.ne_of_gt hS), Int.lt_ediv_add_one_mul_self _ hS⟩
  refine ⟨pos x, fun hx => ?_⟩
  have h := pos (-x) (by omega)
  rw [Int.neg_tdiv] at h
  obtain ⟨h1, h2, h3⟩ := h
  rw [Int.neg_mul] at h2
  have e : (-x.tdiv S + 1) * S = -((x.tdiv S - 1) * S) := by rw [← Int.neg_mul]; congr 1; omega
  rw [e] at h3
  omega

theorem intMin_eq (op : TruncOp) : intMin op.shape.1 op.shape.2.1 = op.lo := rfl
theorem intMax_eq (op : TruncOp) : intMax op.shape.1 op.shape.2.1 = op.hi := rfl

theorem scale_lt (S y z : Int) (hS : 0 < S) : y * S < z * S ↔ y < z :=
  ⟨fun h => Int.lt_of_mul_lt_mul_right h (Int.le_of_lt hS), fun h => Int.mul_lt_mul_of_pos_right h hS⟩

theorem scale_eq (S y z : Int) (hS : 0 < S) : y * S = z * S ↔ y = z :=
  ⟨fun h => Int.eq_of_mul_eq_mul_right (Int.ne_of_gt hS) h, fun h => by rw [h]⟩

/-- numeric facts about the bounds, per instruction -/
theorem bounds (op : TruncOp) :
    (op.shape.1 = 32 ∧ (op = .i32_f32_s ∨ op = .i32_f32_u) ∧ maxAsFloat op = op.hi + 1 ∧ op.lo < op.hi) ∨
    (op.shape.1 = 32 ∧ ¬ (op = .i32_f32_s ∨ op = .i32_f32_u) ∧ maxAsFloat op = op.hi ∧ op.lo < op.hi) ∨
    (op.shape.1 ≠ 32 ∧ ¬ (op = .i32_f32_s ∨ op = .i32_f32_u) ∧ maxAsFloat op = op.hi + 1 ∧ op.lo < op.hi) := by
  cases op <;> decide +kernel

/-- C04, exact form: the trapping truncations return the truncated integer when it is representable and trap otherwise,
except that for the two `i32.trunc_f32` forms the single integer `hi + 1` (2^31 resp. 2^32) is accepted and clamped. -/
theorem trunc_trap_exact (op : TruncOp) (b : Nat) :
    truncTrap op b =
      match op.shape.2.2.val b with
      | .nan => .trap .invalidConversionToInt
      | .inf _ => .trap .integerOverflow
      | .fin x =>
        if op.lo ≤ op.shape.2.2.intPart x ∧ op.shape.2.2.intPart x ≤ op.hi then .ok (op.shape.2.2.intPart x)
        else if (op = .i32_f32_s ∨ op = .i32_f32_u) ∧ op.shape.2.2.intPart x = op.hi + 1 then .ok op.hi
        else .trap .integerOverflow := by
  unfold truncTrap
  simp only [lo_const, hi_const, intMin_eq, intMax_eq]
  have hS := scale_pos op.shape.2.2
  have hbd := bounds op
  cases hv : op.shape.2.2.val b with
  | nan => simp
  | inf s =>
    cases s <;> simp [vTrunc, vLt, vLe, truncTooBig]
  | fin x =>
    simp only [vTrunc, vLt, vLe, truncTooBig, vCast, Fmt.intPart]
    have hdiv : (x.tdiv (2 ^ op.shape.2.2.fracBits) * 2 ^ op.shape.2.2.fracBits).tdiv (2 ^ op.shape.2.2.fracBits) =
      x.tdiv (2 ^ op.shape.2.2.fracBits) := Int.mul_tdiv_cancel _ (Int.ne_of_gt hS)
    rw [hdiv]
    simp only [scale_lt _ _ _ hS, FVal.fin.injEq, scale_eq _ _ _ hS, reduceCtorEq, if_false, ne_eq, not_false_eq_true,
      decide_true, Bool.and_true, Bool.or_eq_true, decide_eq_true_iff]
    obtain ⟨t, ht⟩ : ∃ t, t = x.tdiv (2 ^ op.shape.2.2.fracBits) := ⟨_, rfl⟩
    simp only [← ht]
    rcases hbd with ⟨h1, h2, h3, h4⟩ | ⟨h1, h2, h3, h4⟩ | ⟨h1, h2, h3, h4⟩
    · simp only [h1, h2, h3, if_true, decide_eq_true_iff, true_and]
      by_cases c1 : op.lo ≤ t ∧ t ≤ op.hi
      · rw [if_pos c1, if_neg (by omega)]; congr 1; omega
      · rw [if_neg c1]
        by_cases c2 : t = op.hi + 1
        · rw [if_pos c2, if_neg (by omega)]; congr 1; omega
        · rw [if_neg c2, if_pos (by omega)]
    · simp only [h1, h2, h3, if_true, decide_eq_true_iff, false_and, if_false]
      by_cases c1 : op.lo ≤ t ∧ t ≤ op.hi
      · rw [if_pos c1, if_neg (by omega)]; congr 1; omega
      · rw [if_neg c1, if_pos (by omega)]
    · simp only [h1, h2, h3, if_false, Bool.or_eq_true, decide_eq_true_iff, false_and]
      by_cases c1 : op.lo ≤ t ∧ t ≤ op.hi
      · rw [if_pos c1, if_neg (by omega)]; congr 1; omega
      · rw [if_neg c1, if_pos (by omega)]

/-- C04 as stated, for all inputs except the one overflowing value of the two `i32.trunc_f32` forms: the result is
the truncated integer if the destination type has it, a trap otherwise. -/
theorem trunc_trap_partial (op : TruncOp) (b : Nat)
    (hne : (op = .i32_f32_s ∨ op = .i32_f32_u) →
      ∀ x, op.shape.2.2.val b = .fin x → op.shape.2.2.intPart x ≠ op.hi + 1) :
    match op.result b with
    | some z => truncTrap op b = .ok z
    | none => ∃ e, truncTrap op b = .trap e := by
  rw [trunc_trap_exact]
  unfold TruncOp.result
  cases hv : op.shape.2.2.val b with
  | nan => exact ⟨_, rfl⟩
  | inf s => exact ⟨_, rfl⟩
  | fin x =>
    simp only
    by_cases c1 : op.lo ≤ op.shape.2.2.intPart x ∧ op.shape.2.2.intPart x ≤ op.hi
    · simp [c1]
    · have : ¬ ((op = .i32_f32_s ∨ op = .i32_f32_u) ∧ op.shape.2.2.intPart x = op.hi + 1) :=
        fun h => hne h.1 x hv h.2
      rw [if_neg c1, if_neg c1, if_neg this]
      exact ⟨_, rfl⟩

/-- C04 is false of the code: `i32.trunc_f32_s(2147483648.0)` and `i32.trunc_f32_u(4294967296.0)` must trap, but
return 2147483647 resp. 4294967295. -/
theorem trunc_trap_violated :
    (TruncOp.result .i32_f32_s 0x4F000000 = none ∧ truncTrap .i32_f32_s 0x4F000000 = .ok 2147483647) ∧
    (TruncOp.result .i32_f32_u 0x4F800000 = none ∧ truncTrap .i32_f32_u 0x4F800000 = .ok 4294967295) := by
  decide +kernel

/-- non-vacuity: 3.75 (f64) truncates to 3 and satisfies the hypothesis of `trunc_trap_partial` -/
example : f64.val 0x400E000000000000 = .fin (15 * 2 ^ 1072) ∧ TruncOp.result .i32_f64_s 0x400E000000000000 = some 3 := by
  decide +kernel

/-- C05. The saturating truncations never trap: 0 for NaN, the nearest bound outside the range, the truncated integer
inside it, for all eight instructions and every bit pattern. -/
theorem trunc_sat_correct (op : TruncOp) (b : Nat) : truncSat op b = op.satResult b := by
  unfold truncSat TruncOp.satResult
  simp only [lo_const, hi_const, intMin_eq, intMax_eq]
  have hS := scale_pos op.shape.2.2
  have hbd := bounds op
  have hlo : op.shape.2.1 = false → op.lo = 0 := by cases op <;> simp [TruncOp.shape, TruncOp.lo]
  have hlo2 : op.lo ≤ 0 := by cases op <;> decide
  have hhi : 0 < op.hi := by cases op <;> decide
  cases hv : op.shape.2.2.val b with
  | nan => simp
  | inf s =>
    cases s <;> simp [vLe, vLt]
    intro h; exact (hlo h).symm
  | fin x =>
    simp only [vTrunc, vLt, vLe, vCast, Fmt.intPart]
    have hdiv : (x.tdiv (2 ^ op.shape.2.2.fracBits) * 2 ^ op.shape.2.2.fracBits).tdiv (2 ^ op.shape.2.2.fracBits) =
      x.tdiv (2 ^ op.shape.2.2.fracBits) := Int.mul_tdiv_cancel _ (Int.ne_of_gt hS)
    rw [hdiv]
    simp only [reduceCtorEq, ne_eq, not_false_eq_true, decide_true, decide_false, Bool.and_true, FVal.fin.injEq,
      Bool.or_eq_true, decide_eq_true_iff, if_false, Bool.false_or]
    obtain ⟨S, hSe⟩ : ∃ S, S = (2 : Int) ^ op.shape.2.2.fracBits := ⟨_, rfl⟩
    simp only [← hSe] at hS ⊢
    -- x and its integer part
    have hb := tdiv_bounds x S hS
    have key : ∀ y z : Int, y * S < z * S → y < z := fun y z => (scale_lt S y z hS).mp
    have keyle : ∀ y z : Int, y * S ≤ z * S → y ≤ z := fun y z h => Int.le_of_mul_le_mul_right h hS
    obtain ⟨t, ht⟩ : ∃ t, t = x.tdiv S := ⟨_, rfl⟩
    simp only [← ht] at hb ⊢
    have hmax : op.hi ≤ maxAsFloat op ∧ maxAsFloat op ≤ op.hi + 1 := by
      rcases hbd with h | h | h <;> omega
    obtain ⟨mx, hmx⟩ : ∃ mx, mx = maxAsFloat op := ⟨_, rfl⟩
    simp only [← hmx] at hmax ⊢
    have L : x ≤ op.lo * S → t ≤ op.lo := by
      intro h
      have h0 : op.lo * S ≤ 0 := Int.mul_nonpos_of_nonpos_of_nonneg hlo2 (Int.le_of_lt hS)
      have := (hb.2 (by omega)).2.2
      have := key (t - 1) op.lo (by omega); omega
    have Z : x ≤ 0 → t ≤ 0 := fun h => (hb.2 h).1
    have H : mx * S ≤ x → op.hi ≤ t := by
      intro h
      have h0 : 0 ≤ mx * S := Int.mul_nonneg (by omega) (Int.le_of_lt hS)
      have := (hb.1 (by omega)).2.2
      have := key mx (t + 1) (by omega); omega
    have L2 : op.lo * S < x → op.lo ≤ t := by
      intro h
      rcases Int.le_total 0 x with h0 | h0
      · have := (hb.1 h0).1; omega
      · have := (hb.2 h0).2.1
        have := key op.lo t (by omega); omega
    have H2 : x < mx * S → t ≤ op.hi := by
      intro h
      rcases Int.le_total 0 x with h0 | h0
      · have := (hb.1 h0).2.1
        have := key t mx (by omega); omega
      · have := (hb.2 h0).1; omega
    obtain ⟨MS, hMS⟩ : ∃ y, y = mx * S := ⟨_, rfl⟩
    obtain ⟨LS, hLS⟩ : ∃ y, y = op.lo * S := ⟨_, rfl⟩
    simp only [← hMS, ← hLS] at L H L2 H2 ⊢
    cases hsg : op.shape.2.1
    · have hlo0 := hlo hsg
      simp only [Bool.false_eq_true, if_false]
      by_cases c1 : x < 0 ∨ x = 0
      · rw [if_pos c1]
        have := Z (by omega)
        split <;> (try split) <;> omega
      · rw [if_neg c1]
        have hpos := (hb.1 (by omega)).1
        by_cases c2 : MS < x ∨ MS = x
        · rw [if_pos c2]
          have := H (by omega)
          split <;> (try split) <;> omega
        · rw [if_neg c2]
          have := H2 (by omega)
          split <;> (try split) <;> omega
    · simp only [if_true]
      by_cases c1 : x < LS ∨ x = LS
      · rw [if_pos c1]
        have := L (by omega)
        split <;> (try split) <;> omega
      · rw [if_neg c1]
        by_cases c2 : MS < x ∨ MS = x
        · rw [if_pos c2]
          have := H (by omega)
          split <;> (try split) <;> omega
        · rw [if_neg c2]
          have h1 := H2 (by omega)
          have h2 := L2 (by omega)
          split <;> (try split) <;> omega

example : TruncOp.satResult .i32_f32_s 0x4F000000 = 2147483647 ∧ TruncOp.satResult .i64_f64_u 0xBFF0000000000000 = 0 ∧
    TruncOp.satResult .i32_f64_s 0x400E000000000000 = 3 := by decide +kernel

/-- C03. Reinterpretation keeps every bit, in both directions and widths (NaN payloads included). -/
theorem reinterpret_correct (x : BitVec 32) (y : BitVec 64) :
    reinterpI32F32 x = x ∧ reinterpF32I32 x = x ∧ reinterpI64F64 y = y ∧ reinterpF64I64 y = y := by
  simp [reinterpI32F32, reinterpF32I32, reinterpI64F64, reinterpF64I64, Cls.num]

example : f32.val 0x7FC00001 = .nan ∧ (0x7FC00001 : Nat) < 2 ^ f32.width ∧ IsWasmFmt f32 :=
  ⟨by decide +kernel, by decide +kernel, .inl rfl⟩
example : fMin f32 0x80000000 0 = 0x80000000 ∧ fMax f32 0x80000000 0 = 0 ∧ fMin f64 0x3FF0000000000000 0x4000000000000000 =
    0x3FF0000000000000 := by decide +kernel

end Verif.Props
