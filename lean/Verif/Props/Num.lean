import Verif.Lemmas.Num
/-
C01, C02, C03: integer operators of the interpreter against WebAssembly numerics (`Verif.Spec`).
`w` is 32 or 64, operands range over all bit patterns.
-/
namespace Verif.Props
open Verif Verif.Spec Verif.Model Verif.Lemmas

/-- C01. For every operator and all operands, the handler's closure returns exactly the integer prescribed by the
specification when that is defined, and aborts (host trap) exactly when the specification says "undefined". -/
theorem int_binop_correct {w : Nat} (hw : w = 32 ∨ w = 64) (op : IBinOp) (a b : BitVec w) :
    match ibinop w op a.toNat b.toNat with
    | some r => ∃ v, iBin op a b = .ok v ∧ v.toNat = r
    | none => iBin op a b = .panic := by
  have hpos : 0 < w := by omega
  have hb0 : (b.toNat = 0) ↔ (b = 0) := by
    constructor
    · intro h; apply BitVec.eq_of_toNat_eq; simpa using h
    · intro h; subst h; simp
  cases op <;> simp only [ibinop, iBin]
  case add => exact ⟨_, rfl, by simp⟩
  case sub =>
    refine ⟨_, rfl, ?_⟩
    rw [unsigned_eq]; congr 1
    apply BitVec.eq_of_toInt_eq
    rw [BitVec.toInt_sub, BitVec.toInt_ofInt, BitVec.toInt_eq_toNat_bmod, BitVec.toInt_eq_toNat_bmod]
    simp
  case mul => exact ⟨_, rfl, by simp⟩
  case divS =>
    simp only [hb0, signed_toNat hpos]
    by_cases h0 : b = 0
    · simp [h0]
    · simp only [h0, if_false]
      have hdiv : a.toInt.tdiv b.toInt = 2 ^ (w - 1) ↔ (a = BitVec.intMin w ∧ b = BitVec.allOnes w) := by
        constructor
        · intro h
          have hal := BitVec.le_toInt a
          have hau := BitVec.toInt_lt (x := a)
          have hbl := BitVec.le_toInt b
          have hbu := BitVec.toInt_lt (x := b)
          have hbz : b.toInt ≠ 0 := by
            intro hh; apply h0; apply BitVec.eq_of_toInt_eq; simpa using hh
          have hp : (0:Int) < 2 ^ (w - 1) := Int.pow_pos (by decide)
          have hb1 : b.toInt = -1 := by
            rcases Int.lt_or_gt_of_ne hbz with hneg | hpos'
            · apply Classical.byContradiction
              intro hne
              have h2 : b.toInt ≤ -2 := by omega
              have habs : (a.toInt.tdiv b.toInt).natAbs = a.toInt.natAbs / b.toInt.natAbs := Int.natAbs_tdiv ..
              rw [h] at habs
              have h3 : a.toInt.natAbs / b.toInt.natAbs ≤ a.toInt.natAbs / 2 := Nat.div_le_div_left (by omega) (by omega)
              omega
            · have habs : (a.toInt.tdiv b.toInt).natAbs = a.toInt.natAbs / b.toInt.natAbs := Int.natAbs_tdiv ..
              by_cases ha : 0 ≤ a.toInt
              · rw [h] at habs
                have h3 : a.toInt.natAbs / b.toInt.natAbs ≤ a.toInt.natAbs := Nat.div_le_self ..
                omega
              · have h4 : a.toInt.tdiv b.toInt ≤ 0 := by
                  have e : a.toInt = -(-a.toInt) := by omega
                  rw [e, Int.neg_tdiv]
                  have := Int.tdiv_nonneg (a := -a.toInt) (b := b.toInt) (by omega) (by omega)
                  omega
                omega
          have ha1 : a.toInt = -2 ^ (w - 1) := by
            rw [hb1] at h
            rw [show (-1 : Int) = -(1) from rfl, Int.tdiv_neg, Int.tdiv_one] at h; omega
          constructor
          · apply BitVec.eq_of_toInt_eq; rw [ha1, BitVec.toInt_intMin_of_pos hpos]
          · apply BitVec.eq_of_toInt_eq; rw [hb1, BitVec.toInt_allOnes]; simp [hpos]
        · rintro ⟨rfl, rfl⟩
          rw [BitVec.toInt_intMin_of_pos hpos, BitVec.toInt_allOnes, if_pos hpos]
          rw [show (-1 : Int) = -(1) from rfl, Int.tdiv_neg, Int.tdiv_one]; omega
      simp only [hdiv]
      by_cases h1 : a = BitVec.intMin w ∧ b = BitVec.allOnes w
      · rw [if_pos h1, if_pos h1]
      · rw [if_neg h1, if_neg h1]
        refine ⟨_, rfl, ?_⟩
        rw [unsigned_eq]; congr 1
        apply BitVec.eq_of_toInt_eq
        rw [BitVec.toInt_sdiv]; simp
  case divU =>
    simp only [hb0]
    by_cases h0 : b = 0
    · simp [h0]
    · simp only [h0, if_false]; exact ⟨_, rfl, by simp⟩
  case remS =>
    simp only [hb0, signed_toNat hpos]
    by_cases h0 : b = 0
    · simp [h0]
    · simp only [h0, if_false]
      have hr : a.toInt - b.toInt * a.toInt.tdiv b.toInt = a.toInt.tmod b.toInt := by
        rw [Int.tmod_def]
      rw [hr]
      by_cases h1 : b = BitVec.allOnes w
      · rw [if_pos h1]
        refine ⟨_, rfl, ?_⟩
        have hb : b.toInt = -1 := by rw [h1, BitVec.toInt_allOnes]; simp [hpos]
        rw [hb, Int.tmod_neg]; simp [unsigned]
      · rw [if_neg h1]
        refine ⟨_, rfl, ?_⟩
        rw [unsigned_eq]; congr 1
        apply BitVec.eq_of_toInt_eq
        rw [BitVec.toInt_ofInt, ← BitVec.toInt_srem, ← BitVec.toInt_ofInt, BitVec.ofInt_toInt]
  case remU =>
    simp only [hb0]
    by_cases h0 : b = 0
    · simp [h0]
    · simp only [h0, if_false]; exact ⟨_, rfl, by simp⟩
  case and => exact ⟨_, rfl, eq_ofBits _ _ fun k _ => by simp [BitVec.getLsbD]⟩
  case or => exact ⟨_, rfl, eq_ofBits _ _ fun k _ => by simp [BitVec.getLsbD]⟩
  case xor => exact ⟨_, rfl, eq_ofBits _ _ fun k _ => by simp [BitVec.getLsbD]⟩
  case shl =>
    refine ⟨_, rfl, ?_⟩
    rw [shiftCount_eq hw]; simp [Nat.shiftLeft_eq]
  case shrU =>
    refine ⟨_, rfl, ?_⟩
    rw [shiftCount_eq hw]; simp [Nat.shiftRight_eq_div_pow]
  case shrS =>
    refine ⟨_, rfl, ?_⟩
    rw [shiftCount_eq hw, signed_toNat hpos, unsigned_eq]; congr 1
    apply BitVec.eq_of_toInt_eq
    have h := BitVec.toInt_sshiftRight (x := a) (n := b.toNat % w)
    have h2 := Int.shiftRight_eq_div_pow a.toInt (b.toNat % w)
    have h3 : a.toInt / 2 ^ (b.toNat % w) = (a.sshiftRight (b.toNat % w)).toInt := by
      rw [h, h2]; norm_cast
    rw [h3, BitVec.ofInt_toInt]
  case rotl =>
    refine ⟨_, rfl, eq_ofBits _ _ fun k hk => ?_⟩
    rw [shiftCount_eq hw]
    have hm : b.toNat % w < w := Nat.mod_lt _ hpos
    rw [BitVec.getLsbD_rotateLeft, Nat.mod_mod]
    generalize b.toNat % w = m at hm
    by_cases h : k < m
    · simp only [h, decide_true, cond_true]
      rw [Nat.mod_eq_of_lt (a := k + w - m) (by omega)]; unfold BitVec.getLsbD; congr 1; omega
    · simp only [h, decide_false, cond_false, hk, decide_true, Bool.true_and]
      rw [show k + w - m = (k - m) + w by omega, Nat.add_mod_right,
        Nat.mod_eq_of_lt (a := k - m) (by omega)]; rfl
  case rotr =>
    refine ⟨_, rfl, eq_ofBits _ _ fun k hk => ?_⟩
    rw [shiftCount_eq hw]
    have hm : b.toNat % w < w := Nat.mod_lt _ hpos
    rw [BitVec.getLsbD_rotateRight, Nat.mod_mod]
    generalize b.toNat % w = m at hm
    by_cases h : k < w - m
    · simp only [h, decide_true, cond_true]
      rw [Nat.mod_eq_of_lt (a := k + m) (by omega)]; unfold BitVec.getLsbD; congr 1; omega
    · simp only [h, decide_false, cond_false, hk, decide_true, Bool.true_and]
      rw [show k + m = (k - (w - m)) + w by omega, Nat.add_mod_right,
        Nat.mod_eq_of_lt (a := k - (w - m)) (by omega)]; rfl

/-- the hypotheses are met, and both branches of the conclusion occur -/
example : ibinop 32 .divS (BitVec.intMin 32).toNat (BitVec.allOnes 32).toNat = none := by decide
example : ibinop 64 .shrS 0xFFFFFFFFFFFFFFF0 66 = some 0xFFFFFFFFFFFFFFFC := by decide
example : iBin (w := 32) .remS 0x80000000#32 0xFFFFFFFF#32 = .ok 0#32 := by decide

/-- the value `true` / `false` as an i32 -/
def boolI32 (c : Bool) : BitVec 32 := if c then 1#32 else 0#32

/-- C02 (comparisons). Every comparison yields the i32 1 or 0 according to the specification. -/
theorem int_relop_correct {w : Nat} (hw : w = 32 ∨ w = 64) (op : IRelOp) (a b : BitVec w) :
    iRel op a b = boolI32 (irelop w op a.toNat b.toNat) := by
  have hpos : 0 < w := by omega
  have key : ∀ c d : Bool, c = d → (BitVec.ofBool c).setWidth 32 = boolI32 d := by
    intro c d h; subst h; cases c <;> rfl
  unfold iRel
  apply key
  cases op <;> simp only [irelop, signed_toNat hpos, BitVec.slt, BitVec.sle, BitVec.ult, BitVec.ule]
  · rw [Bool.eq_iff_iff]; simp [BitVec.toNat_eq]
  · rw [Bool.eq_iff_iff]; simp [BitVec.toNat_eq]

/-- C02 (eqz). -/
theorem int_eqz_correct {w : Nat} (a : BitVec w) : iEqz a = boolI32 (decide (a.toNat = 0)) := by
  have key : ∀ c d : Bool, c = d → (BitVec.ofBool c).setWidth 32 = boolI32 d := by
    intro c d h; subst h; cases c <;> rfl
  unfold iEqz
  apply key
  rw [Bool.eq_iff_iff]; simp [BitVec.toNat_eq]

/-- C02 (bit counting and sign extension). The result of each unary operator is admissible for the specification;
`extend32S` only exists for i64. -/
theorem int_unop_correct {w : Nat} (op : IUnOp) (a : BitVec w) :
    IUnop w op a.toNat (iUn op a).toNat := by
  have hlt : ∀ n, n ≤ w → n < 2 ^ w := fun n h => Nat.lt_of_le_of_lt h Nat.lt_two_pow_self
  cases op <;> simp only [IUnop, iUn]
  case clz =>
    have aux : ∀ k, k ≤ w → leadingZeros.go a k ≤ k ∧
        (∀ j, j < leadingZeros.go a k → a.toNat.testBit (k - 1 - j) = false) ∧
        (leadingZeros.go a k < k → a.toNat.testBit (k - 1 - leadingZeros.go a k) = true) := by
      intro k
      induction k with
      | zero => intro _; simp [leadingZeros.go]
      | succ k ih =>
        intro hk
        obtain ⟨h1, h2, h3⟩ := ih (by omega)
        simp only [leadingZeros.go]
        by_cases hb : a.getLsbD k
        · simp only [hb, if_true]
          refine ⟨by omega, by omega, fun _ => by simpa [BitVec.getLsbD] using hb⟩
        · simp only [hb]
          refine ⟨by simp; omega, ?_, ?_⟩
          · intro j hj
            by_cases hj0 : j = 0
            · subst hj0; simpa [BitVec.getLsbD] using hb
            · have := h2 (j - 1) (by simp at hj; omega)
              rw [← this]; congr 1; omega
          · intro hh
            have := h3 (by simp at hh; omega)
            simp
            rw [← this]; congr 1; omega
    obtain ⟨h1, h2, h3⟩ := aux w (Nat.le_refl _)
    have e : (BitVec.ofNat w (leadingZeros a)).toNat = leadingZeros.go a w := by
      simp only [BitVec.toNat_ofNat, leadingZeros]
      exact Nat.mod_eq_of_lt (hlt _ h1)
    rw [e]; exact ⟨h1, h2, h3⟩
  case ctz =>
    have aux : ∀ n k, n + k = w → trailingZeros.go a n k ≤ n ∧
        (∀ j, j < trailingZeros.go a n k → a.toNat.testBit (k + j) = false) ∧
        (trailingZeros.go a n k < n → a.toNat.testBit (k + trailingZeros.go a n k) = true) := by
      intro n
      induction n with
      | zero => intro k _; simp [trailingZeros.go]
      | succ n ih =>
        intro k hk
        obtain ⟨h1, h2, h3⟩ := ih (k + 1) (by omega)
        simp only [trailingZeros.go]
        by_cases hb : a.getLsbD k
        · simp only [hb, if_true]
          refine ⟨by omega, by omega, fun _ => by simpa [BitVec.getLsbD] using hb⟩
        · simp only [hb]
          refine ⟨by simp; omega, ?_, ?_⟩
          · intro j hj
            by_cases hj0 : j = 0
            · subst hj0; simpa [BitVec.getLsbD] using hb
            · have := h2 (j - 1) (by simp at hj; omega)
              rw [← this]; congr 1; omega
          · intro hh
            have := h3 (by simp at hh; omega)
            simp
            rw [← this]; congr 1; omega
    obtain ⟨h1, h2, h3⟩ := aux w 0 (by omega)
    have e : (BitVec.ofNat w (trailingZeros a)).toNat = trailingZeros.go a w 0 := by
      simp only [BitVec.toNat_ofNat, trailingZeros]
      exact Nat.mod_eq_of_lt (hlt _ h1)
    rw [e]; exact ⟨h1, by simpa using h2, by simpa using h3⟩
  case popcnt =>
    have aux : ∀ k, countOnes.go a k = popcnt k a.toNat ∧ countOnes.go a k ≤ k := by
      intro k
      induction k with
      | zero => simp [countOnes.go, popcnt]
      | succ k ih =>
        obtain ⟨h1, h2⟩ := ih
        simp only [countOnes.go]
        have e : popcnt (k + 1) a.toNat = popcnt k a.toNat + (if a.getLsbD k then 1 else 0) := by
          simp [popcnt, List.range_succ, List.countP_append, List.countP_cons, BitVec.getLsbD]
        refine ⟨by rw [e, h1]; omega, by split <;> omega⟩
    obtain ⟨h1, h2⟩ := aux w
    rw [← h1]
    simp only [BitVec.toNat_ofNat, countOnes]
    exact Nat.mod_eq_of_lt (hlt _ h2)
  all_goals
    unfold extendS
    rw [unsigned_eq]; congr 1
    apply BitVec.eq_of_toInt_eq
    rw [← BitVec.toNat_setWidth, signed_toNat (by decide), BitVec.signExtend]

example : IUnop 64 .clz 1 63 := by
  refine ⟨by decide, ?_, by decide⟩; decide
example : (iUn (w := 32) .extend8S 0x180#32).toNat = 0xFFFFFF80 := by decide

/-- C03 (extension and wrapping) : value-preserving signed / unsigned extension, wrap modulo 2^32. -/
theorem extend_wrap_correct (v : BitVec 32) (x : BitVec 64) :
    (extendI32S v).toInt = v.toInt ∧ (extendI32U v).toNat = v.toNat ∧ (wrapI64 x).toNat = x.toNat % 2 ^ 32 ∧
    wrapI64 (extendI32S v) = v ∧ wrapI64 (extendI32U v) = v := by
  refine ⟨?_, ?_, ?_, ?_, ?_⟩
  · exact BitVec.toInt_signExtend_of_le (by decide)
  · simp [extendI32U]; omega
  · simp [wrapI64]
  · simp only [wrapI64, extendI32S]
    apply BitVec.eq_of_getLsbD_eq; intro i hi
    simp [BitVec.getLsbD_signExtend, hi]; omega
  · simp [wrapI64, extendI32U]

example : extendI32S 0x80000000#32 = 0xFFFFFFFF80000000#64 := by decide

end Verif.Props
