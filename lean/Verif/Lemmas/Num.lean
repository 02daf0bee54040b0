import Verif.Model.Num
/- Helper lemmas for Props/Num. -/
namespace Verif.Lemmas
open Verif Verif.Spec Verif.Model

theorem signed_toNat {w : Nat} (hw : 0 < w) (a : BitVec w) : signed w a.toNat = a.toInt := by
  unfold signed
  rw [BitVec.toInt_eq_toNat_cond]
  have h : 2 ^ w = 2 * 2 ^ (w - 1) := by
    rw [← Nat.pow_succ']; congr 1; omega
  by_cases hc : a.toNat < 2 ^ (w - 1)
  · rw [if_pos hc, if_pos (by omega)]
  · rw [if_neg hc, if_neg (by omega)]; simp

theorem unsigned_eq {w : Nat} (z : Int) : unsigned w z = (BitVec.ofInt w z).toNat := by
  unfold unsigned
  rw [BitVec.toNat_ofInt]; simp

theorem unsigned_lt (w : Nat) (z : Int) : unsigned w z < 2 ^ w := by
  rw [unsigned_eq]; exact BitVec.isLt _

theorem ofBits_testBit_aux (f : Nat → Bool) (n : Nat) :
    ofBits n f < 2 ^ n ∧ ∀ k, (ofBits n f).testBit k = (decide (k < n) && f k) := by
  induction n with
  | zero => simp [ofBits]
  | succ n ih =>
    have e : ofBits (n + 1) f = ofBits n f + (if f n then 2 ^ n else 0) := by
      simp [ofBits, List.range_succ]
    obtain ⟨hl, ht⟩ := ih
    rw [e]
    refine ⟨?_, ?_⟩
    · rw [Nat.pow_succ]; split <;> omega
    · intro k
      by_cases hf : f n
      · simp only [hf, if_true]
        rw [Nat.add_comm]
        by_cases hk : k = n
        · subst hk
          rw [Nat.testBit_two_pow_add_eq]
          simp [ht, hf]
        · rcases Nat.lt_or_gt_of_ne hk with h | h
          · rw [Nat.testBit_two_pow_add_gt h, ht]
            simp [h, Nat.lt_succ_of_lt h]
          · have hlt : 2 ^ n + ofBits n f < 2 ^ k := by
              have : 2 ^ (n + 1) ≤ 2 ^ k := Nat.pow_le_pow_right (by omega) h
              rw [Nat.pow_succ] at this; omega
            rw [Nat.testBit_lt_two_pow hlt]
            have : ¬ k < n + 1 := by omega
            simp [this]
      · simp only [hf]
        rw [show (ofBits n f + if false = true then 2 ^ n else 0) = ofBits n f by simp, ht]
        by_cases hk : k = n
        · subst hk; simp [hf]
        · have : (k < n + 1) = (k < n) := by apply propext; omega
          simp [this]

theorem eq_ofBits {w : Nat} (x : BitVec w) (f : Nat → Bool) (h : ∀ k, k < w → x.getLsbD k = f k) :
    x.toNat = ofBits w f := by
  obtain ⟨_, ht⟩ := ofBits_testBit_aux f w
  apply Nat.eq_of_testBit_eq
  intro k
  rw [ht]
  by_cases hk : k < w
  · simp only [hk, decide_true, Bool.true_and]; rw [← h k hk]; rfl
  · have : x.toNat.testBit k = false := by
      apply Nat.testBit_lt_two_pow
      exact Nat.lt_of_lt_of_le x.isLt (Nat.pow_le_pow_right (by omega) (by omega))
    simp [this, hk]

theorem shiftCount_eq {w : Nat} (hw : w = 32 ∨ w = 64) (b : BitVec w) : shiftCount b = b.toNat % w := by
  unfold shiftCount
  rw [BitVec.toNat_setWidth]
  rcases hw with rfl | rfl
  · exact Nat.mod_mod_of_dvd _ (by decide)
  · exact Nat.mod_mod_of_dvd _ (by decide)

end Verif.Lemmas
