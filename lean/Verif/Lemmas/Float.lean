import Verif.Model.Float
/- Helper lemmas about float bit patterns. -/
namespace Verif.Lemmas
open Verif.Spec Verif.Model

/-- magnitude as a function of the non-sign bits -/
def gmag (f : Fmt) (x : Nat) : Nat :=
  if x / 2 ^ f.m = 0 then x % 2 ^ f.m else (2 ^ f.m + x % 2 ^ f.m) * 2 ^ (x / 2 ^ f.m - 1)

theorem expo_eq (f : Fmt) (b : Nat) : f.expo b = fMagBits f b / 2 ^ f.m := by
  unfold Fmt.expo fMagBits
  rw [Nat.add_comm, Nat.pow_add, Nat.mod_mul_right_div_self]

theorem mant_eq (f : Fmt) (b : Nat) : f.mant b = fMagBits f b % 2 ^ f.m := by
  unfold Fmt.mant fMagBits
  rw [Nat.mod_mod_of_dvd]
  rw [Nat.add_comm, Nat.pow_add]; exact Nat.dvd_mul_right _ _

theorem mag_eq (f : Fmt) (b : Nat) : f.mag b = gmag f (fMagBits f b) := by
  unfold Fmt.mag gmag; rw [expo_eq, mant_eq]

theorem sign_eq (f : Fmt) (b : Nat) (hb : b < 2 ^ f.width) : f.sign b = fNeg? f b := by
  have hw : 2 ^ f.width = 2 * 2 ^ (f.e + f.m) := by
    rw [Fmt.width, Nat.add_assoc, Nat.add_comm 1, Nat.pow_succ, Nat.mul_comm]
  rw [hw] at hb
  have hp : 0 < 2 ^ (f.e + f.m) := Nat.pow_pos (by decide)
  unfold Fmt.sign fNeg?
  by_cases h : 2 ^ (f.e + f.m) ≤ b
  · have : b / 2 ^ (f.e + f.m) = 1 := by
      apply Nat.div_eq_of_lt_le <;> omega
    simp [this, h]
  · have : b / 2 ^ (f.e + f.m) = 0 := Nat.div_eq_of_lt (by omega)
    simp [this, h]

theorem gmag_strictMono (f : Fmt) {x y : Nat} (h : x < y) : gmag f x < gmag f y := by
  have hp : 0 < 2 ^ f.m := Nat.pow_pos (by decide)
  have hx := Nat.div_add_mod x (2 ^ f.m)
  have hy := Nat.div_add_mod y (2 ^ f.m)
  have hmx := Nat.mod_lt x hp
  have hmy := Nat.mod_lt y hp
  unfold gmag
  generalize x / 2 ^ f.m = ex at *
  generalize y / 2 ^ f.m = ey at *
  generalize x % 2 ^ f.m = mx at *
  generalize y % 2 ^ f.m = my at *
  generalize 2 ^ f.m = P at *
  have hexy : ex ≤ ey := by
    rcases Nat.lt_or_ge ey ex with hlt | hge
    · exfalso
      have h1 : P * (ey + 1) ≤ P * ex := Nat.mul_le_mul_left _ hlt
      rw [Nat.mul_add] at h1
      omega
    · exact hge
  by_cases hxe : ex = ey
  · subst hxe
    have hm : mx < my := by omega
    by_cases h0 : ex = 0
    · simp [h0, hm]
    · rw [if_neg h0, if_neg h0]
      exact Nat.mul_lt_mul_of_pos_right (by omega) (Nat.pow_pos (by decide))
  · have hlt : ex < ey := by omega
    have hy0 : ey ≠ 0 := by omega
    rw [if_neg hy0]
    have h2 : P * 2 ^ (ey - 1) ≤ (P + my) * 2 ^ (ey - 1) := Nat.mul_le_mul_right _ (by omega)
    by_cases h0 : ex = 0
    · rw [if_pos h0]
      have h3 : 1 ≤ 2 ^ (ey - 1) := Nat.pow_pos (by decide)
      have h4 : P * 1 ≤ P * 2 ^ (ey - 1) := Nat.mul_le_mul_left _ h3
      omega
    · rw [if_neg h0]
      have h3 : 2 ^ (ex - 1) * 2 ≤ 2 ^ (ey - 1) := by
        rw [← Nat.pow_succ]; exact Nat.pow_le_pow_right (by decide) (by omega)
      have h4 : (P + mx) * 2 ^ (ex - 1) < (2 * P) * 2 ^ (ex - 1) :=
        Nat.mul_lt_mul_of_pos_right (by omega) (Nat.pow_pos (by decide))
      have h5 : (2 * P) * 2 ^ (ex - 1) = P * (2 ^ (ex - 1) * 2) := by
        rw [Nat.mul_comm 2 P, Nat.mul_assoc, Nat.mul_comm 2]
      have h6 : P * (2 ^ (ex - 1) * 2) ≤ P * 2 ^ (ey - 1) := Nat.mul_le_mul_left _ h3
      omega

theorem gmag_zero (f : Fmt) : gmag f 0 = 0 := by simp [gmag]

theorem gmag_inj (f : Fmt) {x y : Nat} (h : gmag f x = gmag f y) : x = y := by
  rcases Nat.lt_trichotomy x y with h1 | h1 | h1
  · have := gmag_strictMono f h1; omega
  · exact h1
  · have := gmag_strictMono f h1; omega

theorem gmag_lt_iff (f : Fmt) (x y : Nat) : gmag f x < gmag f y ↔ x < y := by
  refine ⟨fun h => ?_, gmag_strictMono f⟩
  rcases Nat.lt_trichotomy x y with h1 | h1 | h1
  · exact h1
  · subst h1; omega
  · have := gmag_strictMono f h1; omega

/-- bits of infinity -/
def infBits (f : Fmt) : Nat := (2 ^ f.e - 1) * 2 ^ f.m

theorem magBits_lt (f : Fmt) (b : Nat) : fMagBits f b < 2 ^ f.e * 2 ^ f.m := by
  rw [fMagBits, Nat.pow_add]; exact Nat.mod_lt _ (Nat.mul_pos (Nat.pow_pos (by decide)) (Nat.pow_pos (by decide)))

theorem expo_max_iff (f : Fmt) (b : Nat) : f.expo b = 2 ^ f.e - 1 ↔ infBits f ≤ fMagBits f b := by
  have hp : 0 < 2 ^ f.m := Nat.pow_pos (by decide)
  have he : 0 < 2 ^ f.e := Nat.pow_pos (by decide)
  have hlt := magBits_lt f b
  rw [expo_eq, infBits]
  constructor
  · intro h; rw [← h]; exact Nat.div_mul_le_self _ _
  · intro h
    have h1 : 2 ^ f.e - 1 ≤ fMagBits f b / 2 ^ f.m := (Nat.le_div_iff_mul_le hp).mpr h
    have h2 : fMagBits f b / 2 ^ f.m < 2 ^ f.e := (Nat.div_lt_iff_lt_mul hp).mpr hlt
    omega

theorem isNan_iff (f : Fmt) (b : Nat) : fIsNan f b = true ↔ f.val b = .nan := by
  have hp : 0 < 2 ^ f.m := Nat.pow_pos (by decide)
  unfold fIsNan Fmt.val
  rw [decide_eq_true_iff]
  have hmx := expo_max_iff f b
  have hd := Nat.div_add_mod (fMagBits f b) (2 ^ f.m)
  rw [← expo_eq, ← mant_eq] at hd
  by_cases h : f.expo b = 2 ^ f.e - 1
  · rw [if_pos h]
    rw [h, Nat.mul_comm] at hd
    by_cases hm : f.mant b = 0
    · rw [if_pos hm]; simp; omega
    · rw [if_neg hm]; simp; omega
  · rw [if_neg h]
    have : ¬ infBits f ≤ fMagBits f b := fun hh => h (hmx.mpr hh)
    unfold infBits at this
    simp; omega

/-- signed magnitude, infinities included -/
def gval (f : Fmt) (b : Nat) : Int := if f.sign b then -(gmag f (fMagBits f b) : Int) else (gmag f (fMagBits f b) : Int)

theorem val_cases (f : Fmt) (b : Nat) (hn : f.val b ≠ .nan) :
    (fMagBits f b = infBits f ∧ f.val b = .inf (f.sign b)) ∨ (fMagBits f b < infBits f ∧ f.val b = .fin (gval f b)) := by
  have hmx := expo_max_iff f b
  have hd := Nat.div_add_mod (fMagBits f b) (2 ^ f.m)
  rw [← expo_eq, ← mant_eq] at hd
  unfold Fmt.val at hn ⊢
  by_cases h : f.expo b = 2 ^ f.e - 1
  · rw [if_pos h] at hn ⊢
    rw [h, Nat.mul_comm] at hd
    by_cases hm : f.mant b = 0
    · left; rw [if_pos hm]; unfold infBits; exact ⟨by omega, rfl⟩
    · rw [if_neg hm] at hn; exact absurd rfl hn
  · right
    rw [if_neg h]
    refine ⟨?_, ?_⟩
    · rcases Nat.lt_or_ge (fMagBits f b) (infBits f) with h1 | h1
      · exact h1
      · exact absurd (hmx.mpr h1) h
    · unfold gval; rw [mag_eq]

theorem val_lt_iff (f : Fmt) (a b : Nat) (ha : f.val a ≠ .nan) (hb : f.val b ≠ .nan) (hi : 0 < infBits f) :
    (f.val a).Lt (f.val b) ↔ gval f a < gval f b := by
  have hpos := gmag_strictMono f hi
  rw [gmag_zero] at hpos
  rcases val_cases f a ha with ⟨ha1, ha2⟩ | ⟨ha1, ha2⟩ <;> rcases val_cases f b hb with ⟨hb1, hb2⟩ | ⟨hb1, hb2⟩ <;>
    rw [ha2, hb2]
  · unfold gval; rw [ha1, hb1]
    cases f.sign a <;> cases f.sign b <;> simp [FVal.Lt] <;> omega
  · have := gmag_strictMono f hb1
    unfold gval; rw [ha1]
    cases f.sign a <;> cases f.sign b <;> simp [FVal.Lt] <;> omega
  · have := gmag_strictMono f ha1
    unfold gval; rw [hb1]
    cases f.sign a <;> cases f.sign b <;> simp [FVal.Lt] <;> omega
  · simp [FVal.Lt]

theorem val_eq_iff (f : Fmt) (a b : Nat) (ha : f.val a ≠ .nan) (hb : f.val b ≠ .nan) (hi : 0 < infBits f) :
    f.val a = f.val b ↔ gval f a = gval f b := by
  have hpos := gmag_strictMono f hi
  rw [gmag_zero] at hpos
  rcases val_cases f a ha with ⟨ha1, ha2⟩ | ⟨ha1, ha2⟩ <;> rcases val_cases f b hb with ⟨hb1, hb2⟩ | ⟨hb1, hb2⟩ <;>
    rw [ha2, hb2]
  · unfold gval; rw [ha1, hb1]
    cases f.sign a <;> cases f.sign b <;> simp <;> omega
  · have := gmag_strictMono f hb1
    unfold gval; rw [ha1]
    cases f.sign a <;> cases f.sign b <;> simp <;> omega
  · have := gmag_strictMono f ha1
    unfold gval; rw [hb1]
    cases f.sign a <;> cases f.sign b <;> simp <;> omega
  · simp

theorem key_lt_iff (f : Fmt) (a b : Nat) (ha : a < 2 ^ f.width) (hb : b < 2 ^ f.width) :
    fKey f a < fKey f b ↔ gval f a < gval f b := by
  unfold fKey gval
  rw [sign_eq f a ha, sign_eq f b hb]
  have h1 := gmag_lt_iff f (fMagBits f a) (fMagBits f b)
  have h2 := gmag_lt_iff f (fMagBits f b) (fMagBits f a)
  have h3 := gmag_lt_iff f 0 (fMagBits f a)
  have h4 := gmag_lt_iff f 0 (fMagBits f b)
  rw [gmag_zero] at h3 h4
  cases fNeg? f a <;> cases fNeg? f b <;> simp <;> omega

theorem key_eq_iff (f : Fmt) (a b : Nat) (ha : a < 2 ^ f.width) (hb : b < 2 ^ f.width) :
    fKey f a = fKey f b ↔ gval f a = gval f b := by
  have h1 := key_lt_iff f a b ha hb
  have h2 := key_lt_iff f b a hb ha
  omega

theorem fLt_iff (f : Fmt) (a b : Nat) (ha : a < 2 ^ f.width) (hb : b < 2 ^ f.width) (hi : 0 < infBits f) :
    fLt f a b = true ↔ (f.val a).Lt (f.val b) := by
  unfold fLt
  by_cases na : f.val a = .nan
  · rw [(isNan_iff f a).mpr na, na]; simp [FVal.Lt]
  · have na' : fIsNan f a = false := by
      rw [Bool.eq_false_iff]; exact fun h => na ((isNan_iff f a).mp h)
    by_cases nb : f.val b = .nan
    · rw [(isNan_iff f b).mpr nb, nb]
      cases hv : f.val a with
      | nan => exact absurd hv na
      | inf s => cases s <;> simp [FVal.Lt]
      | fin x => simp [FVal.Lt]
    · have nb' : fIsNan f b = false := by
        rw [Bool.eq_false_iff]; exact fun h => nb ((isNan_iff f b).mp h)
      rw [na', nb', val_lt_iff f a b na nb hi, ← key_lt_iff f a b ha hb]
      simp

theorem fEq_iff (f : Fmt) (a b : Nat) (ha : a < 2 ^ f.width) (hb : b < 2 ^ f.width) (hi : 0 < infBits f) :
    fEq f a b = true ↔ (f.val a).Eq (f.val b) := by
  unfold fEq FVal.Eq
  by_cases na : f.val a = .nan
  · rw [(isNan_iff f a).mpr na, na]; simp
  · have na' : fIsNan f a = false := by
      rw [Bool.eq_false_iff]; exact fun h => na ((isNan_iff f a).mp h)
    by_cases nb : f.val b = .nan
    · rw [(isNan_iff f b).mpr nb, nb]; simp [na]
    · have nb' : fIsNan f b = false := by
        rw [Bool.eq_false_iff]; exact fun h => nb ((isNan_iff f b).mp h)
      rw [na', nb', val_eq_iff f a b na nb hi, ← key_eq_iff f a b ha hb]
      simp [na]

/-- two non-NaN patterns with the same value and sign are the same pattern -/
theorem bits_eq (f : Fmt) (a b : Nat) (ha : a < 2 ^ f.width) (hb : b < 2 ^ f.width)
    (hs : f.sign a = f.sign b) (hm : fMagBits f a = fMagBits f b) : a = b := by
  have hw : 2 ^ f.width = 2 * 2 ^ (f.e + f.m) := by
    rw [Fmt.width, Nat.add_assoc, Nat.add_comm 1, Nat.pow_succ, Nat.mul_comm]
  rw [sign_eq f a ha, sign_eq f b hb] at hs
  rw [hw] at ha hb
  have e : ∀ x, x < 2 * 2 ^ (f.e + f.m) → x = fMagBits f x + (if fNeg? f x then 2 ^ (f.e + f.m) else 0) := by
    intro x hx
    unfold fMagBits fNeg?
    by_cases h : 2 ^ (f.e + f.m) ≤ x
    · simp only [h, decide_true, if_true]
      rw [Nat.mod_eq_sub_mod h, Nat.mod_eq_of_lt (by omega)]; omega
    · simp only [h, decide_false]
      rw [Nat.mod_eq_of_lt (by omega)]; simp
  rw [e a ha, e b hb, hs, hm]

end Verif.Lemmas
