import Verif.Model.Ieee
/-
The bit patterns of the non-negative values, read as integers, enumerate the values in order; rounding looks for the place of
the exact result in this sequence.
-/
namespace Verif.Lemmas
open Verif.Model Verif.Spec

/-- what is needed of a format -/
structure FmtOk (f : Fmt) : Prop where
  e : 2 ≤ f.e
  m : 1 ≤ f.m
  me : f.m < 2 ^ (f.e - 1)

theorem f32_ok : FmtOk f32 := ⟨by decide, by decide, by decide⟩
theorem f64_ok : FmtOk f64 := ⟨by decide, by decide, by decide⟩

/-- value of the non-negative pattern `k`, continued beyond infinity -/
def magSeq (f : Fmt) (k : Nat) : Nat := if k / 2 ^ f.m = 0 then k else (2 ^ f.m + k % 2 ^ f.m) * 2 ^ (k / 2 ^ f.m - 1)

/-- `w` is a significand at scale `s` -/
def IsSig (f : Fmt) (s w : Nat) : Prop := w < 2 * 2 ^ f.m ∧ (s = 0 ∨ 2 ^ f.m ≤ w)

theorem magSeq_sig {f : Fmt} {s w : Nat} (h : IsSig f s w) : magSeq f (s * 2 ^ f.m + w) = w * 2 ^ s := by
  have hA : 0 < 2 ^ f.m := Nat.two_pow_pos _
  obtain ⟨h1, h2⟩ := h
  unfold magSeq
  generalize 2 ^ f.m = A at *
  by_cases hw : A ≤ w
  · have e : s * A + w = (w - A) + A * (s + 1) := by rw [Nat.mul_add, Nat.mul_comm s A]; omega
    have hd : (s * A + w) / A = s + 1 := by
      rw [e, Nat.add_mul_div_left _ _ hA, Nat.div_eq_of_lt (by omega)]; omega
    have hm : (s * A + w) % A = w - A := by
      rw [e, Nat.add_mul_mod_self_left, Nat.mod_eq_of_lt (by omega)]
    rw [hd, hm, if_neg (by omega)]
    congr 1
    omega
  · have hs : s = 0 := by omega
    subst hs
    have hd : (0 * A + w) / A = 0 := by rw [Nat.zero_mul, Nat.zero_add]; exact Nat.div_eq_of_lt (by omega)
    rw [hd, if_pos rfl]
    simp

theorem magSeq_sig_succ {f : Fmt} {s w : Nat} (h : IsSig f s w) : magSeq f (s * 2 ^ f.m + w + 1) = (w + 1) * 2 ^ s := by
  have hA : 0 < 2 ^ f.m := Nat.two_pow_pos _
  by_cases hw : w + 1 < 2 * 2 ^ f.m
  · have : IsSig f s (w + 1) := ⟨hw, h.2.imp id (by omega)⟩
    rw [Nat.add_assoc, magSeq_sig this]
  · have hw' : w + 1 = 2 * 2 ^ f.m := by have := h.1; omega
    have : IsSig f (s + 1) (2 ^ f.m) := ⟨by omega, .inr (Nat.le_refl _)⟩
    have e : s * 2 ^ f.m + w + 1 = (s + 1) * 2 ^ f.m + 2 ^ f.m := by rw [Nat.add_mul]; omega
    rw [e, magSeq_sig this, hw', Nat.pow_succ]
    ac_rfl

/-- every pattern has a significand and a scale -/
theorem exists_sig (f : Fmt) (k : Nat) : ∃ s w, IsSig f s w ∧ k = s * 2 ^ f.m + w := by
  have hA : 0 < 2 ^ f.m := Nat.two_pow_pos _
  have hk := Nat.div_add_mod k (2 ^ f.m)
  have hm := Nat.mod_lt k hA
  unfold IsSig
  generalize 2 ^ f.m = A at *
  by_cases h0 : k / A = 0
  · exact ⟨0, k, ⟨by rw [h0] at hk; omega, .inl rfl⟩, by omega⟩
  · refine ⟨k / A - 1, A + k % A, ⟨by omega, .inr (by omega)⟩, ?_⟩
    obtain ⟨n, hn⟩ := Nat.exists_eq_succ_of_ne_zero h0
    rw [hn] at hk ⊢
    rw [Nat.mul_succ] at hk
    rw [Nat.succ_eq_add_one, Nat.add_sub_cancel, Nat.mul_comm n A]
    omega

theorem magSeq_lt_succ (f : Fmt) (k : Nat) : magSeq f k < magSeq f (k + 1) := by
  obtain ⟨s, w, h, rfl⟩ := exists_sig f k
  rw [magSeq_sig h, magSeq_sig_succ h]
  exact Nat.mul_lt_mul_of_pos_right (by omega) (Nat.two_pow_pos _)

theorem magSeq_mono {f : Fmt} {j k : Nat} (h : j < k) : magSeq f j < magSeq f k := by
  induction k with
  | zero => omega
  | succ k ih =>
    have := magSeq_lt_succ f k
    by_cases e : j = k
    · subst e; exact this
    · exact Nat.lt_trans (ih (by omega)) this

theorem magSeq_le {f : Fmt} {j k : Nat} (h : j ≤ k) : magSeq f j ≤ magSeq f k := by
  rcases Nat.lt_or_eq_of_le h with h | h
  · exact Nat.le_of_lt (magSeq_mono h)
  · rw [h]; exact Nat.le_refl _

theorem magSeq_lt_iff {f : Fmt} {j k : Nat} : magSeq f j < magSeq f k ↔ j < k :=
  ⟨fun h => by
    by_cases c : j < k
    · exact c
    · have := magSeq_le (f := f) (Nat.le_of_not_lt c); omega, magSeq_mono⟩

theorem magSeq_inj {f : Fmt} {j k : Nat} (h : magSeq f j = magSeq f k) : j = k := by
  rcases Nat.lt_trichotomy j k with c | c | c
  · have := magSeq_mono (f := f) c; omega
  · exact c
  · have := magSeq_mono (f := f) c; omega

theorem magSeq_zero (f : Fmt) : magSeq f 0 = 0 := by simp [magSeq]

/-! ### Rounding -/

/-- `cmp t` compares `t / 2` with a fixed number whose integral part is `q` -/
structure IsCut (q : Nat) (cmp : Nat → Ordering) : Prop where
  low : cmp (2 * q) ≠ .gt
  high : cmp (2 * (q + 1)) = .gt
  strict : ∀ t t', t < t' → cmp t ≠ .lt → cmp t' = .gt

theorem IsCut.below {q : Nat} {cmp : Nat → Ordering} (h : IsCut q cmp) {t t' : Nat} (ht : t < t') (hc : cmp t' ≠ .gt) : cmp t = .lt := by
  cases e : cmp t with
  | lt => rfl
  | eq => exact (hc (h.strict t t' ht (by rw [e]; simp))).elim
  | gt => exact (hc (h.strict t t' ht (by rw [e]; simp))).elim

/-- `k` is the best choice among the patterns up to `lim` -/
structure Best (f : Fmt) (cmp : Nat → Ordering) (lim k : Nat) : Prop where
  le : k ≤ lim
  above : ∀ j, k < j → j ≤ lim → cmp (magSeq f k + magSeq f j) ≠ .lt
  below : ∀ j, j < k → cmp (magSeq f k + magSeq f j) ≠ .gt
  tie : ∀ j, j ≠ k → j ≤ lim → cmp (magSeq f k + magSeq f j) = .eq → k % 2 = 0

theorem infBits_even {f : Fmt} (h : FmtOk f) : infBits f % 2 = 0 := by
  have := h.m
  obtain ⟨n, hn⟩ := Nat.exists_eq_succ_of_ne_zero (n := f.m) (by omega)
  unfold infBits
  rw [hn, Nat.pow_succ, ← Nat.mul_assoc]
  exact Nat.mul_mod_left _ _

theorem sig_of_floor (f : Fmt) (q : Nat) : IsSig f (q.log2 - f.m) (q / 2 ^ (q.log2 - f.m)) := by
  by_cases h0 : q = 0
  · subst h0
    have : Nat.log2 0 = 0 := by decide
    rw [this, Nat.zero_sub]
    exact ⟨by have := Nat.two_pow_pos f.m; omega, .inl rfl⟩
  have h1 : q < 2 ^ (q.log2 + 1) := Nat.lt_log2_self
  have h2 : 2 ^ q.log2 ≤ q := Nat.log2_self_le h0
  by_cases hm : q.log2 ≤ f.m
  · have hs : q.log2 - f.m = 0 := by omega
    rw [hs]
    refine ⟨?_, .inl rfl⟩
    have : 2 ^ (q.log2 + 1) ≤ 2 ^ (f.m + 1) := Nat.pow_le_pow_right (by omega) (by omega)
    rw [Nat.pow_succ 2 f.m] at this
    simp only [Nat.pow_zero, Nat.div_one]
    omega
  · refine ⟨?_, .inr ?_⟩
    · rw [Nat.div_lt_iff_lt_mul (Nat.two_pow_pos _)]
      have : 2 * 2 ^ f.m * 2 ^ (q.log2 - f.m) = 2 ^ (q.log2 + 1) := by
        rw [← Nat.pow_succ', ← Nat.pow_add]; congr 1; omega
      omega
    · rw [Nat.le_div_iff_mul_le (Nat.two_pow_pos _), ← Nat.pow_add]
      have : f.m + (q.log2 - f.m) = q.log2 := by omega
      rw [this]; exact h2

theorem roundCut_best {f : Fmt} (hf : FmtOk f) {q : Nat} {cmp : Nat → Ordering} (h : IsCut q cmp) :
    Best f cmp (infBits f) (roundCut f q cmp) := by
  unfold roundCut
  simp only
  have hsig := sig_of_floor f q
  generalize hs : q.log2 - f.m = s at *
  have hP : 0 < 2 ^ s := Nat.two_pow_pos _
  have hq1 := Nat.div_mul_le_self q (2 ^ s)
  have hq2 : q < (q / 2 ^ s + 1) * 2 ^ s := by
    have h1 := Nat.div_add_mod q (2 ^ s)
    have h2 := Nat.mod_lt q hP
    rw [Nat.add_mul, Nat.mul_comm (q / 2 ^ s)]
    omega
  generalize q / 2 ^ s = w at *
  have hlo := magSeq_sig hsig
  have hhi := magSeq_sig_succ hsig
  have hw : (w + 1) * 2 ^ s = w * 2 ^ s + 2 ^ s := by rw [Nat.add_mul]; omega
  rw [hw] at hhi hq2
  generalize s * 2 ^ f.m + w = k at *
  generalize w * 2 ^ s = lo at *
  generalize 2 ^ s = u at *
  generalize hL : infBits f = L
  have hLe : L % 2 = 0 := hL ▸ infBits_even hf
  -- the lower neighbour, if it is at least as near
  have down : k ≤ L → (cmp (2 * lo + u) = .gt ∨ cmp (2 * lo + u) = .eq ∧ k % 2 = 0) → Best f cmp L k := by
    intro hkL hc
    have hgt : ∀ t, 2 * lo + u ≤ t → cmp t ≠ .lt ∧ (cmp t = .eq → k % 2 = 0) := by
      intro t ht
      rcases Nat.lt_or_eq_of_le ht with ht | rfl
      · have := h.strict _ t ht (by rcases hc with hc | hc <;> simp [hc])
        simp [this]
      · rcases hc with hc | hc <;> simp [hc]
    have hlt : ∀ t, t < 2 * lo → cmp t = .lt := by
      intro t ht
      refine h.below (Nat.lt_of_lt_of_le ht (Nat.mul_le_mul_left 2 hq1)) h.low
    refine ⟨hkL, fun j hj _ => ?_, fun j hj => ?_, fun j hj _ he => ?_⟩
    · have := magSeq_le (f := f) (show k + 1 ≤ j from hj)
      exact (hgt _ (by omega)).1
    · have := magSeq_mono (f := f) hj
      rw [hlt _ (by omega)]; simp
    · rcases Nat.lt_or_gt_of_ne hj with c | c
      · have := magSeq_mono (f := f) c
        rw [hlt _ (by omega)] at he; cases he
      · have := magSeq_le (f := f) (show k + 1 ≤ j from c)
        exact (hgt _ (by omega)).2 he
  -- the upper neighbour
  have up : k + 1 ≤ L → (cmp (2 * lo + u) = .lt ∨ cmp (2 * lo + u) = .eq ∧ k % 2 = 1) → Best f cmp L (k + 1) := by
    intro hkL hc
    have hlt : ∀ t, t ≤ 2 * lo + u → cmp t ≠ .gt ∧ (cmp t = .eq → (k + 1) % 2 = 0) := by
      intro t ht
      rcases Nat.lt_or_eq_of_le ht with ht | rfl
      · have := h.below ht (by rcases hc with hc | hc <;> simp [hc])
        simp [this]
      · rcases hc with hc | ⟨hc, hk⟩
        · simp [hc]
        · simp only [hc, ne_eq, reduceCtorEq, not_false_eq_true, true_and, forall_const]; omega
    have hgt : ∀ t, 2 * (lo + u) < t → cmp t = .gt := by
      intro t ht
      refine h.strict (2 * (q + 1)) t (by omega) (by rw [h.high]; simp)
    refine ⟨hkL, fun j hj _ => ?_, fun j hj => ?_, fun j hj _ he => ?_⟩
    · have := magSeq_mono (f := f) hj
      rw [hgt _ (by omega)]; simp
    · have := magSeq_le (f := f) (show j ≤ k by omega)
      exact (hlt _ (by omega)).1
    · rcases Nat.lt_or_gt_of_ne hj with c | c
      · have := magSeq_le (f := f) (show j ≤ k by omega)
        exact (hlt _ (by omega)).2 he
      · have := magSeq_mono (f := f) c
        rw [hgt _ (by omega)] at he; cases he
  -- beyond the largest finite number
  have over : L ≤ k → Best f cmp L L := by
    intro hkL
    have hle := magSeq_le (f := f) hkL
    have hlt : ∀ j, j < L → cmp (magSeq f L + magSeq f j) = .lt := by
      intro j hj
      have := magSeq_mono (f := f) hj
      exact h.below (t' := 2 * q) (by omega) h.low
    refine ⟨Nat.le_refl _, fun j hj hj' => by omega, fun j hj => by rw [hlt j hj]; simp, fun j hj hj' he => hLe⟩
  by_cases hkL : k + 1 ≤ L
  · cases hc : cmp (2 * lo + u) with
    | lt => simp only; rw [Nat.min_eq_left hkL]; exact up hkL (.inl hc)
    | gt => simp only; rw [Nat.min_eq_left (by omega)]; exact down (by omega) (.inl hc)
    | eq =>
      simp only
      rw [Nat.min_eq_left (by omega)]
      rcases Nat.mod_two_eq_zero_or_one k with c | c
      · rw [c]; exact down (by omega) (.inr ⟨hc, c⟩)
      · rw [c]; exact up hkL (.inr ⟨hc, c⟩)
  · have hmin : ∀ x, L ≤ x → min x L = L := fun x hx => Nat.min_eq_right hx
    have : L ≤ k := by omega
    cases cmp (2 * lo + u) <;> simp only <;> rw [hmin _ (by omega)] <;> exact over this

/-! ### Cuts -/

theorem cut_rat {n d : Nat} (hd : 0 < d) : IsCut (n / d) fun t => compare (t * d) (2 * n) := by
  have h1 := Nat.div_mul_le_self n d
  have h2 : n < (n / d + 1) * d := by
    have h1 := Nat.div_add_mod n d
    have h2 := Nat.mod_lt n hd
    rw [Nat.add_mul, Nat.mul_comm (n / d)]
    omega
  refine ⟨?_, ?_, fun t t' ht hc => ?_⟩
  · rw [Nat.mul_assoc, ne_eq, Nat.compare_eq_gt]; omega
  · rw [Nat.mul_assoc, Nat.compare_eq_gt]; omega
  · rw [ne_eq, Nat.compare_eq_lt] at hc
    rw [Nat.compare_eq_gt]
    have := Nat.mul_lt_mul_of_pos_right ht hd
    omega

theorem isqrtUpTo_spec : ∀ (fuel n : Nat), n < 4 ^ fuel →
    isqrtUpTo fuel n * isqrtUpTo fuel n ≤ n ∧ n < (isqrtUpTo fuel n + 1) * (isqrtUpTo fuel n + 1) := by
  intro fuel
  induction fuel with
  | zero => intro n h; simp at h; subst h; simp [isqrtUpTo]
  | succ fuel ih =>
    intro n h
    have hd : n / 4 < 4 ^ fuel := by rw [Nat.pow_succ] at h; omega
    obtain ⟨h1, h2⟩ := ih (n / 4) hd
    simp only [isqrtUpTo]
    generalize isqrtUpTo fuel (n / 4) = r at *
    have e1 : 2 * r * (2 * r) = 4 * (r * r) := by rw [Nat.mul_mul_mul_comm]
    have e2 : (2 * r + 1 + 1) * (2 * r + 1 + 1) = 4 * ((r + 1) * (r + 1)) := by
      have : 2 * r + 1 + 1 = 2 * (r + 1) := by omega
      rw [this, Nat.mul_mul_mul_comm]
    split
    · exact ⟨by assumption, by rw [e2]; omega⟩
    · exact ⟨by rw [e1]; omega, by omega⟩

theorem isqrt_spec (n : Nat) : isqrt n * isqrt n ≤ n ∧ n < (isqrt n + 1) * (isqrt n + 1) := by
  refine isqrtUpTo_spec _ _ ?_
  have h1 : n < 2 ^ (n.log2 + 1) := Nat.lt_log2_self
  have h2 : 2 ^ (n.log2 + 1) ≤ 4 ^ (n.log2 + 1) := Nat.pow_le_pow_left (by omega) _
  omega

theorem cut_root (n : Nat) : IsCut (isqrt n) fun t => compare (t * t) (4 * n) := by
  obtain ⟨h1, h2⟩ := isqrt_spec n
  refine ⟨?_, ?_, fun t t' ht hc => ?_⟩
  · rw [Nat.mul_mul_mul_comm, ne_eq, Nat.compare_eq_gt]; omega
  · rw [Nat.mul_mul_mul_comm, Nat.compare_eq_gt]; omega
  · rw [ne_eq, Nat.compare_eq_lt] at hc
    rw [Nat.compare_eq_gt]
    have := Nat.mul_lt_mul'' ht ht
    omega

/-! ### Bit patterns with sign -/

theorem signBit_even {f : Fmt} (h : FmtOk f) : 2 ^ (f.e + f.m) % 2 = 0 := by
  have := h.m
  obtain ⟨n, hn⟩ := Nat.exists_eq_succ_of_ne_zero (n := f.e + f.m) (by omega)
  rw [hn, Nat.pow_succ]
  exact Nat.mul_mod_left _ _

theorem infBits_lt (f : Fmt) : infBits f < 2 ^ (f.e + f.m) := by
  unfold infBits
  rw [Nat.pow_add]
  exact Nat.mul_lt_mul_of_pos_right (by have := Nat.two_pow_pos f.e; omega) (Nat.two_pow_pos _)

/-- a bit pattern is a sign and an unsigned pattern -/
theorem split_sign {f : Fmt} {b : Nat} (h : b < 2 ^ f.width) : ∃ neg k, b = withSign f neg k ∧ k < 2 ^ (f.e + f.m) := by
  have e : 2 ^ f.width = 2 ^ (f.e + f.m) + 2 ^ (f.e + f.m) := by
    have : f.width = f.e + f.m + 1 := by unfold Fmt.width; omega
    rw [this, Nat.pow_succ]; omega
  by_cases c : b < 2 ^ (f.e + f.m)
  · exact ⟨false, b, rfl, c⟩
  · exact ⟨true, b - 2 ^ (f.e + f.m), by simp [withSign]; omega, by omega⟩

theorem withSign_lt {f : Fmt} {neg : Bool} {k : Nat} (h : k < 2 ^ (f.e + f.m)) : withSign f neg k < 2 ^ f.width := by
  have : f.width = f.e + f.m + 1 := by unfold Fmt.width; omega
  rw [this, Nat.pow_succ]
  unfold withSign
  split <;> omega

theorem sign_withSign {f : Fmt} {neg : Bool} {k : Nat} (h : k < 2 ^ (f.e + f.m)) : f.sign (withSign f neg k) = neg := by
  unfold Fmt.sign withSign
  have hP := Nat.two_pow_pos (f.e + f.m)
  cases neg
  · simp [Nat.div_eq_of_lt h]
  · simp only [if_true]
    rw [Nat.add_comm, Nat.add_div_right _ hP, Nat.div_eq_of_lt h]; rfl

theorem fNeg_withSign {f : Fmt} {neg : Bool} {k : Nat} (h : k < 2 ^ (f.e + f.m)) : fNeg? f (withSign f neg k) = neg := by
  unfold fNeg? withSign
  cases neg <;> simp <;> omega

theorem expo_withSign {f : Fmt} {neg : Bool} {k : Nat} (h : k < 2 ^ (f.e + f.m)) : f.expo (withSign f neg k) = k / 2 ^ f.m := by
  unfold Fmt.expo withSign
  have h2 : k / 2 ^ f.m < 2 ^ f.e := by
    rw [Nat.div_lt_iff_lt_mul (Nat.two_pow_pos _), ← Nat.pow_add]; exact h
  cases neg
  · simp [Nat.mod_eq_of_lt h2]
  · simp only [if_true]
    rw [Nat.pow_add, Nat.mul_comm (2 ^ f.e), Nat.mul_add_div (Nat.two_pow_pos _), Nat.add_mod_left, Nat.mod_eq_of_lt h2]

theorem mant_withSign {f : Fmt} {neg : Bool} {k : Nat} : f.mant (withSign f neg k) = k % 2 ^ f.m := by
  unfold Fmt.mant withSign
  cases neg
  · simp
  · simp only [if_true]
    rw [Nat.pow_add, Nat.mul_comm (2 ^ f.e), Nat.mul_add_mod]

theorem mag_withSign {f : Fmt} {neg : Bool} {k : Nat} (h : k < 2 ^ (f.e + f.m)) : f.mag (withSign f neg k) = magSeq f k := by
  unfold Fmt.mag magSeq
  rw [expo_withSign h, mant_withSign]
  split
  · rename_i h0
    exact Nat.mod_eq_of_lt ((Nat.div_eq_zero_iff_lt (Nat.two_pow_pos _)).mp h0)
  · rfl

theorem withSign_parity {f : Fmt} (hf : FmtOk f) {neg : Bool} {k : Nat} : withSign f neg k % 2 = k % 2 := by
  have := signBit_even hf
  unfold withSign
  split <;> omega

/-- the value with a sign -/
def withNeg (neg : Bool) (v : Nat) : Int := if neg then -(v : Int) else v

theorem val_withSign {f : Fmt} {neg : Bool} {k : Nat} (h : k < 2 ^ (f.e + f.m)) : f.val (withSign f neg k) =
    if k < infBits f then .fin (withNeg neg (magSeq f k)) else if k = infBits f then .inf neg else .nan := by
  unfold Fmt.val
  rw [expo_withSign h, mant_withSign, mag_withSign h, sign_withSign h]
  have hA := Nat.two_pow_pos f.m
  have hE := Nat.two_pow_pos f.e
  have hk := Nat.div_add_mod k (2 ^ f.m)
  have hm := Nat.mod_lt k hA
  have hlt : k / 2 ^ f.m < 2 ^ f.e := by
    rw [Nat.div_lt_iff_lt_mul hA, ← Nat.pow_add]; exact h
  unfold infBits withNeg
  generalize 2 ^ f.m = A at *
  generalize 2 ^ f.e = B at *
  by_cases c : k / A = B - 1
  · rw [if_pos c]
    rw [c, Nat.mul_comm] at hk
    by_cases c0 : k % A = 0
    · rw [if_pos c0, if_neg (by omega), if_pos (by omega)]
    · rw [if_neg c0, if_neg (by omega), if_neg (by omega)]
  · have : (k / A + 1) * A ≤ (B - 1) * A := Nat.mul_le_mul_right _ (by omega)
    rw [Nat.add_mul, Nat.mul_comm (k / A)] at this
    rw [if_neg c, if_pos (show k < (B - 1) * A by omega)]

theorem limit_eq {f : Fmt} (hf : FmtOk f) : magSeq f (infBits f) = f.limit := by
  have he := hf.e
  have hm := hf.m
  have hE : 2 ^ f.e = 2 * 2 ^ (f.e - 1) := by rw [← Nat.pow_succ']; congr 1; omega
  have hE1 : 2 ≤ 2 ^ (f.e - 1) := by
    have : 2 ^ 1 ≤ 2 ^ (f.e - 1) := Nat.pow_le_pow_right (by omega) (by omega)
    simpa using this
  have hs : IsSig f (2 ^ f.e - 2) (2 ^ f.m) := ⟨by have := Nat.two_pow_pos f.m; omega, .inr (Nat.le_refl _)⟩
  have e : infBits f = (2 ^ f.e - 2) * 2 ^ f.m + 2 ^ f.m := by
    unfold infBits
    have : 2 ^ f.e - 1 = 2 ^ f.e - 2 + 1 := by omega
    rw [this, Nat.add_mul]; omega
  rw [e, magSeq_sig hs, Fmt.limit, Fmt.fracBits, ← Nat.pow_add, ← Nat.pow_add]
  congr 1
  omega

theorem candidate_withSign {f : Fmt} (hf : FmtOk f) {neg : Bool} {k : Nat} (h : k < 2 ^ (f.e + f.m)) : f.candidate (withSign f neg k) =
    if k ≤ infBits f then some (withNeg neg (magSeq f k)) else none := by
  unfold Fmt.candidate
  rw [val_withSign h]
  by_cases c : k < infBits f
  · rw [if_pos c, if_pos (by omega)]
  · rw [if_neg c]
    by_cases c' : k = infBits f
    · subst c'
      rw [if_pos rfl, if_pos (Nat.le_refl _), ← limit_eq hf]
      cases neg <;> rfl
    · rw [if_neg c', if_neg (by omega)]

theorem candidate_inv {f : Fmt} (hf : FmtOk f) {b : Nat} {v : Int} (hb : b < 2 ^ f.width) (h : f.candidate b = some v) :
    ∃ neg k, b = withSign f neg k ∧ k ≤ infBits f ∧ v = withNeg neg (magSeq f k) := by
  obtain ⟨neg, k, rfl, hk⟩ := split_sign hb
  rw [candidate_withSign hf hk] at h
  split at h
  · cases h; exact ⟨neg, k, rfl, by assumption, rfl⟩
  · cases h

end Verif.Lemmas
