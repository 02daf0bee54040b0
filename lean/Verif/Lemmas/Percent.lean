import Verif.Model.StatsText
import Verif.Lemmas.IeeeOps
/-
The rounding error of a quotient in percent, and of its decimal.
-/
namespace Verif.Lemmas
open Verif.Model Verif.Spec

/-- the relative error of one rounding, away from the subnormals and from overflow -/
theorem roundRat_err {f : Fmt} (hf : FmtOk f) {n d : Nat} (hd : 0 < d) (hbig : 2 ^ f.m * d ≤ n) (hlim : 2 * n < f.limit * d) :
    roundRat f n d < infBits f ∧ 2 ^ f.m * (2 * ((magSeq f (roundRat f n d) * d : Nat) - (n : Int)).natAbs) ≤ n := by
  have hq : 2 ^ f.m ≤ n / d := (Nat.le_div_iff_mul_le hd).2 hbig
  have hql : 2 * (n / d) < f.limit := by
    have : 2 * (n / d) * d ≤ 2 * n := by rw [Nat.mul_assoc]; exact Nat.mul_le_mul_left 2 (Nat.div_mul_le_self n d)
    exact Nat.lt_of_mul_lt_mul_right (Nat.lt_of_le_of_lt this hlim)
  have hn1 := Nat.div_mul_le_self n d
  have hn2 : n < (n / d + 1) * d := by
    have h1 := Nat.div_add_mod n d
    have h2 := Nat.mod_lt n hd
    rw [Nat.add_mul, Nat.mul_comm (n / d)]
    omega
  have hpos : 0 < 2 ^ f.m := Nat.two_pow_pos _
  rw [← limit_eq hf] at hql
  unfold roundRat roundCut
  simp only
  generalize n / d = q at *
  have hsig := sig_of_floor f q
  have hlog : f.m ≤ q.log2 := (Nat.le_log2 (by omega)).2 hq
  have hP2 : 2 ^ f.m * 2 ^ (q.log2 - f.m) ≤ q := by
    rw [← Nat.pow_add, show f.m + (q.log2 - f.m) = q.log2 by omega]
    exact Nat.log2_self_le (by omega)
  generalize q.log2 - f.m = s at *
  have hP : 0 < 2 ^ s := Nat.two_pow_pos _
  have hq1 := Nat.div_mul_le_self q (2 ^ s)
  have hq2 : q < (q / 2 ^ s + 1) * 2 ^ s := by
    have h1 := Nat.div_add_mod q (2 ^ s)
    have h2 := Nat.mod_lt q hP
    rw [Nat.add_mul, Nat.mul_comm (q / 2 ^ s)]
    omega
  generalize q / 2 ^ s = w at *
  have hlo := magSeq_sig hsig
  have hhi := magSeq_sig_succ hsig
  have hw : (w + 1) * 2 ^ s = w * 2 ^ s + 2 ^ s := by rw [Nat.add_mul]; omega
  rw [hw] at hhi hq2
  generalize s * 2 ^ f.m + w = k at *
  generalize w * 2 ^ s = lo at *
  generalize 2 ^ s = P at *
  have hPq : P ≤ q := Nat.le_trans (Nat.le_mul_of_pos_left P hpos) hP2
  have hk1 : k + 1 < infBits f := by rw [← magSeq_lt_iff (f := f), hhi]; omega
  have hPd : 2 ^ f.m * (P * d) ≤ n := by
    rw [← Nat.mul_assoc]
    exact Nat.le_trans (Nat.mul_le_mul_right d hP2) hn1
  have hlod : lo * d ≤ n := Nat.le_trans (Nat.mul_le_mul_right d hq1) hn1
  have hhid : n < lo * d + P * d := by
    rw [← Nat.add_mul]
    exact Nat.lt_of_lt_of_le hn2 (Nat.mul_le_mul_right d (by omega))
  have fin : ∀ k', (k' = k ∧ 2 * n ≤ (2 * lo + P) * d ∨ k' = k + 1 ∧ (2 * lo + P) * d ≤ 2 * n) →
      min k' (infBits f) < infBits f ∧
      2 ^ f.m * (2 * ((magSeq f (min k' (infBits f)) * d : Nat) - (n : Int)).natAbs) ≤ n := by
    intro k' h
    have he : (2 * lo + P) * d = 2 * (lo * d) + P * d := by rw [Nat.add_mul, Nat.mul_assoc]
    rw [he] at h
    rcases h with ⟨rfl, h⟩ | ⟨rfl, h⟩
    · rw [Nat.min_eq_left (by omega)]
      refine ⟨by omega, Nat.le_trans (Nat.mul_le_mul_left _ ?_) hPd⟩
      rw [hlo]; omega
    · rw [Nat.min_eq_left (by omega)]
      refine ⟨by omega, Nat.le_trans (Nat.mul_le_mul_left _ ?_) hPd⟩
      rw [hhi, Nat.add_mul]; omega
  cases hc : compare ((2 * lo + P) * d) (2 * n) with
  | lt => simp only; exact fin _ (.inr ⟨rfl, Nat.le_of_lt (Nat.compare_eq_lt.1 hc)⟩)
  | gt => simp only; exact fin _ (.inl ⟨rfl, Nat.le_of_lt (Nat.compare_eq_gt.1 hc)⟩)
  | eq =>
    have he := Nat.compare_eq_eq.1 hc
    simp only
    rcases Nat.mod_two_eq_zero_or_one k with c | c
    · rw [c]; exact fin _ (.inl ⟨rfl, by omega⟩)
    · rw [c]; exact fin _ (.inr ⟨rfl, by omega⟩)

/-- chain of the four roundings -/
theorem chain_err {c T C Tt D R t U : Nat} (hU : 0 < U) (hcT : c ≤ T)
    (h1 : 2 ^ 52 * (2 * ((C : Int) - (c * U : Nat)).natAbs) ≤ c * U)
    (h2 : 2 ^ 52 * (2 * ((Tt : Int) - (T * U : Nat)).natAbs) ≤ T * U)
    (h3 : 2 ^ 52 * (2 * ((D * Tt : Nat) - ((C * U : Nat) : Int)).natAbs) ≤ C * U)
    (h4 : 2 ^ 52 * (2 * ((R : Int) - (100 * D : Nat)).natAbs) ≤ 100 * D)
    (h5 : 2 * ((t * U : Nat) - ((10 * R : Nat) : Int)).natAbs ≤ U) :
    2 ^ 39 * (2 * ((t * T : Nat) - ((1000 * c : Nat) : Int)).natAbs) ≤ (2 ^ 39 + 1) * T := by
  have mulAbs : ∀ (a b : Nat) (k : Nat), ((a : Int) - b).natAbs * k = (((a * k : Nat) : Int) - (b * k : Nat)).natAbs := by
    intro a b k
    rw [show (((a * k : Nat) : Int) - (b * k : Nat)) = ((a : Int) - b) * k by rw [Int.sub_mul]; simp, Int.natAbs_mul]
    simp
  -- |C U - c U U| and so on
  have a1 : 2 ^ 53 * (((C * U : Nat) : Int) - (c * U * U : Nat)).natAbs ≤ c * U * U := by
    rw [← mulAbs]
    have := Nat.mul_le_mul_right U h1
    rw [show 2 ^ 52 * (2 * ((C : Int) - (c * U : Nat)).natAbs) * U = 2 ^ 53 * (((C : Int) - (c * U : Nat)).natAbs * U) by
      generalize ((C : Int) - (c * U : Nat)).natAbs = x
      rw [Nat.mul_assoc, Nat.mul_assoc, show (2:Nat) ^ 53 = 2 ^ 52 * 2 from rfl, Nat.mul_assoc]] at this
    exact this
  have a2 : 2 ^ 53 * (((D * Tt : Nat) : Int) - (D * (T * U) : Nat)).natAbs ≤ D * (T * U) := by
    rw [Nat.mul_comm D Tt, Nat.mul_comm D (T * U), ← mulAbs]
    have := Nat.mul_le_mul_right D h2
    rw [show 2 ^ 52 * (2 * ((Tt : Int) - (T * U : Nat)).natAbs) * D = 2 ^ 53 * (((Tt : Int) - (T * U : Nat)).natAbs * D) by
      generalize ((Tt : Int) - (T * U : Nat)).natAbs = x
      rw [Nat.mul_assoc, Nat.mul_assoc, show (2:Nat) ^ 53 = 2 ^ 52 * 2 from rfl, Nat.mul_assoc]] at this
    exact this
  have b1 : 2 ^ 53 * (((D * T : Nat) : Int) - (c * U : Nat)).natAbs ≤ 5 * (c * U) := by
    apply Nat.le_of_mul_le_mul_right (c := U) _ hU
    rw [Nat.mul_assoc (2 ^ 53), mulAbs, Nat.mul_assoc 5, Nat.mul_assoc D T U]
    generalize D * (T * U) = v at *
    generalize c * U * U = x at *
    generalize C * U = y at *
    generalize D * Tt = z at *
    omega
  have a4 : 2 ^ 53 * (((R * T : Nat) : Int) - (100 * (D * T) : Nat)).natAbs ≤ 100 * (D * T) := by
    rw [← Nat.mul_assoc, ← mulAbs]
    have := Nat.mul_le_mul_right T h4
    rw [show 2 ^ 52 * (2 * ((R : Int) - (100 * D : Nat)).natAbs) * T = 2 ^ 53 * (((R : Int) - (100 * D : Nat)).natAbs * T) by
      generalize ((R : Int) - (100 * D : Nat)).natAbs = x
      rw [Nat.mul_assoc, Nat.mul_assoc, show (2:Nat) ^ 53 = 2 ^ 52 * 2 from rfl, Nat.mul_assoc]] at this
    exact this
  have a5 : 2 * (((t * T * U : Nat) : Int) - (10 * (R * T) : Nat)).natAbs ≤ T * U := by
    have e : t * T * U = t * U * T := by rw [Nat.mul_assoc, Nat.mul_comm T U, Nat.mul_assoc]
    rw [e, ← Nat.mul_assoc 10, ← mulAbs, ← Nat.mul_assoc, Nat.mul_comm T U]
    exact Nat.mul_le_mul_right T h5
  have hcU : c * U ≤ T * U := Nat.mul_le_mul_right U hcT
  apply Nat.le_of_mul_le_mul_right (c := U) _ hU
  rw [Nat.mul_assoc (2 ^ 39), Nat.mul_assoc 2, mulAbs, Nat.mul_assoc (2 ^ 39 + 1), Nat.mul_assoc 1000]
  generalize t * T * U = τ at *
  generalize T * U = ω at *
  generalize R * T = r at *
  generalize D * T = p at *
  generalize c * U = q at *
  omega

theorem withSign_false (f : Fmt) (k : Nat) : withSign f false k = k := by simp [withSign]

/-- a non-negative finite pattern -/
theorem val_pos {f : Fmt} {k : Nat} (h : k < infBits f) : f.val k = .fin (magSeq f k : Int) := by
  have := val_withSign (f := f) (neg := false) (Nat.lt_trans h (infBits_lt f))
  rw [if_pos h] at this
  exact this

theorem fNeg_pos {f : Fmt} {k : Nat} (h : k < infBits f) : fNeg? f k = false :=
  fNeg_withSign (f := f) (neg := false) (Nat.lt_trans h (infBits_lt f))

theorem mag_pos {f : Fmt} {k : Nat} (h : k < infBits f) : f.mag k = magSeq f k :=
  mag_withSign (f := f) (neg := false) (Nat.lt_trans h (infBits_lt f))

theorem tenths_err (b : Nat) : 2 * ((tenths b * 2 ^ f64.fracBits : Nat) - ((10 * f64.mag b : Nat) : Int)).natAbs ≤ 2 ^ f64.fracBits := by
  unfold tenths
  simp only
  have hu : 0 < 2 ^ f64.fracBits := Nat.two_pow_pos _
  generalize 2 ^ f64.fracBits = u at *
  generalize 10 * f64.mag b = n at *
  have h1 := Nat.div_add_mod n u
  have h2 := Nat.mod_lt n hu
  have e0 : n / u * u = u * (n / u) := Nat.mul_comm _ _
  have e1 : (n / u + 1) * u = u * (n / u) + u := by rw [Nat.add_mul, Nat.mul_comm (n / u)]; omega
  cases hc : compare (2 * (n % u)) u with
  | lt => have := Nat.compare_eq_lt.1 hc; simp only; rw [e0]; omega
  | gt => have := Nat.compare_eq_gt.1 hc; simp only; rw [e1]; omega
  | eq =>
    have := Nat.compare_eq_eq.1 hc
    simp only
    rcases Nat.mod_two_eq_zero_or_one (n / u) with c | c
    · rw [c, Nat.add_zero, e0]; omega
    · rw [c, e1]; omega

/-- a value of moderate size -/
theorem fFromInt_pos {n : Nat} (h0 : 0 < n) (h : n < 2 ^ 64) : ∃ k, fFromInt f64 n = k ∧ k < infBits f64 ∧
    2 ^ 52 * (2 * ((magSeq f64 k : Int) - (n * 2 ^ f64.fracBits : Nat)).natAbs) ≤ n * 2 ^ f64.fracBits := by
  have e : fFromInt f64 n = roundRat f64 (n * 2 ^ f64.fracBits) 1 := by
    unfold fFromInt
    rw [if_neg (by omega)]
    unfold roundInt
    have h1 : ((n : Int) * 2 ^ f64.fracBits).natAbs = n * 2 ^ f64.fracBits := by
      rw [Int.natAbs_mul, pow_cast, Int.natAbs_natCast, Int.natAbs_natCast]
    have h2 : ¬ ((n : Int) * 2 ^ f64.fracBits < 0) := by
      rw [pow_cast, ← Int.natCast_mul]; omega
    rw [h1, decide_eq_false h2, withSign_false]
  have hU : 2 ^ f64.m ≤ 2 ^ f64.fracBits := Nat.pow_le_pow_right (by omega) (by decide)
  have r := roundRat_err f64_ok (n := n * 2 ^ f64.fracBits) (d := 1) (by omega)
    (by rw [Nat.mul_one]; exact Nat.le_trans hU (Nat.le_mul_of_pos_left _ h0))
    (by
      rw [Nat.mul_one, Fmt.limit, ← Nat.mul_assoc]
      refine Nat.mul_lt_mul_of_pos_right ?_ (Nat.two_pow_pos _)
      have : 2 ^ 65 ≤ 2 ^ 2 ^ (f64.e - 1) := Nat.pow_le_pow_right (by omega) (by decide)
      omega)
  refine ⟨_, e, r.1, ?_⟩
  have := r.2
  rw [Nat.mul_one] at this
  exact this

/-- bounds that follow from a relative error -/
theorem near_bounds {x y : Nat} (h : 2 ^ 52 * (2 * ((x : Int) - (y : Nat)).natAbs) ≤ y) : x ≤ 2 * y ∧ y ≤ 2 * x := by omega

theorem hundred : f64.val 0x4059000000000000 = .fin ((100 * 2 ^ f64.fracBits : Nat) : Int) ∧ fNeg? f64 0x4059000000000000 = false := by
  decide +kernel

theorem fArith_mul_pos {f : Fmt} {nan a b x y : Nat} (ha : f.val a = .fin x) (hb : f.val b = .fin y) (h : 0 < x * y) :
    fArith f nan .mul a b = roundRat f (x * y) (2 ^ f.fracBits) := by
  unfold fArith
  rw [ha, hb]
  simp only
  have e : ((x : Int) * (y : Int)) = ((x * y : Nat) : Int) := (Int.natCast_mul _ _).symm
  rw [e, if_neg (by omega)]
  unfold roundInt
  rw [decide_eq_false (by omega), Int.natAbs_natCast, withSign_false]

/-- the percentage, in tenths, against the exact one -/
theorem tenths_percentage {c T : Nat} (h0 : 0 < c) (hcT : c ≤ T) (hT : T < 2 ^ 64) :
    2 ^ 39 * (2 * ((tenths (percentage c T) * T : Nat) - ((1000 * c : Nat) : Int)).natAbs) ≤ (2 ^ 39 + 1) * T := by
  obtain ⟨kc, ec, lc, rc⟩ := fFromInt_pos h0 (by omega)
  obtain ⟨kt, et, lt, rt⟩ := fFromInt_pos (n := T) (by omega) hT
  have hU : 0 < 2 ^ f64.fracBits := Nat.two_pow_pos _
  have hUbig : 2 ^ 200 ≤ 2 ^ f64.fracBits := Nat.pow_le_pow_right (by omega) (by decide)
  have hlim : f64.limit = 2 ^ 1024 * 2 ^ f64.fracBits := by
    unfold Fmt.limit; rw [show 2 ^ (f64.e - 1) = 1024 from rfl]
  have hLbig : 2 ^ 200 ≤ 2 ^ 1024 := Nat.pow_le_pow_right (by omega) (by decide)
  have hm : f64.m = 52 := rfl
  generalize hUe : 2 ^ f64.fracBits = U at *
  generalize 2 ^ 1024 = L at *
  have bc := near_bounds rc
  have bt := near_bounds rt
  generalize hC : magSeq f64 kc = C at *
  generalize hTt : magSeq f64 kt = Tt at *
  have hcU : U ≤ c * U := Nat.le_mul_of_pos_left _ h0
  have hTU : T * U < 2 ^ 64 * U := Nat.mul_lt_mul_of_pos_right hT hU
  have hcTU : c * U ≤ T * U := Nat.mul_le_mul_right U hcT
  have hC0 : 0 < C := by omega
  have hT0 : 0 < Tt := by omega
  -- the quotient
  have d1 : 2 ^ f64.m * Tt ≤ C * U := by
    rw [hm]
    have : 2 ^ 120 * Tt ≤ U * Tt := Nat.mul_le_mul_right _ (by omega)
    have h3 : U * U ≤ 2 * C * U := Nat.mul_le_mul_right U (by omega)
    have h4 : Tt ≤ 2 ^ 65 * U := by omega
    have h5 : 2 ^ 66 * 2 ^ 52 * U ≤ U * U := Nat.mul_le_mul_right U (by omega)
    have h6 : 2 * C * U = 2 * (C * U) := Nat.mul_assoc _ _ _
    omega
  have d2 : 2 * (C * U) < f64.limit * Tt := by
    rw [hlim]
    have h3 : 2 * C * U ≤ 2 ^ 67 * U * U := Nat.mul_le_mul_right U (by omega)
    have h4 : U ≤ 2 * Tt := by omega
    have h5 : 2 ^ 67 * U * U ≤ 2 ^ 67 * U * (2 * Tt) := Nat.mul_le_mul_left _ h4
    have h6 : 2 ^ 67 * U * (2 * Tt) = 2 ^ 68 * (U * Tt) := by
      rw [Nat.mul_assoc, Nat.mul_left_comm U 2 Tt, ← Nat.mul_assoc]
    have h7 : 2 ^ 69 * (U * Tt) ≤ L * (U * Tt) := Nat.mul_le_mul_right _ (by omega)
    have h8 : 0 < U * Tt := Nat.mul_pos hU hT0
    rw [Nat.mul_assoc] at h3
    rw [Nat.mul_assoc L]
    omega
  obtain ⟨ld, rd⟩ := roundRat_err f64_ok hT0 d1 d2
  have ediv : fArith f64 0x7FF8000000000000 .div kc kt = roundRat f64 (C * U) Tt := by
    unfold fArith
    rw [val_pos lc, val_pos lt, fNeg_pos lc, fNeg_pos lt, hC, hTt]
    simp only
    rw [if_neg (by omega), if_neg (by omega), hUe]
    simp [withSign]
  generalize roundRat f64 (C * U) Tt = kd at *
  generalize hD : magSeq f64 kd = D at *
  rw [hm] at rd
  have bd := near_bounds rd
  have hD0 : 0 < D := by
    rcases Nat.eq_zero_or_pos D with h | h
    · rw [h, Nat.zero_mul] at bd
      have := Nat.mul_pos hC0 hU
      omega
    · exact h
  -- D is about U * c / T
  have hDle : D ≤ 2 ^ 5 * U := by
    have h3 : C * U ≤ 4 * Tt * U := Nat.mul_le_mul_right U (by omega)
    have h4 : D * Tt ≤ 2 ^ 5 * U * Tt := by
      have : 4 * Tt * U = 4 * (U * Tt) := by rw [Nat.mul_assoc, Nat.mul_comm Tt]
      have h5 : 2 ^ 5 * U * Tt = 2 ^ 5 * (U * Tt) := Nat.mul_assoc _ _ _
      omega
    exact Nat.le_of_mul_le_mul_right h4 hT0
  have hDge : 2 ^ 60 ≤ D := by
    have h1 : U * U ≤ 2 * C * U := Nat.mul_le_mul_right U (by omega)
    have h2 : C * U ≤ 2 * (D * Tt) := bd.2
    have h3 : D * Tt ≤ D * (2 ^ 65 * U) := Nat.mul_le_mul_left D (by omega)
    have h4 : U * U ≤ 2 ^ 67 * D * U := by
      have e1 : 2 * C * U = 2 * (C * U) := Nat.mul_assoc _ _ _
      have e2 : D * (2 ^ 65 * U) = 2 ^ 65 * (D * U) := by rw [Nat.mul_left_comm]
      have e3 : 2 ^ 67 * D * U = 2 ^ 67 * (D * U) := Nat.mul_assoc _ _ _
      omega
    have h5 := Nat.le_of_mul_le_mul_right h4 hU
    omega
  have m1 : 2 ^ f64.m * U ≤ D * (100 * U) := by
    rw [hm, ← Nat.mul_assoc]
    exact Nat.mul_le_mul_right U (by omega)
  have m2 : 2 * (D * (100 * U)) < f64.limit * U := by
    rw [hlim]
    have : 2 * (D * (100 * U)) = 200 * D * U := by
      rw [Nat.mul_left_comm D, ← Nat.mul_assoc 2, ← Nat.mul_assoc]
    rw [this]
    refine Nat.mul_lt_mul_of_pos_right ?_ hU
    have h3 : 2 ^ 20 * U ≤ L * U := Nat.mul_le_mul_right U (by omega)
    omega
  obtain ⟨lr, rr⟩ := roundRat_err f64_ok hU m1 m2
  have emul : fArith f64 0x7FF8000000000000 .mul kd 0x4059000000000000 = roundRat f64 (D * (100 * U)) U := by
    have := fArith_mul_pos (nan := 0x7FF8000000000000) (val_pos ld) hundred.1 (by rw [hD, hUe]; exact Nat.mul_pos hD0 (by omega))
    rw [hUe, hD] at this
    exact this
  have ep : percentage c T = roundRat f64 (D * (100 * U)) U := by
    unfold percentage
    rw [ec, et, ediv, emul]
  rw [ep]
  generalize roundRat f64 (D * (100 * U)) U = kr at *
  have ht := tenths_err kr
  rw [mag_pos lr, hUe] at ht
  generalize magSeq f64 kr = R at *
  have h4 : 2 ^ 52 * (2 * ((R : Int) - (100 * D : Nat)).natAbs) ≤ 100 * D := by
    apply Nat.le_of_mul_le_mul_right (c := U) _ hU
    have e1 : D * (100 * U) = 100 * D * U := by rw [Nat.mul_left_comm, Nat.mul_assoc]
    have e2 : ((R * U : Nat) - ((100 * D * U : Nat) : Int)).natAbs = ((R : Int) - (100 * D : Nat)).natAbs * U := by
      rw [show ((R * U : Nat) - ((100 * D * U : Nat) : Int)) = ((R : Int) - (100 * D : Nat)) * U by rw [Int.sub_mul]; simp, Int.natAbs_mul]
      simp
    rw [e1, e2, hm] at rr
    rw [Nat.mul_assoc, Nat.mul_assoc]
    exact rr
  exact chain_err hU hcT rc rt rd h4 ht

end Verif.Lemmas
