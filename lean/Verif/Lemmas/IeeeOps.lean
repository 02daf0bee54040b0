import Verif.Lemmas.Ieee
/-
The rounding operations meet the specification, and the specification determines the result up to the choice of a NaN.
-/
namespace Verif.Lemmas
open Verif.Model Verif.Spec

theorem natAbs_withNeg (neg : Bool) (n : Nat) : (withNeg neg n).natAbs = n := by cases neg <;> simp [withNeg]

theorem withNeg_of (n : Int) : n = withNeg (decide (n < 0)) n.natAbs := by
  by_cases h : n < 0 <;> simp [withNeg, h] <;> omega

theorem withNeg_ne_zero {neg : Bool} {n : Nat} (h : n ≠ 0) : withNeg neg n ≠ 0 := by cases neg <;> simp [withNeg] <;> omega

theorem sign_withNeg {neg : Bool} {n : Nat} (h : n ≠ 0) : decide (withNeg neg n < 0) = neg := by
  cases neg <;> simp [withNeg] <;> omega

/-- distance of a candidate of the same sign -/
theorem dist_same (neg : Bool) (V d n : Nat) : (withNeg neg V * d - withNeg neg n).natAbs = ((V * d : Nat) - (n : Int)).natAbs := by
  cases neg
  · simp [withNeg]
  · simp only [withNeg, if_true, Int.natCast_mul]
    rw [Int.neg_mul]
    omega

/-- distance of a candidate of the other sign -/
theorem dist_other (neg : Bool) (V d n : Nat) : (withNeg (!neg) V * d - withNeg neg n).natAbs = V * d + n := by
  cases neg
  · simp only [withNeg, Bool.not_false, if_true, Bool.false_eq_true, if_false]
    rw [Int.neg_mul, ← Int.natCast_mul]
    omega
  · simp only [withNeg, Bool.not_true, if_true, Bool.false_eq_true, if_false]
    rw [← Int.natCast_mul]
    omega

theorem best_nearest {f : Fmt} (hf : FmtOk f) {n d k : Nat} (hd : 0 < d) (hn : n ≠ 0) (neg : Bool)
    (h : Best f (fun t => compare (t * d) (2 * n)) (infBits f) k) : Nearest f (withNeg neg n) d (withSign f neg k) := by
  have hk : k < 2 ^ (f.e + f.m) := Nat.lt_of_le_of_lt h.le (infBits_lt f)
  refine ⟨withSign_lt hk, ⟨withNeg neg (magSeq f k), by rw [candidate_withSign hf hk, if_pos h.le], ?_⟩, by
    rw [sign_withSign hk, sign_withNeg hn]⟩
  intro b' v' hb' hv'
  obtain ⟨neg', j, rfl, hj, rfl⟩ := candidate_inv hf hb' hv'
  rw [withSign_parity hf, dist_same]
  have hmul : ∀ {x y : Nat}, x < y → x * d < y * d := fun h => Nat.mul_lt_mul_of_pos_right h hd
  have hbelow : ∀ j, j < k → magSeq f k * d + magSeq f j * d ≤ 2 * n := by
    intro j hj
    have := h.below j hj
    simp only [ne_eq, Nat.compare_eq_gt, Nat.add_mul] at this
    omega
  have habove : ∀ j, k < j → j ≤ infBits f → 2 * n ≤ magSeq f k * d + magSeq f j * d := by
    intro j hj hj'
    have := h.above j hj hj'
    simp only [ne_eq, Nat.compare_eq_lt, Nat.add_mul] at this
    omega
  have htie : ∀ j, j ≠ k → j ≤ infBits f → magSeq f k * d + magSeq f j * d = 2 * n → k % 2 = 0 := by
    intro j hj hj' he
    exact h.tie j hj hj' (by simp only [Nat.compare_eq_eq, Nat.add_mul]; omega)
  by_cases hs : neg' = neg
  · subst hs
    rw [dist_same]
    rcases Nat.lt_trichotomy j k with c | c | c
    · have h1 := hmul (magSeq_mono (f := f) c)
      have h2 := hbelow j c
      exact ⟨by omega, fun _ e => htie j (by omega) hj (by omega)⟩
    · subst c; exact ⟨Nat.le_refl _, fun e => (e rfl).elim⟩
    · have h1 := hmul (magSeq_mono (f := f) c)
      have h2 := habove j c hj
      exact ⟨by omega, fun _ e => htie j (by omega) hj (by omega)⟩
  · have : neg' = !neg := by cases neg <;> cases neg' <;> simp_all
    subst this
    rw [dist_other]
    by_cases hk0 : k = 0
    · subst hk0
      exact ⟨by rw [magSeq_zero, Nat.zero_mul]; omega, fun _ _ => rfl⟩
    · have h1 := hbelow 0 (by omega)
      rw [magSeq_zero, Nat.zero_mul] at h1
      refine ⟨by omega, fun hne he => ?_⟩
      have hpos := hmul (magSeq_mono (f := f) (Nat.pos_of_ne_zero hk0))
      rw [magSeq_zero, Nat.zero_mul] at hpos
      exact htie 0 (by omega) (Nat.zero_le _) (by rw [magSeq_zero, Nat.zero_mul]; omega)

theorem roundRat_nearest {f : Fmt} (hf : FmtOk f) {n d : Nat} (hd : 0 < d) (hn : n ≠ 0) (neg : Bool) :
    Nearest f (withNeg neg n) d (withSign f neg (roundRat f n d)) :=
  best_nearest hf hd hn neg (roundCut_best hf (cut_rat hd))

theorem roundInt_nearest {f : Fmt} (hf : FmtOk f) {n : Int} {d : Nat} (hd : 0 < d) (hn : n ≠ 0) : Nearest f n d (roundInt f n d) := by
  have h := roundRat_nearest hf hd (n := n.natAbs) (by omega) (decide (n < 0))
  rw [← withNeg_of] at h
  exact h

theorem roundRoot_nearest {f : Fmt} (hf : FmtOk f) (n : Nat) : NearestRoot f n (roundRoot f n) := by
  have h : Best f _ (infBits f) (roundRoot f n) := roundCut_best hf (cut_root n)
  generalize roundRoot f n = k at h
  have hk : k < 2 ^ (f.e + f.m) := Nat.lt_of_le_of_lt h.le (infBits_lt f)
  have e : k = withSign f false k := rfl
  refine ⟨by rw [e]; exact withSign_lt hk, ⟨(magSeq f k : Int), ?_, by omega, ?_⟩, by rw [e]; exact sign_withSign hk⟩
  · rw [e, candidate_withSign hf hk, if_pos h.le]; rfl
  intro b' v' hb' hv' h0 hne
  obtain ⟨neg', j, rfl, hj, rfl⟩ := candidate_inv hf hb' hv'
  have hv : withNeg neg' (magSeq f j) = (magSeq f j : Int) := by
    cases neg'
    · rfl
    · simp only [withNeg, if_true] at h0 ⊢; omega
  rw [hv] at hne ⊢
  rw [← Int.natCast_add, ← Int.natCast_mul]
  refine ⟨fun c => ?_, fun c => ?_, fun c => ?_⟩
  · have := h.above j (magSeq_lt_iff.mp (Int.ofNat_lt.mp c)) hj
    simp only [ne_eq, Nat.compare_eq_lt] at this
    omega
  · have := h.below j (magSeq_lt_iff.mp (Int.ofNat_lt.mp c))
    simp only [ne_eq, Nat.compare_eq_gt] at this
    omega
  · exact h.tie j (fun c => hne (by rw [c])) hj (by simp only [Nat.compare_eq_eq]; omega)

/-! ### The specification determines the result -/

theorem withSign_inj_sign {f : Fmt} {neg neg' : Bool} {k k' : Nat} (hk : k < 2 ^ (f.e + f.m)) (hk' : k' < 2 ^ (f.e + f.m))
    (h : f.sign (withSign f neg k) = f.sign (withSign f neg' k')) : neg = neg' := by
  rwa [sign_withSign hk, sign_withSign hk'] at h

theorem withNeg_lt_iff {neg : Bool} {a b : Nat} : withNeg neg a < withNeg neg b ↔ if neg then b < a else a < b := by
  cases neg <;> simp [withNeg] <;> omega

theorem nearest_no_lt {f : Fmt} (hf : FmtOk f) {n : Int} {d : Nat} (hd : 0 < d) {neg : Bool} {k k' : Nat} (hk : k ≤ infBits f)
    (hk' : k' ≤ infBits f) (h : Nearest f n d (withSign f neg k)) (h' : Nearest f n d (withSign f neg k')) (c : k < k') : False := by
  have lk : ∀ j, j ≤ infBits f → j < 2 ^ (f.e + f.m) := fun j hj => Nat.lt_of_le_of_lt hj (infBits_lt f)
  have cand : ∀ j, j ≤ infBits f → f.candidate (withSign f neg j) = some (withNeg neg (magSeq f j)) := fun j hj => by
    rw [candidate_withSign hf (lk j hj), if_pos hj]
  obtain ⟨v, hv, hb⟩ := h.nearest
  obtain ⟨v', hv', hb'⟩ := h'.nearest
  rw [cand k hk] at hv
  rw [cand k' hk'] at hv'
  cases hv; cases hv'
  have hne : withNeg neg (magSeq f k') ≠ withNeg neg (magSeq f k) := by
    intro e
    have := congrArg Int.natAbs e
    rw [natAbs_withNeg, natAbs_withNeg] at this
    have := magSeq_inj this
    omega
  obtain ⟨a1, a2⟩ := hb _ _ h'.range (cand k' hk')
  obtain ⟨b1, b2⟩ := hb' _ _ h.range (cand k hk)
  have e1 := a2 hne (by omega)
  have e2 := b2 (Ne.symm hne) (by omega)
  rw [withSign_parity hf] at e1 e2
  have m1 : k < k + 1 := by omega
  have m2 : k + 1 < k' := by omega
  obtain ⟨c1, _⟩ := hb _ _ (withSign_lt (lk (k + 1) (by omega))) (cand (k + 1) (by omega))
  have m3 := Nat.mul_lt_mul_of_pos_right (magSeq_mono (f := f) m1) hd
  have m4 := Nat.mul_lt_mul_of_pos_right (magSeq_mono (f := f) m2) hd
  revert a1 b1 c1
  cases neg
  · simp only [withNeg, Bool.false_eq_true, if_false, ← Int.natCast_mul]
    omega
  · simp only [withNeg, if_true, Int.neg_mul, ← Int.natCast_mul]
    omega

theorem nearest_unique {f : Fmt} (hf : FmtOk f) {n : Int} {d : Nat} (hd : 0 < d) {b b' : Nat} (h : Nearest f n d b)
    (h' : Nearest f n d b') : b = b' := by
  obtain ⟨v, hv, _⟩ := h.nearest
  obtain ⟨v', hv', _⟩ := h'.nearest
  obtain ⟨neg, k, rfl, hk, rfl⟩ := candidate_inv hf h.range hv
  obtain ⟨neg', k', rfl, hk', rfl⟩ := candidate_inv hf h'.range hv'
  have hn := withSign_inj_sign (Nat.lt_of_le_of_lt hk (infBits_lt f)) (Nat.lt_of_le_of_lt hk' (infBits_lt f)) (h.sign.trans h'.sign.symm)
  subst hn
  rcases Nat.lt_trichotomy k k' with c | c | c
  · exact (nearest_no_lt hf hd hk hk' h h' c).elim
  · rw [c]
  · exact (nearest_no_lt hf hd hk' hk h' h c).elim

theorem lt_root {f : Fmt} (hf : FmtOk f) {n : Nat} {k k' : Nat} (hk : k ≤ infBits f)
    (hk' : k' ≤ infBits f) (h : NearestRoot f n k) (h' : NearestRoot f n k') (c : k < k') : False := by
  have lk : ∀ j, j ≤ infBits f → j < 2 ^ (f.e + f.m) := fun j hj => Nat.lt_of_le_of_lt hj (infBits_lt f)
  have cand : ∀ j, j ≤ infBits f → f.candidate j = some (magSeq f j : Int) := fun j hj => by
    have := candidate_withSign hf (neg := false) (lk j hj)
    rw [if_pos hj] at this
    exact this
  have rng : ∀ j, j ≤ infBits f → j < 2 ^ f.width := fun j hj => withSign_lt (neg := false) (lk j hj)
  obtain ⟨v, hv, _, hb⟩ := h.nearest
  obtain ⟨v', hv', _, hb'⟩ := h'.nearest
  rw [cand k hk] at hv
  rw [cand k' hk'] at hv'
  cases hv; cases hv'
  have hlt := magSeq_mono (f := f) c
  obtain ⟨a1, _, a3⟩ := hb _ _ (rng k' hk') (cand k' hk') (by omega) (by omega)
  obtain ⟨_, b2, b3⟩ := hb' _ _ (rng k hk) (cand k hk) (by omega) (by omega)
  have a1 := a1 (by omega)
  have b2 := b2 (by omega)
  rw [Int.add_comm] at b2 b3
  have e1 := a3 (by omega)
  have e2 := b3 (by omega)
  have m1 : k < k + 1 := by omega
  have m2 : k + 1 < k' := by omega
  have m3 := magSeq_mono (f := f) m1
  have m4 := magSeq_mono (f := f) m2
  obtain ⟨c1, _, _⟩ := hb _ _ (rng (k + 1) (by omega)) (cand (k + 1) (by omega)) (by omega) (by omega)
  have c1 := c1 (by omega)
  simp only [← Int.natCast_add, ← Int.natCast_mul] at a1 b2 c1
  have := Nat.mul_lt_mul'' (show magSeq f k + magSeq f (k + 1) < magSeq f k + magSeq f k' by omega)
    (show magSeq f k + magSeq f (k + 1) < magSeq f k + magSeq f k' by omega)
  omega

theorem nearestRoot_unique {f : Fmt} (hf : FmtOk f) {n b b' : Nat} (h : NearestRoot f n b) (h' : NearestRoot f n b') : b = b' := by
  obtain ⟨v, hv, _⟩ := h.nearest
  obtain ⟨v', hv', _⟩ := h'.nearest
  obtain ⟨neg, k, rfl, hk, rfl⟩ := candidate_inv hf h.range hv
  obtain ⟨neg', k', rfl, hk', rfl⟩ := candidate_inv hf h'.range hv'
  have e1 := h.sign
  have e2 := h'.sign
  rw [sign_withSign (Nat.lt_of_le_of_lt hk (infBits_lt f))] at e1
  rw [sign_withSign (Nat.lt_of_le_of_lt hk' (infBits_lt f))] at e2
  subst e1 e2
  rcases Nat.lt_trichotomy k k' with c | c | c
  · exact (lt_root hf hk hk' h h' c).elim
  · rw [c]
  · exact (lt_root hf hk' hk h' h c).elim

theorem fin_unique {f : Fmt} {r r' : Nat} {x : Int} (h : r < 2 ^ f.width) (h' : r' < 2 ^ f.width) (hv : f.val r = .fin x)
    (hv' : f.val r' = .fin x) (hs : f.sign r = f.sign r') : r = r' := by
  obtain ⟨neg, k, rfl, hk⟩ := split_sign h
  obtain ⟨neg', k', rfl, hk'⟩ := split_sign h'
  have := withSign_inj_sign hk hk' hs
  subst this
  have key : ∀ k, k < 2 ^ (f.e + f.m) → f.val (withSign f neg k) = .fin x → magSeq f k = x.natAbs := by
    intro k hk hv
    rw [val_withSign hk] at hv
    split at hv
    · cases hv; rw [natAbs_withNeg]
    · split at hv <;> cases hv
  rw [magSeq_inj ((key k hk hv).trans (key k' hk' hv').symm)]

theorem inf_unique {f : Fmt} {r r' : Nat} {s : Bool} (h : f.IsInf s r) (h' : f.IsInf s r') : r = r' := by
  obtain ⟨h, hv⟩ := h
  obtain ⟨h', hv'⟩ := h'
  obtain ⟨neg, k, rfl, hk⟩ := split_sign h
  obtain ⟨neg', k', rfl, hk'⟩ := split_sign h'
  have key : ∀ neg k, k < 2 ^ (f.e + f.m) → f.val (withSign f neg k) = .inf s → k = infBits f ∧ neg = s := by
    intro neg k hk hv
    rw [val_withSign hk] at hv
    split at hv
    · cases hv
    · split at hv
      · rename_i h1; cases hv; exact ⟨h1, rfl⟩
      · cases hv
  obtain ⟨rfl, rfl⟩ := key _ _ hk hv
  obtain ⟨rfl, rfl⟩ := key _ _ hk' hv'
  rfl

theorem zero_unique {f : Fmt} {r r' : Nat} {s : Bool} (h : f.IsZero s r) (h' : f.IsZero s r') : r = r' :=
  fin_unique h.1 h'.1 h.2.1 h'.2.1 (h.2.2.trans h'.2.2.symm)

/-! ### Facts about the parts of a pattern -/

theorem fNeg_eq_sign {f : Fmt} {a : Nat} (h : a < 2 ^ f.width) : fNeg? f a = f.sign a := by
  obtain ⟨neg, k, rfl, hk⟩ := split_sign h
  rw [fNeg_withSign hk, sign_withSign hk]

theorem val_fin_inv {f : Fmt} {a : Nat} {x : Int} (h : a < 2 ^ f.width) (hv : f.val a = .fin x) :
    ∃ k, a = withSign f (f.sign a) k ∧ k < infBits f ∧ x = withNeg (f.sign a) (magSeq f k) := by
  obtain ⟨neg, k, rfl, hk⟩ := split_sign h
  rw [val_withSign hk] at hv
  rw [sign_withSign hk]
  split at hv
  · cases hv; exact ⟨k, rfl, by assumption, rfl⟩
  · split at hv <;> cases hv

theorem sign_of_val {f : Fmt} {a : Nat} {x : Int} (h : a < 2 ^ f.width) (hv : f.val a = .fin x) (hx : x ≠ 0) :
    f.sign a = decide (x < 0) := by
  obtain ⟨k, _, _, e⟩ := val_fin_inv h hv
  rw [e, sign_withNeg]
  intro h0
  rw [h0] at e
  exact hx (by rw [e]; cases f.sign a <;> rfl)

theorem isZero_withSign {f : Fmt} (hf : FmtOk f) (neg : Bool) : f.IsZero neg (withSign f neg 0) := by
  have h0 : 0 < 2 ^ (f.e + f.m) := Nat.two_pow_pos _
  refine ⟨withSign_lt h0, ?_, sign_withSign h0⟩
  rw [val_withSign h0, if_pos]
  · rw [magSeq_zero]; cases neg <;> rfl
  · unfold infBits
    refine Nat.mul_pos ?_ (Nat.two_pow_pos _)
    have : 2 ^ 2 ≤ 2 ^ f.e := Nat.pow_le_pow_right (by omega) hf.e
    omega

theorem isInf_withSign {f : Fmt} (neg : Bool) : f.IsInf neg (withSign f neg (infBits f)) := by
  refine ⟨withSign_lt (infBits_lt f), ?_⟩
  rw [val_withSign (infBits_lt f), if_neg (Nat.lt_irrefl _), if_pos rfl]

theorem pow_cast (n : Nat) : (2 ^ n : Int) = ((2 ^ n : Nat) : Int) := by simp

theorem mul_withNeg (x : Int) (u : Nat) : x * u = withNeg (decide (x < 0)) (x.natAbs * u) := by
  by_cases c : x < 0
  · have e : x = -(x.natAbs : Int) := by omega
    simp only [withNeg, c, decide_true, if_true, Int.natCast_mul]
    rw [← Int.neg_mul, ← e]
  · have e : x = (x.natAbs : Int) := by omega
    simp only [withNeg, c, decide_false, Bool.false_eq_true, if_false, Int.natCast_mul]
    rw [← e]

/-! ### The operations -/

theorem arith_correct {f : Fmt} (hf : FmtOk f) {nan : Nat} (hn : f.IsNaN nan) (op : FArith) {a b : Nat} (ha : a < 2 ^ f.width)
    (hb : b < 2 ^ f.width) : Arith f op a b (fArith f nan op a b) := by
  unfold Arith fArith
  rw [fNeg_eq_sign ha, fNeg_eq_sign hb]
  have hF : 0 < 2 ^ f.fracBits := Nat.two_pow_pos _
  cases va : f.val a with
  | nan => cases op <;> exact hn
  | inf s =>
    cases vb : f.val b with
    | nan => cases op <;> exact hn
    | inf t =>
      cases op <;> simp only
      · split
        · exact ⟨ha, va⟩
        · exact hn
      · split
        · exact hn
        · exact ⟨ha, va⟩
      · exact isInf_withSign _
      · exact hn
    | fin y =>
      cases op <;> simp only
      · exact ⟨ha, va⟩
      · exact ⟨ha, va⟩
      · split
        · exact hn
        · exact isInf_withSign _
      · exact isInf_withSign _
  | fin x =>
    cases vb : f.val b with
    | nan => cases op <;> exact hn
    | inf t =>
      cases op <;> simp only
      · exact ⟨hb, vb⟩
      · exact isInf_withSign _
      · split
        · exact hn
        · exact isInf_withSign _
      · exact isZero_withSign hf _
    | fin y =>
      cases op <;> simp only
      · split
        · exact isZero_withSign hf _
        · exact roundInt_nearest hf (by omega) (by assumption)
      · split
        · exact isZero_withSign hf _
        · exact roundInt_nearest hf (by omega) (by assumption)
      · split
        · exact isZero_withSign hf _
        · exact roundInt_nearest hf hF (by assumption)
      · by_cases hy : y = 0
        · rw [if_pos hy, if_pos hy]
          split
          · exact hn
          · exact isInf_withSign _
        · rw [if_neg hy, if_neg hy]
          by_cases hx : x = 0
          · rw [if_pos hx, if_pos hx]; exact isZero_withSign hf _
          · rw [if_neg hx, if_neg hx, sign_of_val ha va hx, sign_of_val hb vb hy]
            have h := roundRat_nearest hf (n := x.natAbs * 2 ^ f.fracBits) (d := y.natAbs) (by omega)
              (Nat.mul_ne_zero (by omega) (by omega)) (decide (x < 0) ^^ decide (y < 0))
            have e : withNeg (decide (x < 0) ^^ decide (y < 0)) (x.natAbs * 2 ^ f.fracBits) =
                if y < 0 then -(x * 2 ^ f.fracBits) else x * 2 ^ f.fracBits := by
              rw [pow_cast, mul_withNeg x (2 ^ f.fracBits)]
              by_cases cx : x < 0 <;> by_cases cy : y < 0 <;> simp [withNeg, cx, cy]
            rw [e] at h
            exact h

theorem arith_unique {f : Fmt} (hf : FmtOk f) {op : FArith} {a b r r' : Nat} (h : Arith f op a b r) (h' : Arith f op a b r') :
    r = r' ∨ (f.IsNaN r ∧ f.IsNaN r') := by
  have hF : 0 < 2 ^ f.fracBits := Nat.two_pow_pos _
  unfold Arith at h h'
  cases va : f.val a with
  | nan => rw [va] at h h'; cases op <;> exact .inr ⟨h, h'⟩
  | inf s =>
    cases vb : f.val b with
    | nan => rw [va, vb] at h h'; cases op <;> exact .inr ⟨h, h'⟩
    | inf t =>
      rw [va, vb] at h h'
      cases op <;> simp only at h h' <;> (repeat' split at h) <;> (try simp_all) <;>
        first | exact .inl (inf_unique h h') | exact .inr ⟨h, h'⟩ | exact .inr trivial
    | fin y =>
      rw [va, vb] at h h'
      cases op <;> simp only at h h' <;> (repeat' split at h) <;> (try simp_all) <;>
        first | exact .inl (inf_unique h h') | exact .inr ⟨h, h'⟩ | exact .inr trivial
  | fin x =>
    cases vb : f.val b with
    | nan => rw [va, vb] at h h'; cases op <;> exact .inr ⟨h, h'⟩
    | inf t =>
      rw [va, vb] at h h'
      cases op <;> simp only at h h' <;> (repeat' split at h) <;> (try simp_all) <;>
        first | exact .inl (inf_unique h h') | exact .inl (zero_unique h h') | exact .inr ⟨h, h'⟩ | exact .inr trivial
    | fin y =>
      rw [va, vb] at h h'
      cases op <;> simp only at h h' <;> (repeat' split at h) <;> (try simp_all) <;>
        first
          | exact .inl (inf_unique h h') | exact .inl (zero_unique h h') | exact .inl (nearest_unique hf (by omega) h h') | exact .inr ⟨h, h'⟩ | exact .inr trivial

/-! ### Rounding to an integer -/

/-- every number of at most `m + 1` bits, scaled, is a value -/
theorem exists_magSeq (f : Fmt) {w : Nat} (t : Nat) (hw : w < 2 * 2 ^ f.m) : ∃ j, magSeq f j = w * 2 ^ t := by
  have hsig := sig_of_floor f (w * 2 ^ t)
  have hdvd : 2 ^ ((w * 2 ^ t).log2 - f.m) ∣ w * 2 ^ t := by
    refine Nat.dvd_trans (Nat.pow_dvd_pow 2 ?_) (Nat.dvd_mul_left _ _)
    by_cases h0 : w * 2 ^ t = 0
    · rw [h0]
      have : Nat.log2 0 = 0 := by decide
      omega
    · have hlt : w * 2 ^ t < 2 ^ (f.m + 1 + t) := by
        rw [Nat.pow_add, Nat.pow_succ]
        exact Nat.mul_lt_mul_of_pos_right (by omega) (Nat.two_pow_pos _)
      have := (Nat.log2_lt h0).mpr hlt
      omega
  refine ⟨_, (magSeq_sig hsig).trans ?_⟩
  exact Nat.div_mul_cancel hdvd

/-- a value is rounded to itself -/
theorem best_exact {f : Fmt} {d j k : Nat} (hd : 0 < d) (hj : j ≤ infBits f)
    (h : Best f (fun t => compare (t * d) (2 * (magSeq f j * d))) (infBits f) k) : k = j := by
  rcases Nat.lt_trichotomy k j with c | c | c
  · have h1 := h.above j c hj
    have h2 := Nat.mul_lt_mul_of_pos_right (magSeq_mono (f := f) c) hd
    simp only [ne_eq, Nat.compare_eq_lt, Nat.add_mul] at h1
    omega
  · exact c
  · have h1 := h.below j c
    have h2 := Nat.mul_lt_mul_of_pos_right (magSeq_mono (f := f) c) hd
    simp only [ne_eq, Nat.compare_eq_gt, Nat.add_mul] at h1
    omega

theorem roundRat_exact {f : Fmt} (hf : FmtOk f) {d j : Nat} (hd : 0 < d) (hj : j ≤ infBits f) : roundRat f (magSeq f j * d) d = j :=
  best_exact hd hj (roundCut_best hf (cut_rat hd))

theorem floor_spec (x : Int) {u : Int} (hu : 0 < u) : x / u * u ≤ x ∧ x < (x / u + 1) * u :=
  ⟨Int.ediv_mul_le x (by omega), Int.lt_ediv_add_one_mul_self x hu⟩

theorem ceil_spec (x : Int) {u : Int} (hu : 0 < u) : (-(-x / u) - 1) * u < x ∧ x ≤ -(-x / u) * u := by
  obtain ⟨h1, h2⟩ := floor_spec (-x) hu
  generalize -x / u = i at *
  have e1 : (-i - 1) * u = -((i + 1) * u) := by rw [← Int.neg_mul]; congr 1; omega
  have e2 : -i * u = -(i * u) := Int.neg_mul _ _
  omega

theorem integral_correct (f : Fmt) {op : FRound} (h : op ≠ .sqrt) (x : Int) : Integral f op x (integral op x (2 ^ f.fracBits)) := by
  have hu : (0 : Int) < 2 ^ f.fracBits := by rw [pow_cast]; have := Nat.two_pow_pos f.fracBits; omega
  unfold Integral integral
  simp only
  generalize (2 ^ f.fracBits : Int) = u at *
  cases op with
  | floor => exact floor_spec x hu
  | ceil => exact ceil_spec x hu
  | trunc =>
    by_cases c : 0 ≤ x
    · simp only [c, if_true]; exact floor_spec x hu
    · simp only [c, if_false]; exact ceil_spec x hu
  | sqrt => exact (h rfl).elim
  | nearest =>
    obtain ⟨h1, h2⟩ := floor_spec x hu
    simp only
    generalize x / u = i at *
    have e : (i + 1) * u = i * u + u := by rw [Int.add_mul, Int.one_mul]
    rw [e] at h2
    by_cases c1 : 2 * (x - i * u) < u
    · rw [if_pos c1]; omega
    rw [if_neg c1]
    by_cases c2 : u < 2 * (x - i * u)
    · rw [if_pos c2, e]; omega
    rw [if_neg c2]
    by_cases c3 : i % 2 = 0
    · rw [if_pos c3]; omega
    · rw [if_neg c3, e]; omega

theorem integral_unique {f : Fmt} {op : FRound} {x i j : Int} (hi : Integral f op x i) (hj : Integral f op x j) : i = j := by
  have hu : (0 : Int) < 2 ^ f.fracBits := by rw [pow_cast]; have := Nat.two_pow_pos f.fracBits; omega
  unfold Integral at hi hj
  simp only at hi hj
  generalize (2 ^ f.fracBits : Int) = u at *
  have key : ∀ a b : Int, a < b → a * u + u ≤ b * u := by
    intro a b h
    have : (a + 1) * u ≤ b * u := Int.mul_le_mul_of_nonneg_right (by omega) (by omega)
    rw [Int.add_mul, Int.one_mul] at this
    exact this
  have e1 : ∀ a : Int, (a + 1) * u = a * u + u := fun a => by rw [Int.add_mul, Int.one_mul]
  have e2 : ∀ a : Int, (a - 1) * u = a * u - u := fun a => by rw [Int.sub_mul, Int.one_mul]
  simp only [e1, e2] at hi hj
  rcases Int.lt_trichotomy i j with c | c | c
  · exfalso
    have k1 := key i j c
    cases op with
    | floor => simp only at hi hj; omega
    | ceil => simp only at hi hj; omega
    | trunc => by_cases c0 : 0 ≤ x <;> simp only [c0, if_true, if_false] at hi hj <;> omega
    | sqrt => exact hi
    | nearest =>
      simp only at hi hj
      have k2 : ¬ i + 1 < j := by
        intro c'
        have := key (i + 1) j c'
        rw [e1] at this
        omega
      omega
  · exact c
  · exfalso
    have k1 := key j i c
    cases op with
    | floor => simp only at hi hj; omega
    | ceil => simp only at hi hj; omega
    | trunc => by_cases c0 : 0 ≤ x <;> simp only [c0, if_true, if_false] at hi hj <;> omega
    | sqrt => exact hi
    | nearest =>
      simp only at hi hj
      have k2 : ¬ j + 1 < i := by
        intro c'
        have := key (j + 1) i c'
        rw [e1] at this
        omega
      omega

/-- rounding keeps integers, signs, and bounds that are integers -/
theorem integral_bounds {f : Fmt} {op : FRound} {x i : Int} (h : Integral f op x i) :
    (∀ j, x = j * 2 ^ f.fracBits → i = j) ∧ (∀ c, x ≤ c * 2 ^ f.fracBits → i ≤ c) ∧ (∀ c, c * 2 ^ f.fracBits ≤ x → c ≤ i) := by
  have hu : (0 : Int) < 2 ^ f.fracBits := by rw [pow_cast]; have := Nat.two_pow_pos f.fracBits; omega
  have lower : ∀ c, x ≤ c * 2 ^ f.fracBits → i ≤ c := by
    intro c hc
    unfold Integral at h
    simp only at h
    generalize (2 ^ f.fracBits : Int) = u at *
    refine Int.not_lt.mp fun hlt => ?_
    have k : (c + 1) * u ≤ i * u := Int.mul_le_mul_of_nonneg_right (by omega) (by omega)
    have e1 : ∀ a : Int, (a + 1) * u = a * u + u := fun a => by rw [Int.add_mul, Int.one_mul]
    have e2 : ∀ a : Int, (a - 1) * u = a * u - u := fun a => by rw [Int.sub_mul, Int.one_mul]
    rw [e1] at k
    simp only [e1, e2] at h
    cases op with
    | floor => simp only at h; omega
    | ceil => simp only at h; omega
    | trunc => simp only at h; split at h <;> omega
    | sqrt => exact h
    | nearest => simp only at h; omega
  have upper : ∀ c, c * 2 ^ f.fracBits ≤ x → c ≤ i := by
    intro c hc
    unfold Integral at h
    simp only at h
    generalize (2 ^ f.fracBits : Int) = u at *
    refine Int.not_lt.mp fun hlt => ?_
    have k : (i + 1) * u ≤ c * u := Int.mul_le_mul_of_nonneg_right (by omega) (by omega)
    have e1 : ∀ a : Int, (a + 1) * u = a * u + u := fun a => by rw [Int.add_mul, Int.one_mul]
    have e2 : ∀ a : Int, (a - 1) * u = a * u - u := fun a => by rw [Int.sub_mul, Int.one_mul]
    rw [e1] at k
    simp only [e1, e2] at h
    cases op with
    | floor => simp only at h; omega
    | ceil => simp only at h; omega
    | trunc => simp only at h; split at h <;> omega
    | sqrt => exact h
    | nearest => simp only at h; omega
  exact ⟨fun j hj => Int.le_antisymm (lower j (by omega)) (upper j (by omega)), lower, upper⟩

/-- the rounded number is a value of the format -/
theorem integral_representable {f : Fmt} (hf : FmtOk f) {op : FRound} {x i : Int} (h : Integral f op x i) {k : Nat} (hk : k < infBits f)
    (hx : x.natAbs = magSeq f k) : ∃ j, j < infBits f ∧ magSeq f j = i.natAbs * 2 ^ f.fracBits := by
  obtain ⟨h1, h2, h3⟩ := integral_bounds h
  obtain ⟨s, w, hw, rfl⟩ := exists_sig f k
  have hm := magSeq_sig hw
  by_cases hs : f.fracBits ≤ s
  · -- already an integer
    have e : x = withNeg (decide (x < 0)) (w * 2 ^ (s - f.fracBits)) * 2 ^ f.fracBits := by
      have e' : w * 2 ^ s = w * 2 ^ (s - f.fracBits) * 2 ^ f.fracBits := by
        rw [Nat.mul_assoc, ← Nat.pow_add]; congr 2; omega
      rw [hm, e'] at hx
      rw [pow_cast]
      generalize w * 2 ^ (s - f.fracBits) = c at *
      generalize 2 ^ f.fracBits = u at *
      by_cases c0 : x < 0
      · simp only [withNeg, c0, decide_true, if_true, Int.neg_mul, ← Int.natCast_mul]; omega
      · simp only [withNeg, c0, decide_false, Bool.false_eq_true, if_false, ← Int.natCast_mul]; omega
    have := h1 _ e
    refine ⟨_, hk, ?_⟩
    rw [hm, this, natAbs_withNeg, Nat.mul_assoc, ← Nat.pow_add]
    congr 2; omega
  · -- small: at most 2^m in absolute value
    have hb : x.natAbs ≤ 2 ^ f.m * 2 ^ f.fracBits := by
      rw [hx, hm]
      have a1 : w * 2 ^ s ≤ 2 * 2 ^ f.m * 2 ^ s := Nat.mul_le_mul_right _ (by have := hw.1; omega)
      have a2 : 2 * 2 ^ f.m * 2 ^ s = 2 ^ f.m * 2 ^ (s + 1) := by rw [Nat.pow_succ]; ac_rfl
      have a3 : 2 ^ f.m * 2 ^ (s + 1) ≤ 2 ^ f.m * 2 ^ f.fracBits :=
        Nat.mul_le_mul_left _ (Nat.pow_le_pow_right (by omega) (by omega))
      omega
    have hi : i.natAbs ≤ 2 ^ f.m := by
      have b1 := h2 (2 ^ f.m) (by rw [pow_cast, pow_cast, ← Int.natCast_mul]; omega)
      have b2 := h3 (-(2 ^ f.m)) (by rw [pow_cast, pow_cast, Int.neg_mul, ← Int.natCast_mul]; omega)
      rw [pow_cast] at b1 b2
      omega
    obtain ⟨j, hj⟩ := exists_magSeq f (w := i.natAbs) f.fracBits (by have := Nat.two_pow_pos f.m; omega)
    refine ⟨j, ?_, hj⟩
    rw [← magSeq_lt_iff (f := f), hj, limit_eq hf, Fmt.limit]
    refine Nat.mul_lt_mul_of_pos_right (Nat.lt_of_le_of_lt hi ?_) (Nat.two_pow_pos _)
    exact Nat.pow_lt_pow_right (by omega) hf.me

theorem rounded_correct {f : Fmt} (hf : FmtOk f) {nan : Nat} (hn : f.IsNaN nan) (op : FRound) {a : Nat} (ha : a < 2 ^ f.width) :
    Rounded f op a (fRounded f nan op a) := by
  unfold Rounded fRounded
  rw [fNeg_eq_sign ha]
  cases va : f.val a with
  | nan => cases op <;> exact hn
  | inf s =>
    cases op <;> simp only
    case sqrt =>
      cases s
      · exact ⟨ha, va⟩
      · exact hn
    all_goals exact ⟨ha, va⟩
  | fin x =>
    have key : ∀ op, op ≠ .sqrt → ∃ i, Integral f op x i ∧
        withSign f (f.sign a) (roundRat f ((integral op x (2 ^ f.fracBits)).natAbs * 2 ^ f.fracBits) 1) < 2 ^ f.width ∧
        f.val (withSign f (f.sign a) (roundRat f ((integral op x (2 ^ f.fracBits)).natAbs * 2 ^ f.fracBits) 1)) = .fin (i * 2 ^ f.fracBits) ∧
        f.sign (withSign f (f.sign a) (roundRat f ((integral op x (2 ^ f.fracBits)).natAbs * 2 ^ f.fracBits) 1)) = f.sign a := by
      intro op hop
      have hi := integral_correct f hop x
      obtain ⟨k, _, hk, hx⟩ := val_fin_inv ha va
      obtain ⟨_, b2, b3⟩ := integral_bounds hi
      obtain ⟨j, hj, he⟩ := integral_representable hf hi hk (by rw [hx, natAbs_withNeg])
      refine ⟨_, hi, ?_⟩
      generalize integral op x (2 ^ f.fracBits) = i at *
      have er : roundRat f (i.natAbs * 2 ^ f.fracBits) 1 = j := by
        have := roundRat_exact hf (d := 1) (by omega) (Nat.le_of_lt hj)
        rw [Nat.mul_one, he] at this
        exact this
      have hj' : j < 2 ^ (f.e + f.m) := Nat.lt_trans hj (infBits_lt f)
      rw [er]
      refine ⟨withSign_lt hj', ?_, sign_withSign hj'⟩
      rw [val_withSign hj', if_pos hj, he]
      have hs : i = withNeg (f.sign a) i.natAbs := by
        cases hs : f.sign a
        · rw [hs] at hx
          have := b3 0 (by rw [Int.zero_mul, hx]; simp [withNeg])
          simp [withNeg]; omega
        · rw [hs] at hx
          have := b2 0 (by rw [Int.zero_mul, hx]; simp [withNeg])
          simp [withNeg]; omega
      have e2 : withNeg (f.sign a) (i.natAbs * 2 ^ f.fracBits) = withNeg (f.sign a) i.natAbs * 2 ^ f.fracBits := by
        rw [pow_cast]
        generalize 2 ^ f.fracBits = u
        cases f.sign a <;> simp [withNeg, Int.natCast_mul, Int.neg_mul]
      rw [e2, ← hs]
    cases op with
    | sqrt =>
      simp only
      split
      · rfl
      · split
        · exact hn
        · exact roundRoot_nearest hf _
    | ceil => exact key .ceil (by simp)
    | floor => exact key .floor (by simp)
    | trunc => exact key .trunc (by simp)
    | nearest => exact key .nearest (by simp)

theorem rounded_unique {f : Fmt} (hf : FmtOk f) {op : FRound} {a r r' : Nat} (h : Rounded f op a r) (h' : Rounded f op a r') :
    r = r' ∨ (f.IsNaN r ∧ f.IsNaN r') := by
  unfold Rounded at h h'
  cases va : f.val a with
  | nan => rw [va] at h h'; cases op <;> exact .inr ⟨h, h'⟩
  | inf s =>
    rw [va] at h h'
    cases op <;> simp only at h h'
    case sqrt =>
      cases s
      · exact .inl (inf_unique h h')
      · exact .inr ⟨h, h'⟩
    all_goals exact .inl (inf_unique h h')
  | fin x =>
    rw [va] at h h'
    cases op <;> simp only at h h'
    case sqrt =>
      by_cases c : x = 0
      · rw [if_pos c] at h h'; exact .inl (h.trans h'.symm)
      rw [if_neg c] at h h'
      by_cases c : x < 0
      · rw [if_pos c] at h h'; exact .inr ⟨h, h'⟩
      rw [if_neg c] at h h'
      exact .inl (nearestRoot_unique hf h h')
    all_goals
      obtain ⟨i, a1, a2, a3, a4⟩ := h
      obtain ⟨j, b1, b2, b3, b4⟩ := h'
      cases integral_unique a1 b1
      exact .inl (fin_unique a2 b2 a3 b3 (a4.trans b4.symm))

/-! ### Conversions -/

theorem fromInt_correct {f : Fmt} (hf : FmtOk f) (n : Int) : FromInt f n (fFromInt f n) := by
  unfold FromInt fFromInt
  split
  · exact isZero_withSign hf false
  · refine roundInt_nearest hf (by omega) (Int.mul_ne_zero (by assumption) ?_)
    rw [pow_cast]; have := Nat.two_pow_pos f.fracBits; omega

theorem fromInt_unique {f : Fmt} (hf : FmtOk f) {n : Int} {r r' : Nat} (h : FromInt f n r) (h' : FromInt f n r') : r = r' := by
  unfold FromInt at h h'
  by_cases c : n = 0
  · rw [if_pos c] at h h'; exact zero_unique h h'
  · rw [if_neg c] at h h'; exact nearest_unique hf (by omega) h h'

theorem fromFloat_correct {f g : Fmt} (hg : FmtOk g) {nan : Nat} (hn : g.IsNaN nan) {a : Nat} (ha : a < 2 ^ f.width) :
    FromFloat f g a (fFromFloat f g nan a) := by
  unfold FromFloat fFromFloat
  rw [fNeg_eq_sign ha]
  cases va : f.val a with
  | nan => exact hn
  | inf s => exact isInf_withSign s
  | fin x =>
    simp only
    by_cases hx : x = 0
    · rw [if_pos hx, if_pos hx]; exact isZero_withSign hg _
    · rw [if_neg hx, if_neg hx, sign_of_val ha va hx]
      have h := roundRat_nearest hg (n := x.natAbs * 2 ^ g.fracBits) (d := 2 ^ f.fracBits) (Nat.two_pow_pos _)
        (Nat.mul_ne_zero (by omega) (by have := Nat.two_pow_pos g.fracBits; omega)) (decide (x < 0))
      rw [← mul_withNeg, ← pow_cast] at h
      exact h

theorem fromFloat_unique {f g : Fmt} (hg : FmtOk g) {a r r' : Nat} (h : FromFloat f g a r) (h' : FromFloat f g a r') :
    r = r' ∨ (g.IsNaN r ∧ g.IsNaN r') := by
  unfold FromFloat at h h'
  cases va : f.val a with
  | nan => rw [va] at h h'; exact .inr ⟨h, h'⟩
  | inf s => rw [va] at h h'; exact .inl (inf_unique h h')
  | fin x =>
    rw [va] at h h'
    simp only at h h'
    by_cases hx : x = 0
    · rw [if_pos hx] at h h'; exact .inl (zero_unique h h')
    · rw [if_neg hx] at h h'; exact .inl (nearest_unique hg (Nat.two_pow_pos _) h h')

/-! ### A result that is a NaN is the one given -/

theorem nearest_not_nan {f : Fmt} {n : Int} {d b : Nat} (h : Nearest f n d b) : f.val b ≠ .nan := by
  obtain ⟨v, hv, _⟩ := h.nearest
  intro e
  rw [Fmt.candidate, e] at hv
  cases hv

theorem nearestRoot_not_nan {f : Fmt} {n b : Nat} (h : NearestRoot f n b) : f.val b ≠ .nan := by
  obtain ⟨v, hv, _⟩ := h.nearest
  intro e
  rw [Fmt.candidate, e] at hv
  cases hv

theorem isInf_not_nan {f : Fmt} {s : Bool} {b : Nat} (h : f.IsInf s b) : f.val b ≠ .nan := by rw [h.2]; simp
theorem isZero_not_nan {f : Fmt} {s : Bool} {b : Nat} (h : f.IsZero s b) : f.val b ≠ .nan := by rw [h.2.1]; simp

theorem round_not_nan {f : Fmt} (hf : FmtOk f) {n d : Nat} (hd : 0 < d) (neg : Bool) : f.val (withSign f neg (roundRat f n d)) ≠ .nan := by
  have h : Best f _ (infBits f) (roundRat f n d) := roundCut_best hf (cut_rat hd)
  have hk := Nat.lt_of_le_of_lt h.le (infBits_lt f)
  rw [val_withSign hk]
  split
  · simp
  · rw [if_pos (by have := h.le; omega)]; simp

theorem arith_nan_choice {f : Fmt} (hf : FmtOk f) {nan : Nat} {op : FArith} {a b : Nat}
    (h : f.val (fArith f nan op a b) = .nan) : fArith f nan op a b = nan := by
  have hF : 0 < 2 ^ f.fracBits := Nat.two_pow_pos _
  have hi : ∀ s, f.val (withSign f s (infBits f)) ≠ .nan := fun s => isInf_not_nan (isInf_withSign s)
  have hz : ∀ s, f.val (withSign f s 0) ≠ .nan := fun s => isZero_not_nan (isZero_withSign hf s)
  have hr : ∀ n d, 0 < d → f.val (roundInt f n d) ≠ .nan := fun n d hd => round_not_nan hf hd _
  have hq : ∀ n d s, 0 < d → f.val (withSign f s (roundRat f n d)) ≠ .nan := fun n d s hd => round_not_nan hf hd _
  revert h
  generalize hg : fArith f nan op a b = r
  revert hg
  unfold fArith
  cases va : f.val a with
  | nan => cases op <;> exact fun hg _ => hg.symm
  | inf s =>
    cases vb : f.val b with
    | nan => cases op <;> exact fun hg _ => hg.symm
    | inf t =>
      cases op <;> simp only <;> (repeat' split) <;>
        first | exact fun hg _ => hg.symm | exact fun hg h => by subst hg; exact (hi _ h).elim | exact fun hg h => by subst hg; exact absurd (va.symm.trans h) (by simp)
    | fin y =>
      cases op <;> simp only <;> (repeat' split) <;>
        first | exact fun hg _ => hg.symm | exact fun hg h => by subst hg; exact (hi _ h).elim | exact fun hg h => by subst hg; exact absurd (va.symm.trans h) (by simp)
  | fin x =>
    cases vb : f.val b with
    | nan => cases op <;> exact fun hg _ => hg.symm
    | inf t =>
      cases op <;> simp only <;> (repeat' split) <;>
        first | exact fun hg _ => hg.symm | exact fun hg h => by subst hg; exact (hi _ h).elim | exact fun hg h => by subst hg; exact (hz _ h).elim |
          exact fun hg h => by subst hg; exact absurd (vb.symm.trans h) (by simp)
    | fin y =>
      cases op <;> simp only <;> (repeat' split) <;>
        first | exact fun hg _ => hg.symm | exact fun hg h => by subst hg; exact (hi _ h).elim | exact fun hg h => by subst hg; exact (hz _ h).elim |
          exact fun hg h => by subst hg; exact (hr _ _ (by omega) h).elim | exact fun hg h => by subst hg; exact (hq _ _ _ (by omega) h).elim

theorem rounded_nan_choice {f : Fmt} (hf : FmtOk f) {nan : Nat} {op : FRound} {a : Nat}
    (h : f.val (fRounded f nan op a) = .nan) : fRounded f nan op a = nan := by
  have hq : ∀ n s, f.val (withSign f s (roundRat f n 1)) ≠ .nan := fun n s => round_not_nan hf (by omega) _
  revert h
  generalize hg : fRounded f nan op a = r
  revert hg
  unfold fRounded
  cases va : f.val a with
  | nan => cases op <;> exact fun hg _ => hg.symm
  | inf s =>
    cases op <;> simp only <;> (repeat' split) <;> first | exact fun hg _ => hg.symm | exact fun hg h => by subst hg; exact absurd (va.symm.trans h) (by simp)
  | fin x =>
    cases op <;> simp only <;> (repeat' split) <;>
      first | exact fun hg _ => hg.symm | exact fun hg h => by subst hg; exact (hq _ _ h).elim | exact fun hg h => by subst hg; exact absurd (va.symm.trans h) (by simp) |
        exact fun hg h => by subst hg; exact (nearestRoot_not_nan (roundRoot_nearest hf _) h).elim

theorem fromFloat_nan_choice {f g : Fmt} (hg : FmtOk g) {nan : Nat} {a : Nat}
    (h : g.val (fFromFloat f g nan a) = .nan) : fFromFloat f g nan a = nan := by
  revert h
  unfold fFromFloat
  cases va : f.val a with
  | nan => exact fun _ => rfl
  | inf s => exact fun h => (isInf_not_nan (isInf_withSign s) h).elim
  | fin x =>
    simp only
    split
    · exact fun h => (isZero_not_nan (isZero_withSign hg _) h).elim
    · exact fun h => (round_not_nan hg (Nat.two_pow_pos _) _ h).elim

/-! ### Results fit -/

theorem isNaN_lt {f : Fmt} {r : Nat} (h : f.IsNaN r) : r < 2 ^ f.width := h.1

theorem arith_lt {f : Fmt} {op : FArith} {a b r : Nat} (h : Arith f op a b r) : r < 2 ^ f.width := by
  unfold Arith at h
  cases va : f.val a <;> cases vb : f.val b <;> rw [va, vb] at h <;> cases op <;> simp only at h <;> (repeat' split at h) <;>
    first | exact h.1 | exact Nearest.range h

theorem rounded_lt {f : Fmt} {op : FRound} {a r : Nat} (ha : a < 2 ^ f.width) (h : Rounded f op a r) : r < 2 ^ f.width := by
  unfold Rounded at h
  cases va : f.val a <;> rw [va] at h <;> cases op <;> simp only at h <;> (repeat' split at h) <;>
    first | exact h.1 | exact NearestRoot.range h | (rw [h]; exact ha) | (obtain ⟨i, _, h, _⟩ := h; exact h)

theorem fromInt_lt {f : Fmt} {n : Int} {r : Nat} (h : FromInt f n r) : r < 2 ^ f.width := by
  unfold FromInt at h
  split at h
  · exact h.1
  · exact h.range

theorem fromFloat_lt {f g : Fmt} {a r : Nat} (h : FromFloat f g a r) : r < 2 ^ g.width := by
  unfold FromFloat at h
  cases va : f.val a <;> rw [va] at h <;> simp only at h
  · exact h.1
  · exact h.1
  · split at h
    · exact h.1
    · exact h.range

/-! ### Exact conversions -/

theorem withNeg_mul (neg : Bool) (a b : Nat) : withNeg neg (a * b) = withNeg neg a * (b : Int) := by
  cases neg <;> simp [withNeg, Int.natCast_mul, Int.neg_mul]

theorem promote_exact {nan a : Nat} (ha : a < 2 ^ 32) (hn : f64.val nan = .nan) :
    match f32.val a with
    | .nan => f64.val (fFromFloat f32 f64 nan a) = .nan
    | .inf n => f64.val (fFromFloat f32 f64 nan a) = .inf n
    | .fin z => f64.val (fFromFloat f32 f64 nan a) = .fin (z * 2 ^ 925) ∧ f64.sign (fFromFloat f32 f64 nan a) = f32.sign a := by
  have ha : a < 2 ^ f32.width := ha
  unfold fFromFloat
  rw [fNeg_eq_sign ha]
  cases va : f32.val a with
  | nan => exact hn
  | inf s => exact (isInf_withSign s).2
  | fin x =>
    obtain ⟨k, _, hk, hx⟩ := val_fin_inv ha va
    obtain ⟨s, w, hw, rfl⟩ := exists_sig f32 k
    rw [magSeq_sig hw] at hx
    have hs : s ≤ 255 := by
      have h1 := hw.2
      simp only [infBits, f32] at hk h1
      omega
    obtain ⟨j, hj⟩ := exists_magSeq f64 (w := w) (s + 925) (Nat.lt_of_lt_of_le hw.1 (by decide))
    have hlt : j < infBits f64 := by
      rw [← magSeq_lt_iff (f := f64), hj, limit_eq f64_ok]
      have a1 : w * 2 ^ (s + 925) ≤ 2 ^ 24 * 2 ^ (255 + 925) :=
        Nat.mul_le_mul (Nat.le_of_lt hw.1) (Nat.pow_le_pow_right (by omega) (by omega))
      refine Nat.lt_of_le_of_lt a1 ?_
      rw [Fmt.limit, ← Nat.pow_add, ← Nat.pow_add]
      exact Nat.pow_lt_pow_right (by omega) (by decide)
    have er : (if x = 0 then 0 else roundRat f64 (x.natAbs * 2 ^ f64.fracBits) (2 ^ f32.fracBits)) = j := by
      have e0 : x.natAbs * 2 ^ f64.fracBits = magSeq f64 j * 2 ^ f32.fracBits := by
        rw [hx, natAbs_withNeg, hj, Nat.mul_assoc, Nat.mul_assoc, ← Nat.pow_add, ← Nat.pow_add]
        congr 2
      split
      · rename_i h0
        rw [h0] at e0
        simp only [Int.natAbs_zero, Nat.zero_mul] at e0
        have : magSeq f64 j = 0 := by
          rcases Nat.mul_eq_zero.mp e0.symm with h | h
          · exact h
          · exact absurd h (Nat.pos_iff_ne_zero.mp (Nat.two_pow_pos _))
        exact magSeq_inj ((magSeq_zero f64).trans this.symm)
      · rw [e0]
        exact roundRat_exact f64_ok (Nat.two_pow_pos _) (Nat.le_of_lt hlt)
    have hj' : j < 2 ^ (f64.e + f64.m) := Nat.lt_trans hlt (infBits_lt f64)
    simp only [er]
    refine ⟨?_, sign_withSign hj'⟩
    rw [val_withSign hj', if_pos hlt, hj, hx, Nat.pow_add, ← Nat.mul_assoc, withNeg_mul (f32.sign a) (w * 2 ^ s) (2 ^ 925), pow_cast]

theorem fFromInt_exact {f : Fmt} (hf : FmtOk f) (hm : f.m + 1 < 2 ^ (f.e - 1)) {n : Int} (h : n.natAbs ≤ 2 ^ (f.m + 1)) :
    f.val (fFromInt f n) = .fin (n * 2 ^ f.fracBits) := by
  unfold fFromInt
  split
  · rename_i h0
    rw [h0, Int.zero_mul]
    exact (isZero_withSign hf false).2.1
  · obtain ⟨j, hj⟩ : ∃ j, magSeq f j = n.natAbs * 2 ^ f.fracBits := by
      rcases Nat.lt_or_eq_of_le h with h | h
      · exact exists_magSeq f f.fracBits (by rw [Nat.pow_succ] at h; omega)
      · obtain ⟨j, hj⟩ := exists_magSeq f (w := 2 ^ f.m) (f.fracBits + 1) (by have := Nat.two_pow_pos f.m; omega)
        refine ⟨j, ?_⟩
        rw [hj, h, Nat.pow_succ, Nat.pow_succ]
        ac_rfl
    have hlt : j < infBits f := by
      rw [← magSeq_lt_iff (f := f), hj, limit_eq hf, Fmt.limit]
      refine Nat.mul_lt_mul_of_pos_right (Nat.lt_of_le_of_lt h ?_) (Nat.two_pow_pos _)
      refine Nat.pow_lt_pow_right (by omega) ?_
      exact hm
    have er := roundRat_exact hf (d := 1) (by omega) (Nat.le_of_lt hlt)
    rw [Nat.mul_one, hj] at er
    have hj' : j < 2 ^ (f.e + f.m) := Nat.lt_trans hlt (infBits_lt f)
    have en : (n * 2 ^ f.fracBits).natAbs = n.natAbs * 2 ^ f.fracBits := by
      rw [Int.natAbs_mul, pow_cast, Int.natAbs_natCast]
    unfold roundInt
    rw [en, er, val_withSign hj', if_pos hlt, hj, withNeg_mul, pow_cast]
    congr 2
    have hF := Nat.two_pow_pos f.fracBits
    generalize 2 ^ f.fracBits = u at *
    by_cases c : n < 0
    · have : n * (u : Int) < 0 := Int.mul_neg_of_neg_of_pos c (by omega)
      simp only [withNeg, this, decide_true, if_true]; omega
    · have : ¬ n * (u : Int) < 0 := Int.not_lt.mpr (Int.mul_nonneg (by omega) (by omega))
      simp only [withNeg, this, decide_false, Bool.false_eq_true, if_false]; omega

theorem arith_comm {f : Fmt} {op : FArith} (h : op = .add ∨ op = .mul) {a b r : Nat} (h2 : Arith f op b a r) : Arith f op a b r := by
  unfold Arith at h2 ⊢
  rcases h with rfl | rfl
  · cases va : f.val a <;> cases vb : f.val b <;> rw [va, vb] at h2 <;> simp only at h2 ⊢
    all_goals first
      | exact h2
      | (rw [Int.add_comm, Bool.and_comm]; exact h2)
      | (rename_i s t; cases s <;> cases t <;> exact h2)
  · cases va : f.val a <;> cases vb : f.val b <;> rw [va, vb] at h2 <;> simp only at h2 ⊢
    all_goals first
      | exact h2
      | (rw [Int.mul_comm, Bool.xor_comm]; exact h2)
      | (rw [Bool.xor_comm]; exact h2)

end Verif.Lemmas
