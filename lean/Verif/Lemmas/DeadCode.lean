import Verif.Lemmas.CompPos
import Verif.Spec.Subset
/-
Phase 1 on a stream with code that cannot be reached: the prefix does not look past the operator that ends control flow,
the unreachable operators become `nop`s, and everything after them is only moved.
-/
namespace Verif.Lemmas
open Verif.Model Verif.Spec Verif.Props

/-- one operator, two continuations of the stream that look the same from here -/
theorem compOp_look {K : FnCtx} {st : CS} {o : WOp} {r r2 : List WOp} (h1 : ∀ c, canFoldOperand c r = canFoldOperand c r2)
    (h2 : ∀ c, foldDst K c r = foldDst K c r2) (h3 : r.isEmpty = r2.isEmpty) :
    compOp K st o r2 = (compOp K st o r).map fun x => (x.1, if x.2.length = r.length then r2 else r2.tail) := by
  have key : ∀ (s : CS) (a : Alloc) (c : Cls) (fold : Bool) (mk : Dst → Instr),
      finish K s a c fold mk r2 = ((finish K s a c fold mk r).1,
        if (finish K s a c fold mk r).2.length = r.length then r2 else r2.tail) := by
    intro s a c fold mk
    unfold finish
    rw [← h2 c]
    split
    · rename_i l hl
      have : r ≠ [] := by
        rintro rfl
        split at hl <;> simp [foldDst] at hl
      simp only [List.length_tail]
      have : r.length ≠ 0 := fun h => this (List.length_eq_zero_iff.1 h)
      rw [if_neg (by omega)]
    · simp
  cases o
  case localGet i =>
    simp only [compOp, compLocalGet]
    cases hc : K.localType i <;> simp only [← h1] <;> (try split) <;> simp
  case const c v =>
    simp only [compOp, compConst, ← h1]
    split
    · simp
    · split <;> simp
  case localSet => simp only [compOp, Option.map_map]; congr 1; funext x; simp
  case localTee =>
    simp only [compOp]
    split
    · rfl
    · simp only [Option.map_map]; congr 1; funext x; simp
  case globalGet =>
    simp only [compOp]
    split
    · rfl
    · simp only [Option.map_some]; rw [key]
  case globalSet =>
    simp only [compOp]
    split
    · rfl
    · simp
  case un op =>
    cases op <;> simp only [compOp] <;> first
      | rfl
      | (split <;> simp only [Option.map_some] <;> rw [key])
  case bin => simp only [compOp, Option.map_some]; rw [key]
  case load => simp only [compOp, Option.map_some]; rw [key]
  case selectT => simp only [compOp]; split <;> simp
  case select => simp only [compOp]; split <;> simp
  case els => simp only [compOp]; split <;> simp
  case fin =>
    simp only [compOp, closeMaps]
    split
    · simp
    · rw [← h3]; split <;> simp
  case call => simp only [compOp]; split <;> simp
  case callIndirect => simp only [compOp]; split <;> simp
  all_goals simp [compOp]

theorem look_term {K : FnCtx} (q : List WOp) {t : WOp} (ht : isTerm t = true) (x y : List WOp) :
    (∀ c, canFoldOperand c (q ++ t :: x) = canFoldOperand c (q ++ t :: y)) ∧
    (∀ c, foldDst K c (q ++ t :: x) = foldDst K c (q ++ t :: y)) ∧ (q ++ t :: x).isEmpty = (q ++ t :: y).isEmpty := by
  refine ⟨?_, ?_, by cases q <;> rfl⟩
  · intro c
    match q with
    | [] => cases t <;> simp only [isTerm, Bool.false_eq_true] at ht <;> cases c <;> rfl
    | [a] =>
      cases t <;> simp only [isTerm, Bool.false_eq_true] at ht <;> cases c <;> cases a <;> rfl
    | a :: b :: q => cases c <;> cases a <;> cases b <;> first | rfl | (simp only [canFoldOperand, canFold, canFoldLoad, canFoldStore, List.cons_append])
  · intro c
    match q with
    | [] => cases t <;> simp only [isTerm, Bool.false_eq_true] at ht <;> rfl
    | a :: q => cases a <;> rfl

/-- phase 1 with enough turns -/
def compAll (K : FnCtx) (st : CS) (ops : List WOp) : Option CS := compRun K ops.length st ops

theorem compOp_rest {K : FnCtx} {st st' : CS} {o : WOp} {r r' : List WOp} (h : compOp K st o r = some (st', r')) :
    r' = r ∨ ∃ i, r = .localSet i :: r' := by
  by_cases hb : isBracket o = false
  · exact (compOp_plain hb h).rest
  · cases o <;> simp only [isBracket, not_true_eq_false, Bool.true_eq_false, not_false_eq_true] at hb
    case els => exact .inl (compOp_els h).1
    case fin => exact .inl (compOp_fin h).1
    all_goals (simp only [compOp, Option.some.injEq, Prod.mk.injEq] at h; exact .inl h.2.symm)

theorem compStep_rest {K : FnCtx} {st st' : CS} {o : WOp} {r r' : List WOp} (h : compStep K st o r = some (st', r')) :
    r' = r ∨ ∃ i, r = .localSet i :: r' := by
  unfold compStep at h
  split at h
  · exact compOp_rest h
  · split at h
    · cases h; exact .inl rfl
    · exact compOp_rest h

theorem compRun_enough {K : FnCtx} : ∀ (n : Nat) (st : CS) (ops : List WOp), ops.length ≤ n → compRun K n st ops = compAll K st ops
  | n, st, [], _ => by cases n <;> rfl
  | 0, st, _ :: _, h => by simp at h
  | n + 1, st, op :: rest, h => by
    simp only [List.length_cons] at h
    simp only [compAll, List.length_cons, compRun]
    split
    · rfl
    · rename_i st' r' hs
      have hl : r'.length ≤ rest.length := by
        rcases compStep_rest hs with rfl | ⟨i, rfl⟩ <;> simp
      rw [compRun_enough n st' r' (by omega), compRun_enough rest.length st' r' hl]

theorem compAll_cons {K : FnCtx} {st : CS} {op : WOp} {rest : List WOp} :
    compAll K st (op :: rest) = (compStep K st op rest).bind fun x => compAll K x.1 x.2 := by
  simp only [compAll, List.length_cons, compRun]
  split
  · rename_i h; rw [h]; rfl
  · rename_i st' r' hs
    have hl : r'.length ≤ rest.length := by
      rcases compStep_rest hs with rfl | ⟨i, rfl⟩ <;> simp
    rw [hs, compRun_enough rest.length st' r' hl]; rfl

theorem compStep_look {K : FnCtx} {st : CS} {o : WOp} {r r2 : List WOp} (h1 : ∀ c, canFoldOperand c r = canFoldOperand c r2)
    (h2 : ∀ c, foldDst K c r = foldDst K c r2) (h3 : r.isEmpty = r2.isEmpty) :
    compStep K st o r2 = (compStep K st o r).map fun x => (x.1, if x.2.length = r.length then r2 else r2.tail) := by
  unfold compStep
  split
  · exact compOp_look h1 h2 h3
  · split
    · simp
    · exact compOp_look h1 h2 h3

/-- every position remembered by phase 1 is before `p` -/
structure Below (p : Nat) (st : CS) : Prop where
  len : st.code.length = p
  ends : ∀ x ∈ st.ends, x.1 < p ∧ x.2 < p
  elses : ∀ x ∈ st.elses, x.1 < p ∧ x.2 < p
  mctl : ∀ x ∈ st.mapCtl, x.1 < p ∧ ∀ e, x.2.2 = some e → e < p

theorem Below.of {a b : CS} {i : Instr} (h : Nst a) (hc : b.code = a.code ++ [i]) (h3 : b.mapCtl = a.mapCtl) (h4 : b.ends = a.ends)
    (h5 : b.elses = a.elses) : Below b.code.length b := by
  have hk := (h.keep (b := a.emit i) rfl).2.2.2.1
  refine ⟨rfl, ?_, ?_, ?_⟩
  · rw [h4, hc]; intro x hx
    have := h.ends x hx
    simp only [List.length_append, List.length_singleton]; omega
  · rw [h5, hc]; intro x hx
    have := h.elses x hx
    simp only [List.length_append, List.length_singleton]; omega
  · rw [h3, hc]; intro x hx
    have h1 := hk x hx
    simp only [List.length_append, List.length_singleton]
    exact ⟨by omega, fun e he => by have := h.mctl x hx e he; omega⟩

theorem Nst.compStep {K : FnCtx} {st st' : CS} {o : WOp} {r r' : List WOp} (h : Nst st)
    (hs : Model.compStep K st o r = some (st', r')) : Nst st' := by
  unfold Model.compStep at hs
  split at hs
  · exact h.compOp hs
  · split at hs
    · cases hs
      exact h.simple (i := .nop) rfl rfl rfl rfl rfl
    · exact Nst.compOp (st := { st with dead := 0 }) (h.ctl rfl rfl rfl rfl) hs

/-- the operator that ends control flow -/
theorem compStep_term {K : FnCtx} {st : CS} {t : WOp} (ht : isTerm t = true) (hn : Nst st) :
    ∃ st1, 0 < st1.dead ∧ Below st1.code.length st1 ∧ 0 < st1.code.length ∧ ∀ x, compStep K st t x = some (st1, x) := by
  unfold compStep
  by_cases hd : st.dead = 0
  · simp only [if_pos hd]
    cases t <;> simp only [isTerm, Bool.false_eq_true] at ht <;> simp only [compOp, Option.some.injEq, Prod.mk.injEq, and_true]
    all_goals
      refine ⟨_, ?_, ?_, ?_, fun _ => rfl⟩
      · simp [CS.emit]
      · exact Below.of hn rfl rfl rfl rfl
      · simp [CS.emit]
  · have hx : deadNext st.dead t = st.dead := by cases t <;> simp_all [isTerm, deadNext]
    rw [hx]
    simp only [if_neg hd, if_pos (Nat.pos_of_ne_zero hd)]
    refine ⟨_, ?_, ?_, ?_, fun _ => rfl⟩
    · exact Nat.pos_of_ne_zero hd
    · exact Below.of hn rfl rfl rfl rfl
    · simp [CS.emit]

/-- phase 1 up to and including the operator that ends control flow does not depend on what follows -/
theorem comp_prefix {K : FnCtx} {t : WOp} (ht : isTerm t = true) {I : CS → Prop}
    (hI : ∀ {st st' : CS} {o : WOp} {r r' : List WOp}, I st → compStep K st o r = some (st', r') → I st') :
    ∀ (n : Nat) (pre : List WOp) (st : CS), pre.length ≤ n → Nst st → I st →
    ∃ o : Option CS, (∀ s, o = some s → 0 < s.dead ∧ Below s.code.length s ∧ 0 < s.code.length ∧ I s) ∧
      ∀ x, compAll K st (pre ++ t :: x) = o.bind fun s => compAll K s x
  | n, [], st, _, hn, hi => by
    obtain ⟨st1, h1, h2, h3, h4⟩ := compStep_term (K := K) ht hn
    refine ⟨some st1, ?_, fun x => ?_⟩
    · intro s hs; cases hs; exact ⟨h1, h2, h3, hI hi (h4 [])⟩
    · rw [List.nil_append, compAll_cons, h4]; rfl
  | 0, _ :: _, _, h, _, _ => by simp at h
  | n + 1, a :: pre, st, h, hn, hi0 => by
    simp only [List.length_cons] at h
    cases hs : compStep K st a (pre ++ [t]) with
    | none =>
      refine ⟨none, by simp, fun x => ?_⟩
      obtain ⟨h1, h2, h3⟩ := look_term (K := K) pre ht [] x
      rw [List.cons_append, compAll_cons, compStep_look h1 h2 h3, hs]; rfl
    | some y =>
      obtain ⟨st', r'⟩ := y
      have hn' := hn.compStep hs
      rcases compStep_rest hs with rfl | ⟨i, hi⟩
      · obtain ⟨o, ho, hx⟩ := comp_prefix ht hI n pre st' (by omega) hn' (hI hi0 hs)
        refine ⟨o, ho, fun x => ?_⟩
        obtain ⟨h1, h2, h3⟩ := look_term (K := K) pre ht [] x
        rw [List.cons_append, compAll_cons, compStep_look h1 h2 h3, hs, ← hx]
        simp
      · cases pre with
        | nil =>
          simp only [List.nil_append, List.cons.injEq] at hi
          rw [hi.1] at ht; cases ht
        | cons b pre =>
          simp only [List.cons_append, List.cons.injEq] at hi
          obtain ⟨rfl, rfl⟩ := hi
          simp only [List.length_cons] at h
          obtain ⟨o, ho, hx⟩ := comp_prefix ht hI n pre st' (by omega) hn' (hI hi0 hs)
          refine ⟨o, ho, fun x => ?_⟩
          obtain ⟨h1, h2, h3⟩ := look_term (K := K) (.localSet i :: pre) ht [] x
          rw [List.cons_append, compAll_cons, compStep_look h1 h2 h3, hs, ← hx]
          simp

/-- the unreachable operators -/
theorem compAll_dead1 {K : FnCtx} {st : CS} {op : WOp} {rest : List WOp} (h0 : 0 < st.dead) (hd : 0 < deadNext st.dead op) :
    compAll K st (op :: rest) = compAll K { skip st 1 with dead := deadNext st.dead op } rest := by
  rw [compAll_cons, compStep, if_neg (by omega), if_pos hd]; rfl

theorem compAll_dead {K : FnCtx} : ∀ (w : WSeq) (tail : List WOp) (st : CS), w.Proper → 0 < st.dead →
    compAll K st (w.flat ++ tail) = compAll K (skip st w.flat.length) tail := by
  intro w
  have hfin : ∀ d, deadNext d .fin = d - 1 := fun _ => rfl
  have key : ∀ (o : WOp) (b k : WSeq) (tail : List WOp) (st : CS), (∀ d, deadNext d o = d + 1) → 0 < st.dead →
      (∀ (tail : List WOp) (st : CS), 0 < st.dead → compAll K st (b.flat ++ tail) = compAll K (skip st b.flat.length) tail) →
      (∀ (tail : List WOp) (st : CS), 0 < st.dead → compAll K st (k.flat ++ tail) = compAll K (skip st k.flat.length) tail) →
      compAll K st ((o :: (b.flat ++ .fin :: k.flat)) ++ tail) =
        compAll K (skip st (o :: (b.flat ++ .fin :: k.flat)).length) tail := by
    intro o b k tail st ho hd ihb ihk
    simp only [List.cons_append, List.append_assoc]
    rw [compAll_dead1 hd (by rw [ho]; omega), ihb _ _ (by simp only [ho]; omega),
      compAll_dead1 (by simp only [skip, ho]; omega) (by simp only [skip, ho, hfin]; omega),
      ihk _ _ (by simp only [skip, ho, hfin]; omega)]
    congr 1
    exact (nops_eq (by simp only [skip, ho, hfin]; omega) (by simp only [List.length_cons, List.length_append]; omega)).symm
  induction w with
  | done => intro tail st _ _; simp [skip, WSeq.flat]
  | op o k ih =>
    intro tail st hp hd
    have hn : deadNext st.dead o = st.dead := by
      have := hp.1
      cases o <;> simp_all [isBracket, deadNext]
    simp only [WSeq.flat, List.cons_append]
    rw [compAll_dead1 hd (by rw [hn]; exact hd), hn]
    have := ih tail (skip st 1) hp.2 hd
    rw [skip_skip] at this
    rw [List.length_cons, Nat.add_comm, ← this]
    rfl
  | block bt b k ihb ihk =>
    intro tail st hp hd
    exact key _ b k tail st (fun _ => rfl) hd (fun t s h => ihb t s hp.1 h) (fun t s h => ihk t s hp.2 h)
  | loop bt b k ihb ihk =>
    intro tail st hp hd
    exact key _ b k tail st (fun _ => rfl) hd (fun t s h => ihb t s hp.1 h) (fun t s h => ihk t s hp.2 h)
  | ite bt b k ihb ihk =>
    intro tail st hp hd
    exact key _ b k tail st (fun _ => rfl) hd (fun t s h => ihb t s hp.1 h) (fun t s h => ihk t s hp.2 h)
  | itee bt t e k iht ihe ihk =>
    intro tail st hp hd
    simp only [WSeq.flat, List.cons_append, List.append_assoc]
    have he : deadNext (st.dead + 1) .els = st.dead + 1 := by simp [deadNext]; omega
    have hb : ∀ d, deadNext d (WOp.ite bt) = d + 1 := fun _ => rfl
    rw [compAll_dead1 hd (by rw [hb]; omega), iht _ _ hp.1 (by simp only [hb]; omega),
      compAll_dead1 (by simp only [skip, hb]; omega) (by simp only [skip, hb, he]; omega),
      ihe _ _ hp.2.1 (by simp only [skip, hb, he]; omega),
      compAll_dead1 (by simp only [skip, hb, he]; omega) (by simp only [skip, hb, he, hfin]; omega),
      ihk _ _ hp.2.2 (by simp only [skip, hb, he, hfin]; omega)]
    congr 1
    simp only [skip, hb, he, List.append_assoc, List.replicate_append_replicate, CS.mk.injEq, true_and, and_true]
    refine ⟨?_, by rw [hfin]; omega⟩
    congr 2
    simp only [List.length_cons, List.length_append]; omega

end Verif.Lemmas
