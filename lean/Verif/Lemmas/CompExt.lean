import Verif.Lemmas.CompSeq
import Verif.Lemmas.Sym
/-
What compiling a sequence leaves alone: earlier code, the open brackets, and the recorded bracket ends.
-/
namespace Verif.Lemmas
open Verif.Model Verif.Spec Verif.Props

/-- the control stack of phases 2 and 3 after some instructions -/
def scanL : Nat → List (Nat × Bool) → List Instr → List (Nat × Bool)
  | _, stk, [] => stk
  | pc, stk, i :: is => scanL (pc + 1) (scanStep stk pc i) is

theorem scanL_append : ∀ (a b : List Instr) (pc : Nat) (stk : List (Nat × Bool)),
    scanL pc stk (a ++ b) = scanL (pc + a.length) (scanL pc stk a) b
  | [], b, pc, stk => by simp [scanL]
  | i :: a, b, pc, stk => by
    simp only [List.cons_append, scanL, List.length_cons]
    rw [scanL_append a b]
    congr 1; omega

theorem scanL_flat : ∀ (is : List Instr) (pc : Nat) (stk : List (Nat × Bool)), (∀ i ∈ is, isFlat i = true) → scanL pc stk is = stk
  | [], _, _, _ => rfl
  | i :: is, pc, stk, h => by
    rw [scanL, scanStep_flat (h i (by simp))]
    exact scanL_flat is _ _ fun j hj => h j (by simp [hj])

theorem patchFrom_get {ends elses : List (Nat × Nat)} {len : Nat} : ∀ {code body : List Instr} {pc : Nat} {stk : List (Nat × Bool)},
    patchFrom ends elses len pc stk code = some body → body.length = code.length ∧
    ∀ (n : Nat) (i : Instr), code[n]? = some i → ∃ j, body[n]? = some j ∧
      patch ends elses len (scanStep (scanL pc stk (code.take n)) (pc + n) i) i = some j
  | [], body, pc, stk, h => by
    simp only [patchFrom, Option.some.injEq] at h
    subst h
    exact ⟨rfl, by intro n i hi; simp at hi⟩
  | x :: xs, body, pc, stk, h => by
    simp only [patchFrom] at h
    split at h
    · rename_i j js h1 h2
      cases h
      obtain ⟨hl, hg⟩ := patchFrom_get h2
      refine ⟨by simp [hl], fun n i hi => ?_⟩
      cases n with
      | zero =>
        simp only [List.getElem?_cons_zero, Option.some.injEq] at hi
        subst hi
        exact ⟨j, rfl, by simpa [scanL] using h1⟩
      | succ n =>
        simp only [List.getElem?_cons_succ] at hi
        obtain ⟨j', h3, h4⟩ := hg n i hi
        refine ⟨j', by simpa using h3, ?_⟩
        simp only [List.take_succ_cons, scanL]
        rw [← h4]
        congr 2; omega
    · cases h

/-! ## Maximal depths only grow -/

theorem max_push (a : Alloc) (d c : Cls) : a.maxDepth c ≤ (a.push d).2.maxDepth c := by
  simp only [Alloc.push]
  by_cases h : c = d
  · subst h; rw [upd_same]; omega
  · rw [upd_ne _ _ _ _ h]; omega

theorem max_pop (a : Alloc) (d c : Cls) : (a.pop d).2.maxDepth c = a.maxDepth c := rfl

theorem max_pushAll : ∀ (ts : List Cls) (a : Alloc) (c : Cls), a.maxDepth c ≤ (pushAll a ts).2.maxDepth c
  | [], a, c => Nat.le_refl _
  | t :: ts, a, c => by
    simp only [pushAll]
    exact Nat.le_trans (max_push a t c) (max_pushAll ts _ c)

theorem max_popAll : ∀ (ts : List Cls) (a : Alloc) (c : Cls), (popAll a ts).maxDepth c = a.maxDepth c
  | [], a, c => rfl
  | t :: ts, a, c => by simp only [popAll]; rw [max_popAll ts]; rfl

theorem max_popParams : ∀ (ts : List Cls) (a : Alloc) (c : Cls), (popParams a ts).2.maxDepth c = a.maxDepth c
  | [], a, c => rfl
  | t :: ts, a, c => by simp only [popParams]; rw [max_popParams ts]; rfl

theorem max_restore (a : Alloc) (s : Alloc.Saved) (c : Cls) : (a.restore s).maxDepth c = a.maxDepth c := rfl

theorem max_finish {K : FnCtx} {st : CS} {a : Alloc} {c : Cls} {fold : Bool} {mk : Dst → Instr} {rest : List WOp} (d : Cls) :
    a.maxDepth d ≤ (finish K st a c fold mk rest).1.alloc.maxDepth d := by
  unfold finish
  split <;> simp only [CS.emit]
  · rw [max_pop]; exact max_push a c d
  · exact max_push a c d

theorem compOp_max {K : FnCtx} {st st' : CS} {o : WOp} {rest rest' : List WOp} (h : compOp K st o rest = some (st', rest'))
    (c : Cls) : st.alloc.maxDepth c ≤ st'.alloc.maxDepth c := by
  have key : ∀ {x : CS × List WOp}, some x = some (st', rest') → st.alloc.maxDepth c ≤ x.1.alloc.maxDepth c →
      st.alloc.maxDepth c ≤ st'.alloc.maxDepth c := by
    intro x hx hp; cases hx; exact hp
  have sl : ∀ {a b : CS} {d : Cls} {s i : Nat}, storeLocal a d s i = some b → b.alloc = a.alloc := by
    intro a b d s i hs
    cases d <;> simp only [storeLocal, Option.some.injEq, reduceCtorEq] at hs <;> subst hs <;> rfl
  cases o
  case localGet i =>
    simp only [compOp, compLocalGet] at h
    cases hc : K.localType i <;> rw [hc] at h <;> simp only [Option.map_some, Option.map_none, reduceCtorEq] at h
    case ref => exact key h (max_push _ _ _)
    all_goals
      split at h
      · exact key h (max_push _ _ _)
      · exact key h (max_push _ _ _)
  case localSet i =>
    simp only [compOp, Option.map_eq_some_iff] at h
    obtain ⟨x, hx, he⟩ := h
    cases he
    rw [sl hx]; exact Nat.le_refl _
  case localTee i =>
    simp only [compOp] at h
    split at h
    · cases h
    · simp only [Option.map_eq_some_iff] at h
      obtain ⟨x, hx, he⟩ := h
      cases he
      rw [sl hx]; exact Nat.le_refl _
  case globalGet g =>
    simp only [compOp] at h
    split at h
    · cases h
    · exact key h (max_finish _)
  case globalSet g =>
    simp only [compOp] at h
    split at h
    · cases h
    · exact key h (Nat.le_refl _)
  case const d v =>
    simp only [compOp, compConst, Option.map_eq_some_iff] at h
    obtain ⟨x, hx, he⟩ := h
    cases he
    split at hx
    · cases hx
    · split at hx
      · cases hx; exact max_push _ _ _
      · cases hx; exact max_push _ _ _
  case un op =>
    cases op <;> simp only [compOp, reduceCtorEq] at h
    all_goals
      split at h
      · exact key h (Nat.le_trans (Nat.le_of_eq (max_pop _ _ _).symm) (max_finish _))
      · exact key h (Nat.le_trans (Nat.le_of_eq (max_pop _ _ _).symm) (max_finish _))
  case bin op => exact key h (Nat.le_trans (Nat.le_of_eq (by rw [max_pop, max_pop])) (max_finish _))
  case load op off => exact key h (Nat.le_trans (Nat.le_of_eq (max_pop _ _ _).symm) (max_finish _))
  case selectT d =>
    simp only [compOp] at h
    split at h
    · cases h
    · exact key h (Nat.le_trans (Nat.le_of_eq (by rw [max_pop, max_pop, max_pop])) (max_push _ _ _))
  case select =>
    simp only [compOp] at h
    split at h
    · cases h
    · exact key h (Nat.le_trans (Nat.le_of_eq (by rw [max_pop, max_pop, max_pop])) (max_push _ _ _))
  case drop =>
    simp only [compOp] at h
    refine key h ?_
    simp only [Alloc.popAny]
    cases st.alloc.types <;> exact Nat.le_refl _
  case call f =>
    simp only [compOp] at h
    split at h
    · exact key h (Nat.le_trans (Nat.le_of_eq (max_popAll _ _ _).symm) (max_pushAll _ _ _))
    · exact key h (Nat.le_trans (Nat.le_of_eq (max_popParams _ _ _).symm) (max_pushAll _ _ _))
  case callIndirect ty t =>
    simp only [compOp] at h
    split at h
    · cases h
    · exact key h (Nat.le_trans (Nat.le_of_eq (by rw [max_popParams, max_pop])) (max_pushAll _ _ _))
  case block bt => exact key h (Nat.le_trans (Nat.le_of_eq (max_popAll _ _ _).symm) (max_pushAll _ _ _))
  case loop bt => exact key h (Nat.le_trans (Nat.le_of_eq (max_popAll _ _ _).symm) (max_pushAll _ _ _))
  case ite bt => exact key h (Nat.le_trans (Nat.le_of_eq (by rw [max_popAll, max_pop])) (max_pushAll _ _ _))
  case els =>
    simp only [compOp] at h
    split at h
    · refine key h ?_
      simp only [CS.emit, elseAlloc]
      cases st.saved <;> cases st.ctrl <;> simp only [] <;>
        first | exact Nat.le_refl _ | exact max_pushAll _ _ _ | exact Nat.le_trans (Nat.le_of_eq (max_restore _ _ _).symm) (max_pushAll _ _ _)
    · cases h
  case fin =>
    simp only [compOp, Option.map_eq_some_iff] at h
    obtain ⟨x, hx, he⟩ := h
    cases he
    have ha : st'.alloc = (compEnd K st).alloc := by
      unfold closeMaps at hx
      split at hx
      · cases hx; rfl
      · split at hx
        · cases hx; rfl
        · cases hx
    rw [ha]
    simp only [compEnd, CS.emit, endAlloc]
    cases st.saved <;> simp only []
    · exact Nat.le_refl _
    · exact Nat.le_trans (Nat.le_of_eq (max_restore _ _ _).symm) (max_pushAll _ _ _)
  case br d => exact key h (Nat.le_refl _)
  case brIf d => exact key h (Nat.le_refl _)
  case brTable ds d => exact key h (Nat.le_refl _)
  case ret => exact key h (Nat.le_of_eq (max_popAll _ _ _).symm)
  case other => simp [compOp] at h
  all_goals first
    | exact key h (Nat.le_refl _)
    | exact key h (max_push _ _ _)
    | exact key h (Nat.le_trans (Nat.le_of_eq (max_pop _ _ _).symm) (max_push _ _ _))

/-! ## Brackets -/

/-- what opening a bracket does -/
theorem compOp_block {K : FnCtx} {st st1 : CS} {bt : BlockTy} {isL : Bool} {rest r : List WOp}
    (h : compOp K st (if isL then .loop bt else .block bt) rest = some (st1, r)) :
    st1 = { openBlock K st st.alloc bt isL with mapCtl := (st.code.length, false, none) :: st.mapCtl }.emit (.block isL) := by
  cases isL <;> simp only [Bool.false_eq_true, if_false, if_true, compOp, Option.some.injEq, Prod.mk.injEq] at h <;> exact h.1.symm

theorem compOp_ite {K : FnCtx} {st st1 : CS} {bt : BlockTy} {rest r : List WOp} (h : compOp K st (.ite bt) rest = some (st1, r)) :
    st1 = { openBlock K st (st.alloc.pop .i32).2 bt false with mapCtl := (st.code.length, true, none) :: st.mapCtl }.emit
      (.ite (st.alloc.pop .i32).1.idx 0 false) := by
  simp only [compOp, Option.some.injEq, Prod.mk.injEq] at h; exact h.1.symm

theorem compOp_els' {K : FnCtx} {st st1 : CS} {s : Nat} {m : List (Nat × Bool × Option Nat)} {rest r : List WOp}
    (hm : st.mapCtl = (s, true, none) :: m) (h : compOp K st .els rest = some (st1, r)) :
    st1 = { st with alloc := elseAlloc K st, mapCtl := (s, true, some (st.code.length + 1)) :: m }.emit (.jump 0) := by
  simp only [compOp, hm, Option.some.injEq, Prod.mk.injEq] at h; exact h.1.symm

theorem compOp_fin' {K : FnCtx} {st st1 : CS} {s : Nat} {isIf : Bool} {e : Option Nat} {m : List (Nat × Bool × Option Nat)}
    {rest r : List WOp} (hm : st.mapCtl = (s, isIf, e) :: m) (h : compOp K st .fin rest = some (st1, r)) :
    st1 = { compEnd K st with mapCtl := m, ends := (s, st.code.length + 1) :: st.ends,
                              elses := if isIf then (s, e.getD (st.code.length + 1)) :: st.elses else st.elses } := by
  simp only [compOp, Option.map_eq_some_iff] at h
  obtain ⟨x, hx, he⟩ := h
  cases he
  have : (compEnd K st).mapCtl = (s, isIf, e) :: m := hm
  simp only [closeMaps, this, Option.some.injEq] at hx
  exact hx.symm

/-! ## Sequences -/

/-- `b` comes from `a` by compiling complete sequences -/
structure Ext (a b : CS) : Prop where
  code : ∃ is, b.code = a.code ++ is ∧ ∀ stk, scanL a.code.length stk is = stk
  ctrl : b.ctrl = a.ctrl
  saved : b.saved = a.saved
  mapCtl : b.mapCtl = a.mapCtl
  ends : ∃ e, b.ends = e ++ a.ends ∧ ∀ x ∈ e, a.code.length ≤ x.1
  elses : ∃ e, b.elses = e ++ a.elses ∧ ∀ x ∈ e, a.code.length ≤ x.1
  max : ∀ c, a.alloc.maxDepth c ≤ b.alloc.maxDepth c

theorem Ext.refl (a : CS) : Ext a a :=
  ⟨⟨[], by simp, fun _ => rfl⟩, rfl, rfl, rfl, ⟨[], by simp⟩, ⟨[], by simp⟩, fun _ => Nat.le_refl _⟩

theorem Ext.len {a b : CS} (h : Ext a b) : a.code.length ≤ b.code.length := by
  obtain ⟨is, h, _⟩ := h.code; rw [h]; simp

theorem Ext.trans {a b c : CS} (h : Ext a b) (h' : Ext b c) : Ext a c := by
  have hl := h.len
  obtain ⟨⟨i1, c1, s1⟩, h2, h3, h4, ⟨e1, h5, h6⟩, ⟨f1, h7, h8⟩, h9⟩ := h
  obtain ⟨⟨i2, c2, s2⟩, k2, k3, k4, ⟨e2, k5, k6⟩, ⟨f2, k7, k8⟩, k9⟩ := h'
  refine ⟨⟨i1 ++ i2, by rw [c2, c1, List.append_assoc], fun stk => ?_⟩, k2.trans h2, k3.trans h3, k4.trans h4,
    ⟨e2 ++ e1, by rw [k5, h5, List.append_assoc], ?_⟩, ⟨f2 ++ f1, by rw [k7, h7, List.append_assoc], ?_⟩,
    fun c => Nat.le_trans (h9 c) (k9 c)⟩
  · rw [scanL_append, s1]
    have : a.code.length + i1.length = b.code.length := by rw [c1]; simp
    rw [this, s2]
  · intro x hx
    rcases List.mem_append.1 hx with hx | hx
    · have := k6 x hx; omega
    · exact h6 x hx
  · intro x hx
    rcases List.mem_append.1 hx with hx | hx
    · have := k8 x hx; omega
    · exact h8 x hx

theorem Ext.plain {K : FnCtx} {st st' : CS} {o : WOp} {rest rest' : List WOp} (hb : isBracket o = false)
    (h : compOp K st o rest = some (st', rest')) : Ext st st' := by
  obtain ⟨⟨h1, h2, h3, h4, h5⟩, hc, _, _⟩ := compOp_plain hb h
  refine ⟨?_, h1, h2, h3, ⟨[], by simp [h4]⟩, ⟨[], by simp [h5]⟩, compOp_max h⟩
  rcases hc with hc | ⟨i, hi, hc⟩
  · exact ⟨[], by simp [hc], fun _ => rfl⟩
  · exact ⟨[i], hc, fun stk => scanL_flat _ _ _ (by simp [isFlat_of hi])⟩

theorem Ext.skip (st : CS) (n : Nat) : Ext st (skip st n) :=
  ⟨⟨List.replicate n .nop, rfl, fun stk => scanL_flat _ _ _ fun i hi => by rw [(List.mem_replicate.1 hi).2]; rfl⟩, rfl, rfl, rfl,
    ⟨[], by simp [Lemmas.skip]⟩, ⟨[], by simp [Lemmas.skip]⟩, fun _ => Nat.le_refl _⟩

/-- a complete bracket, up to (but not including) what follows it -/
theorem Ext.bracket {K : FnCtx} {st st1 st2 st3 : CS} {i : Instr} {isIf : Bool} {e : Option Nat} {rest r : List WOp}
    (hi : ∀ stk, ∃ b, scanStep stk st.code.length i = (st.code.length, b) :: stk)
    (c1 : st1.code = st.code ++ [i]) (hct : ∃ x, st1.ctrl = x :: st.ctrl) (hsv : ∃ x, st1.saved = x :: st.saved)
    (hen : st1.ends = st.ends) (hel : st1.elses = st.elses) (hmx : ∀ c, st.alloc.maxDepth c ≤ st1.alloc.maxDepth c)
    (hm1 : st2.mapCtl = (st.code.length, isIf, e) :: st.mapCtl) (hx : Ext { st1 with mapCtl := st2.mapCtl } st2)
    (h3 : compOp K { st2 with dead := 0 } .fin rest = some (st3, r)) : Ext st st3 := by
  have hmax := compOp_max h3
  have e3 := compOp_fin' (st := { st2 with dead := 0 }) hm1 h3
  obtain ⟨⟨is, hc, hs⟩, h2, h3', h4, ⟨e1, h5, h6⟩, ⟨f1, h7, h8⟩, h9⟩ := hx
  obtain ⟨ct, hct⟩ := hct
  obtain ⟨sv, hsv⟩ := hsv
  simp only at hc hs h2 h3' h5 h6 h7 h8 h9
  rw [c1] at hc hs h6 h8
  simp only [List.length_append, List.length_cons, List.length_nil] at h6 h8
  have hfin : ∃ src dst, st3.code = st2.code ++ [.fin src dst] := by rw [e3]; exact ⟨_, _, rfl⟩
  obtain ⟨src, dst, hfin⟩ := hfin
  refine ⟨⟨i :: (is ++ [.fin src dst]), ?_, fun stk => ?_⟩, ?_, ?_, ?_, ?_, ?_, ?_⟩
  · rw [hfin, hc]; simp
  · rw [scanL]
    obtain ⟨b, hb⟩ := hi stk
    rw [hb, scanL_append]
    have : st.code.length + 1 = (st.code ++ [i]).length := by simp
    rw [this, hs]
    rfl
  · rw [e3]; simp only [compEnd, CS.emit, h2, hct, List.tail_cons]
  · rw [e3]; simp only [compEnd, CS.emit, h3', hsv, List.tail_cons]
  · rw [e3]
  · refine ⟨(st.code.length, st2.code.length + 1) :: e1, by rw [e3]; simp [h5, hen], fun x hx => ?_⟩
    rcases List.mem_cons.1 hx with rfl | hx
    · exact Nat.le_refl _
    · have := h6 x hx; omega
  · cases isIf with
    | false => exact ⟨f1, by rw [e3]; simp [h7, hel], fun x hx => by have := h8 x hx; omega⟩
    | true =>
      refine ⟨(st.code.length, e.getD (st2.code.length + 1)) :: f1, by rw [e3]; simp [h7, hel], fun x hx => ?_⟩
      rcases List.mem_cons.1 hx with rfl | hx
      · exact Nat.le_refl _
      · have := h8 x hx; omega
  · intro c
    exact Nat.le_trans (hmx c) (Nat.le_trans (h9 c) (hmax c))

theorem CompSeq.ext {K : FnCtx} {w : WSeq} {tail : List WOp} {st st' : CS} (h : CompSeq K w tail st st') : Ext st st' := by
  induction h with
  | done => exact Ext.refl _
  | dead => exact Ext.skip _ _
  | op _ hb hc _ ih => exact (Ext.plain hb hc).trans ih
  | fused _ hb hc _ ih => exact (Ext.plain hb hc).trans ih
  | @block bt b k tail st st1 st2 st3 st4 _ hc1 _ hc3 _ ihb ihk =>
    have hmx := compOp_max hc1
    have e1 := compOp_block (isL := false) hc1
    refine (Ext.bracket (i := .block false) (st1 := st1) (st2 := st2) (isIf := false) (e := none) (fun stk => ⟨false, rfl⟩) (by rw [e1]; rfl)
      ⟨_, by rw [e1]; rfl⟩ ⟨_, by rw [e1]; rfl⟩ (by rw [e1]; rfl) (by rw [e1]; rfl) hmx (by rw [ihb.mapCtl, e1]; rfl) ?_ hc3).trans ihk
    rw [ihb.mapCtl]; exact ihb
  | @loop bt b k tail st st1 st2 st3 st4 _ hc1 _ hc3 _ ihb ihk =>
    have hmx := compOp_max hc1
    have e1 := compOp_block (isL := true) hc1
    refine (Ext.bracket (i := .block true) (st1 := st1) (st2 := st2) (isIf := false) (e := none) (fun stk => ⟨true, rfl⟩) (by rw [e1]; rfl)
      ⟨_, by rw [e1]; rfl⟩ ⟨_, by rw [e1]; rfl⟩ (by rw [e1]; rfl) (by rw [e1]; rfl) hmx (by rw [ihb.mapCtl, e1]; rfl) ?_ hc3).trans ihk
    rw [ihb.mapCtl]; exact ihb
  | @ite bt b k tail st st1 st2 st3 st4 _ hc1 _ hc3 _ ihb ihk =>
    have hmx := compOp_max hc1
    have e1 := compOp_ite hc1
    refine (Ext.bracket (i := .ite (st.alloc.pop .i32).1.idx 0 false) (st1 := st1) (st2 := st2) (isIf := true) (e := none) (fun stk => ⟨false, rfl⟩)
      (by rw [e1]; rfl)
      ⟨_, by rw [e1]; rfl⟩ ⟨_, by rw [e1]; rfl⟩ (by rw [e1]; rfl) (by rw [e1]; rfl) hmx (by rw [ihb.mapCtl, e1]; rfl) ?_ hc3).trans ihk
    rw [ihb.mapCtl]; exact ihb
  | @itee bt t e k tail st st1 st2 st3 st4 st5 st6 _ hc1 _ hc3 _ hc5 _ iht ihe ihk =>
    have hmx := compOp_max hc1
    have hmx3 := compOp_max hc3
    have e1 := compOp_ite hc1
    have hm2 : st2.mapCtl = (st.code.length, true, none) :: st.mapCtl := by rw [iht.mapCtl, e1]; rfl
    have e3 := compOp_els' (st := { st2 with dead := 0 }) hm2 hc3
    have hm4 : st4.mapCtl = (st.code.length, true, some (st2.code.length + 1)) :: st.mapCtl := by rw [ihe.mapCtl, e3]; rfl
    have x23 : Ext { st2 with mapCtl := st4.mapCtl } st3 := by
      refine ⟨⟨[.jump 0], by rw [e3]; rfl, fun stk => scanL_flat _ _ _ (by simp [isFlat])⟩, by rw [e3]; rfl, by rw [e3]; rfl, ?_,
        ⟨[], by rw [e3]; simp [CS.emit]⟩, ⟨[], by rw [e3]; simp [CS.emit]⟩, hmx3⟩
      rw [ihe.mapCtl]
    have x12 : Ext { st1 with mapCtl := st4.mapCtl } { st2 with mapCtl := st4.mapCtl } :=
      ⟨iht.code, iht.ctrl, iht.saved, rfl, iht.ends, iht.elses, iht.max⟩
    exact (Ext.bracket (i := .ite (st.alloc.pop .i32).1.idx 0 false) (st1 := st1) (st2 := st4) (isIf := true)
      (e := some (st2.code.length + 1)) (fun stk => ⟨false, rfl⟩)
      (by rw [e1]; rfl) ⟨_, by rw [e1]; rfl⟩ ⟨_, by rw [e1]; rfl⟩ (by rw [e1]; rfl) (by rw [e1]; rfl) hmx hm4
      ((x12.trans x23).trans ihe) hc5).trans ihk

end Verif.Lemmas
