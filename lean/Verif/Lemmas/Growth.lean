import Verif.Spec.Size
import Verif.Lemmas.CompFits
/-
The register allocator's high-water marks are bounded by the locals and the values pushed.
-/
namespace Verif.Lemmas
open Verif.Model Verif.Spec

structure AIn (N : Cls → Nat) (a : Alloc) : Prop where
  max : ∀ c, a.maxDepth c ≤ N c
  cur : ∀ c, a.depth c ≤ N c

def SavedIn (M : MInfo) (N : Cls → Nat) : List Alloc.Saved → List Ctl → Prop
  | s :: ss, b :: bs => (∀ c, s.depth c + (M.blockParams b.bt).length ≤ N c ∧ s.depth c + (M.blockResults b.bt).length ≤ N c) ∧ SavedIn M N ss bs
  | s :: ss, [] => (∀ c, s.depth c ≤ N c) ∧ SavedIn M N ss []
  | [], [] => True
  | [], _ :: _ => False

structure GRoom (M : MInfo) (N : Cls → Nat) (st : CS) : Prop where
  al : AIn N st.alloc
  sv : SavedIn M N st.saved st.ctrl

def plus (N : Cls → Nat) (n : Nat) : Cls → Nat := fun c => N c + n

theorem AIn.mono {N N' : Cls → Nat} {a : Alloc} (h : AIn N a) (hn : ∀ c, N c ≤ N' c) : AIn N' a :=
  ⟨fun c => Nat.le_trans (h.max c) (hn c), fun c => Nat.le_trans (h.cur c) (hn c)⟩

theorem SavedIn.mono {M : MInfo} {N N' : Cls → Nat} (hn : ∀ c, N c ≤ N' c) : ∀ {ss : List Alloc.Saved} {bs : List Ctl},
    SavedIn M N ss bs → SavedIn M N' ss bs
  | [], [], _ => trivial
  | [], _ :: _, h => h.elim
  | _ :: _, [], h => ⟨fun c => Nat.le_trans (h.1 c) (hn c), SavedIn.mono hn h.2⟩
  | _ :: _, _ :: _, h => ⟨fun c => ⟨Nat.le_trans (h.1 c).1 (hn c), Nat.le_trans (h.1 c).2 (hn c)⟩, SavedIn.mono hn h.2⟩

theorem AIn.pop {N : Cls → Nat} {a : Alloc} (h : AIn N a) (c : Cls) : AIn N (a.pop c).2 := by
  refine ⟨h.max, fun d => ?_⟩
  show upd a.depth c (a.depth c - 1) d ≤ N d
  unfold upd
  split
  · rename_i e; subst e; dsimp only; exact Nat.le_trans (Nat.sub_le _ _) (h.cur _)
  · exact h.cur d

theorem AIn.push {N : Cls → Nat} {a : Alloc} (h : AIn N a) (c : Cls) : AIn (plus N 1) (a.push c).2 := by
  refine ⟨fun d => ?_, fun d => ?_⟩
  · show upd a.maxDepth c (Max.max (a.maxDepth c) (a.depth c + 1)) d ≤ N d + 1
    unfold upd
    split
    · rename_i e; subst e; dsimp only; have := h.max d; have := h.cur d; omega
    · have := h.max d; omega
  · show upd a.depth c (a.depth c + 1) d ≤ N d + 1
    unfold upd
    split
    · rename_i e; subst e; dsimp only; have := h.cur d; omega
    · have := h.cur d; omega

theorem AIn.pushAll : ∀ (ts : List Cls) {N : Cls → Nat} {a : Alloc}, AIn N a → AIn (plus N ts.length) (pushAll a ts).2
  | [], _, _, h => h
  | c :: cs, N, a, h => by
    have := AIn.pushAll cs (h.push c)
    exact this.mono fun d => by show N d + 1 + cs.length ≤ N d + (cs.length + 1); omega

theorem AIn.popAll {N : Cls → Nat} : ∀ (ts : List Cls) {a : Alloc}, AIn N a → AIn N (popAll a ts)
  | [], _, h => h
  | c :: cs, _, h => AIn.popAll cs (h.pop c)

theorem AIn.popParams {N : Cls → Nat} : ∀ (ts : List Cls) {a : Alloc}, AIn N a → AIn N (popParams a ts).2
  | [], _, h => h
  | c :: cs, _, h => AIn.popParams cs (h.pop c)

theorem AIn.restore {N : Cls → Nat} {a : Alloc} {s : Alloc.Saved} (h : AIn N a) (hs : ∀ c, s.depth c ≤ N c) : AIn N (a.restore s) :=
  ⟨h.max, hs⟩

/-- restoring below the mark and pushing back -/
theorem AIn.restorePush {N : Cls → Nat} {a : Alloc} {s : Alloc.Saved} (ts : List Cls) (h : AIn N a)
    (hs : ∀ c, s.depth c + ts.length ≤ N c) : AIn N (Model.pushAll (a.restore s) ts).2 := by
  have key : ∀ (ts : List Cls) (a : Alloc), (∀ c, a.maxDepth c ≤ N c) → (∀ c, a.depth c + ts.length ≤ N c) → AIn N (Model.pushAll a ts).2 := by
    intro ts
    induction ts with
    | nil => intro a h1 h2; exact ⟨h1, h2⟩
    | cons c cs ih =>
      intro a h1 h2
      refine ih _ ?_ ?_
      · intro d
        show upd a.maxDepth c (Max.max (a.maxDepth c) (a.depth c + 1)) d ≤ N d
        unfold upd
        have := h2 d
        rw [List.length_cons] at this
        split
        · rename_i e; subst e; dsimp only; have := h1 d; omega
        · exact h1 d
      · intro d
        show upd a.depth c (a.depth c + 1) d + cs.length ≤ N d
        unfold upd
        have := h2 d
        rw [List.length_cons] at this
        split
        · rename_i e; subst e; dsimp only; omega
        · omega
  exact key ts _ h.max hs

theorem finish_room {M : MInfo} {N : Cls → Nat} {K : FnCtx} {st : CS} {a : Alloc} {c : Cls} {fold : Bool} {mk : Dst → Instr} {r : List WOp}
    (hs : SavedIn M N st.saved st.ctrl) (ha : AIn N a) : GRoom M (plus N 1) (finish K st a c fold mk r).1 := by
  have hs' : SavedIn M (plus N 1) st.saved st.ctrl := hs.mono fun d => Nat.le_succ _
  unfold finish
  split
  · exact ⟨(ha.push c).pop c, hs'⟩
  · exact ⟨ha.push c, hs'⟩

theorem GRoom.mono {M : MInfo} {N N' : Cls → Nat} {st : CS} (h : GRoom M N st) (hn : ∀ c, N c ≤ N' c) : GRoom M N' st :=
  ⟨h.al.mono hn, h.sv.mono hn⟩

theorem storeLocal_same {st st' : CS} {c : Cls} {src i : Nat} (h : storeLocal st c src i = some st') :
    st'.alloc = st.alloc ∧ st'.saved = st.saved ∧ st'.ctrl = st.ctrl := by
  cases c <;> simp only [storeLocal, Option.some.injEq, reduceCtorEq] at h <;> subst h <;> exact ⟨rfl, rfl, rfl⟩

theorem openBlock_room {K : FnCtx} {N : Cls → Nat} {st : CS} {a : Alloc} (hs : SavedIn K.M N st.saved st.ctrl) (ha : AIn N a) (bt : BlockTy)
    (l : Bool) : GRoom K.M (plus N ((K.M.blockParams bt).length + (K.M.blockResults bt).length)) (openBlock K st a bt l) := by
  have h0 := AIn.popAll (K.M.blockParams bt).reverse ha
  refine ⟨(AIn.pushAll (K.M.blockParams bt) h0).mono fun c => by unfold plus; omega, ⟨fun c => ?_, hs.mono fun c => Nat.le_add_right _ _⟩⟩
  have := h0.cur c
  constructor
  · show (popAll a (K.M.blockParams bt).reverse).depth c + (K.M.blockParams bt).length ≤ N c + _; omega
  · show (popAll a (K.M.blockParams bt).reverse).depth c + (K.M.blockResults bt).length ≤ N c + _; omega

theorem SavedIn.tail {M : MInfo} {N : Cls → Nat} : ∀ {ss : List Alloc.Saved} {bs : List Ctl}, SavedIn M N ss bs → SavedIn M N ss.tail bs.tail
  | [], [], _ => trivial
  | [], _ :: _, h => h.elim
  | _ :: _, [], h => h.2
  | _ :: _, _ :: _, h => h.2

theorem closeMaps_same {st st' : CS} {pc : Nat} {r : List WOp} (h : closeMaps st pc r = some st') :
    st'.alloc = st.alloc ∧ st'.saved = st.saved ∧ st'.ctrl = st.ctrl := by
  unfold closeMaps at h
  split at h
  · cases h; exact ⟨rfl, rfl, rfl⟩
  · split at h
    · cases h; exact ⟨rfl, rfl, rfl⟩
    · cases h

theorem compOp_room {K : FnCtx} {N : Cls → Nat} {st st' : CS} {o : WOp} {r r' : List WOp} (hr : GRoom K.M N st)
    (h : compOp K st o r = some (st', r')) : GRoom K.M (plus N (grows K.M o)) st' := by
  have key : ∀ {x : CS × List WOp} {N' : Cls → Nat}, some x = some (st', r') → GRoom K.M N' x.1 → GRoom K.M N' st' := by
    intro x N' hx hp; cases hx; exact hp
  have up : ∀ n, SavedIn K.M (plus N n) st.saved st.ctrl := fun n => hr.sv.mono fun c => Nat.le_add_right _ _
  have ha := hr.al
  cases o
  case localGet i =>
    simp only [compOp, compLocalGet] at h
    cases hc : K.localType i <;> rw [hc] at h <;> simp only [Option.map_some, Option.map_none, reduceCtorEq] at h
    case ref => exact key h ⟨ha.push _, up 1⟩
    all_goals
      split at h
      · exact key h ⟨ha.push _, up 1⟩
      · exact key h ⟨ha.push _, up 1⟩
  case localSet i =>
    simp only [compOp, Option.map_eq_some_iff] at h
    obtain ⟨x, hx, he⟩ := h
    cases he
    obtain ⟨e1, e2, e3⟩ := storeLocal_same hx
    refine ⟨?_, ?_⟩
    · rw [e1]; exact (ha.pop _)
    · rw [e2, e3]; exact up 0
  case localTee i =>
    simp only [compOp] at h
    split at h
    · cases h
    · simp only [Option.map_eq_some_iff] at h
      obtain ⟨x, hx, he⟩ := h
      cases he
      obtain ⟨e1, e2, e3⟩ := storeLocal_same hx
      refine ⟨?_, ?_⟩
      · rw [e1]; exact ha
      · rw [e2, e3]; exact up 0
  case globalGet g =>
    simp only [compOp] at h
    split at h
    · cases h
    · exact key h (finish_room hr.sv ha)
  case globalSet g =>
    simp only [compOp] at h
    split at h
    · cases h
    · exact key h ⟨ha.pop _, up 0⟩
  case const c v =>
    simp only [compOp, compConst, Option.map_eq_some_iff] at h
    obtain ⟨x, hx, he⟩ := h
    cases he
    split at hx
    · cases hx
    · split at hx <;> (cases hx; exact ⟨ha.push _, up 1⟩)
  case un op =>
    cases op
    case mov => simp [compOp] at h
    all_goals
      simp only [compOp] at h
      split at h
      · exact key h (finish_room hr.sv (ha.pop _))
      · exact key h (finish_room hr.sv (ha.pop _))
  case bin op => exact key h (finish_room hr.sv ((ha.pop _).pop _))
  case load op off => exact key h (finish_room hr.sv (ha.pop _))
  case store op off => exact key h ⟨(ha.pop _).pop _, up 0⟩
  case memSize => exact key h ⟨ha.push _, up 1⟩
  case memGrow => exact key h ⟨(ha.pop _).push _, up 1⟩
  case memCopy => exact key h ⟨((ha.pop _).pop _).pop _, up 0⟩
  case memInit k => exact key h ⟨((ha.pop _).pop _).pop _, up 0⟩
  case memFill => exact key h ⟨((ha.pop _).pop _).pop _, up 0⟩
  case dataDrop k => exact key h ⟨ha, up 0⟩
  case selectT c =>
    simp only [compOp] at h
    split at h
    · cases h
    · exact key h ⟨(((ha.pop _).pop _).pop _).push _, up 1⟩
  case select =>
    simp only [compOp] at h
    split at h
    · cases h
    · exact key h ⟨(((ha.pop _).pop _).pop _).push _, up 1⟩
  case refNull => exact key h ⟨ha.push _, up 1⟩
  case refIsNull => exact key h ⟨(ha.pop _).push _, up 1⟩
  case tableGet t => exact key h ⟨(ha.pop _).push _, up 1⟩
  case tableSet t => exact key h ⟨(ha.pop _).pop _, up 0⟩
  case tableFill t => exact key h ⟨((ha.pop _).pop _).pop _, up 0⟩
  case drop =>
    refine key h ⟨?_, up 0⟩
    show AIn _ (match st.alloc.popAny with | some p => p.2 | none => st.alloc)
    unfold Alloc.popAny
    cases st.alloc.types with
    | nil => exact ha
    | cons c cs => exact ha.pop c
  case other => simp [compOp] at h
  case nop => exact key h ⟨ha, up 0⟩
  case unreachable => exact key h ⟨ha, up 0⟩
  case block bt => exact key h ⟨(openBlock_room hr.sv ha bt false).al, (openBlock_room hr.sv ha bt false).sv⟩
  case loop bt => exact key h ⟨(openBlock_room hr.sv ha bt true).al, (openBlock_room hr.sv ha bt true).sv⟩
  case ite bt => exact key h ⟨(openBlock_room hr.sv (ha.pop .i32) bt false).al, (openBlock_room hr.sv (ha.pop .i32) bt false).sv⟩
  case els =>
    simp only [compOp] at h
    split at h
    · refine key h ⟨?_, up 0⟩
      show AIn (plus N 0) (elseAlloc K st)
      unfold elseAlloc
      have hv := hr.sv
      cases hs : st.saved with
      | nil =>
        rw [hs] at hv
        cases hc : st.ctrl with
        | nil => exact ha
        | cons b bs => rw [hc] at hv; exact hv.elim
      | cons s ss =>
        rw [hs] at hv
        cases hc : st.ctrl with
        | nil => rw [hc] at hv; exact ha.restore hv.1
        | cons b bs => rw [hc] at hv; exact ha.restorePush _ fun c => (hv.1 c).1
    · cases h
  case fin =>
    simp only [compOp, Option.map_eq_some_iff] at h
    obtain ⟨x, hx, he⟩ := h
    cases he
    obtain ⟨e1, e2, e3⟩ := closeMaps_same hx
    have hv := hr.sv
    refine ⟨?_, ?_⟩
    · rw [e1]
      show AIn (plus N 0) (endAlloc K st)
      unfold endAlloc
      cases hs : st.saved with
      | nil => exact ha
      | cons s ss =>
        rw [hs] at hv
        cases hc : st.ctrl with
        | nil => rw [hc] at hv; exact ha.restore hv.1
        | cons b bs => rw [hc] at hv; exact ha.restorePush _ fun c => (hv.1 c).2
    · rw [e2, e3]; exact hv.tail
  case br d => exact key h ⟨ha, up 0⟩
  case brIf d => exact key h ⟨ha.pop _, up 0⟩
  case brTable ds d => exact key h ⟨ha.pop _, up 0⟩
  case ret => exact key h ⟨ha.popAll _, up 0⟩
  case call f =>
    have hg : (K.M.callee f).2.results.length ≤ grows K.M (.call f) := by
      simp only [MInfo.callee, grows]
      cases K.M.funcs[f]? <;> exact Nat.le_refl _
    simp only [compOp] at h
    cases hc : K.M.callee f with
    | mk id t =>
      rw [hc] at h hg
      cases id with
      | some id =>
        refine key h ⟨((ha.popAll t.params.reverse).pushAll (t.results.take 1)).mono fun c => ?_, up _⟩
        have : (t.results.take 1).length ≤ t.results.length := by rw [List.length_take]; omega
        unfold plus; dsimp only at hg; omega
      | none =>
        refine key h ⟨((ha.popParams t.params.reverse).pushAll t.results).mono fun c => ?_, up _⟩
        unfold plus; dsimp only at hg; omega
  case callIndirect ty tbl =>
    simp only [compOp] at h
    split at h
    · cases h
    · refine key h ⟨(((ha.pop .i32).popParams _).pushAll _).mono fun c => ?_, up _⟩
      unfold plus grows
      dsimp only
      cases K.M.types[ty]? <;> exact Nat.le_refl _

theorem compStep_room {K : FnCtx} {N : Cls → Nat} {st st' : CS} {o : WOp} {r r' : List WOp} (hr : GRoom K.M N st)
    (h : compStep K st o r = some (st', r')) : GRoom K.M (plus N (grows K.M o)) st' := by
  unfold compStep at h
  split at h
  · exact compOp_room hr h
  · split at h
    · cases h; exact ⟨hr.al.mono fun c => Nat.le_add_right _ _, hr.sv.mono fun c => Nat.le_add_right _ _⟩
    · exact compOp_room (st := { st with dead := 0 }) ⟨hr.al, hr.sv⟩ h

theorem compRun_room {K : FnCtx} : ∀ {n : Nat} {N : Cls → Nat} {st fin : CS} {ops : List WOp}, GRoom K.M N st →
    Model.compRun K n st ops = some fin → GRoom K.M (plus N (ops.map (grows K.M)).sum) fin
  | n, N, st, fin, [], hr, h => by
    cases n <;>
    · simp only [Model.compRun] at h
      split at h
      · cases h; exact hr
      · cases h
  | 0, _, st, fin, _ :: _, _, h => by simp [Model.compRun] at h
  | n + 1, N, st, fin, op :: rest, hr, h => by
    simp only [Model.compRun] at h
    split at h
    · cases h
    · rename_i st' rest' hs
      refine (compRun_room (compStep_room hr hs) h).mono fun c => ?_
      have : (rest'.map (grows K.M)).sum ≤ (rest.map (grows K.M)).sum := by
        rcases compStep_rest hs with rfl | ⟨i, rfl⟩
        · exact Nat.le_refl _
        · rw [List.map_cons, List.sum_cons]; omega
      rw [List.map_cons, List.sum_cons]
      unfold plus
      omega

/-- the window of a compiled function: its locals and what it pushes -/
theorem compile_room {K : FnCtx} {ops : List WOp} {code : Code} {W : Cls → Nat} (h : compileFn K ops = some code)
    (ha : code.alloc = some W) (c : Cls) : W c ≤ declared K.locals c + (ops.map (grows K.M)).sum := by
  unfold compileFn at h
  split at h
  · cases h
  · rename_i st hst
    split at h
    · cases h
    · cases h
      cases ha
      have h0 : GRoom K.M (declared K.locals) (CS.init K) := ⟨⟨fun _ => Nat.le_refl _, fun _ => Nat.le_refl _⟩, trivial⟩
      exact (compRun_room h0 hst).al.max c

end Verif.Lemmas
