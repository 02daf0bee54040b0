import Verif.Lemmas.CompDead
import Verif.Spec.Windows
/-
Compiled code names only registers of the function's window and locals of the function.
-/
namespace Verif.Lemmas
open Verif.Model Verif.Spec Verif.Props

/-! ## Register indices -/

theorem mk_le (c : Cls) (d : Nat) : (Alloc.mkReg c d).idx ≤ d := Nat.mod_le _ _

theorem u16_le (i : Nat) : u16 i ≤ i := Nat.mod_le _ _

theorem AOk.pos {b : Cls → Nat} {bs ts : List Cls} {a : Alloc} {c : Cls} (h : AOk b bs a (c :: ts)) : 0 < a.depth c := by
  rw [h.depth]; simp only [dep, List.count_cons, beq_self_eq_true, if_true]; omega

theorem AOk.pop_lt {b : Cls → Nat} {bs ts : List Cls} {a : Alloc} {c : Cls} {W : Cls → Nat} (h : AOk b bs a (c :: ts))
    (hw : ∀ d, a.maxDepth d ≤ W d) : (a.pop c).1.idx < W c := by
  have h1 := h.pos
  have h2 := h.le c
  have h3 := hw c
  have h4 := mk_le c (a.depth c - 1)
  simp only [Alloc.pop]
  omega

theorem AOk.peek_some {b : Cls → Nat} {bs ts : List Cls} {a : Alloc} {c : Cls} (h : AOk b bs a (c :: ts)) :
    a.peek c = some (a.pop c).1 := by
  rw [Alloc.peek, if_pos h.pos]; rfl

theorem push_lt {a : Alloc} {c : Cls} {W : Cls → Nat} (hw : ∀ d, (a.push c).2.maxDepth d ≤ W d) : (a.push c).1.idx < W c := by
  have h1 := hw c
  have h4 := mk_le c (a.depth c)
  simp only [Alloc.push, upd_same] at h1 ⊢
  omega

theorem pushAll_lt : ∀ (x : List Cls) {a : Alloc} {W : Cls → Nat}, (∀ d, (pushAll a x).2.maxDepth d ≤ W d) →
    (∀ r ∈ (pushAll a x).1, r.idx < W r.cls) ∧ (pushAll a x).1.map (·.cls) = x
  | [], a, W, _ => ⟨by simp [pushAll], rfl⟩
  | c :: x, a, W, h => by
    simp only [pushAll] at h ⊢
    obtain ⟨h1, h2⟩ := pushAll_lt x h
    refine ⟨fun r hr => ?_, by rw [List.map_cons, h2]; rfl⟩
    rcases List.mem_cons.1 hr with rfl | hr
    · exact push_lt fun d => Nat.le_trans (max_pushAll x _ d) (h d)
    · exact h1 r hr

theorem AOk.pushAll' {b : Cls → Nat} {bs : List Cls} : ∀ (x : List Cls) {ts : List Cls} {a : Alloc}, AOk b bs a ts →
    AOk b bs (Model.pushAll a x).2 (x.reverse ++ ts)
  | [], ts, a, h => by simpa [Model.pushAll] using h
  | c :: x, ts, a, h => by
    simp only [Model.pushAll]
    rw [List.reverse_cons, List.append_assoc]
    exact AOk.pushAll' x (h.push c)

theorem AOk.popParams' {b : Cls → Nat} {bs : List Cls} {W : Cls → Nat} : ∀ (x : List Cls) {ts : List Cls} {a : Alloc}, AOk b bs a (x ++ ts) →
    (∀ d, a.maxDepth d ≤ W d) →
    AOk b bs (Model.popParams a x).2 ts ∧ (∀ r ∈ (Model.popParams a x).1, r.idx < W r.cls) ∧
      (Model.popParams a x).1.map (·.cls) = x.reverse
  | [], ts, a, h, _ => ⟨h, by simp [Model.popParams], rfl⟩
  | c :: x, ts, a, h, hw => by
    obtain ⟨h1, h2, h3⟩ := AOk.popParams' x (AOk.pop h) hw
    refine ⟨h1, ?_, ?_⟩
    · intro r hr
      simp only [Model.popParams, AOk.peek_some h, Option.toList, List.mem_append, List.mem_singleton] at hr
      rcases hr with hr | rfl
      · exact h2 r hr
      · exact AOk.pop_lt h hw
    · simp only [Model.popParams, AOk.peek_some h, Option.toList, List.map_append, h3, List.reverse_cons]
      rfl

theorem seqRegs_lt : ∀ (ts : List Cls) (f : Cls → Nat), ∀ r ∈ Alloc.seqRegs f ts, r.idx < f r.cls + ts.count r.cls
  | [], f, r, h => by simp [Alloc.seqRegs] at h
  | c :: ts, f, r, h => by
    simp only [Alloc.seqRegs, List.mem_cons] at h
    rcases h with rfl | h
    · have := mk_le c (f c)
      simp only [show (Alloc.mkReg c (f c)).cls = c from rfl, List.count_cons, beq_self_eq_true, if_true]
      omega
    · have := seqRegs_lt ts _ r h
      rw [upd_dep] at this
      simp only [dep, List.count_cons, List.count_nil] at this ⊢
      omega

theorem seqRegs_cls : ∀ (ts : List Cls) (f : Cls → Nat), (Alloc.seqRegs f ts).map (·.cls) = ts
  | [], f => rfl
  | c :: ts, f => by simp [Alloc.seqRegs, seqRegs_cls ts, Alloc.mkReg]

/-- `peek_regs_for_types` stays within the window if the window has room for the types -/
theorem peekRegs_lt {a : Alloc} {ts : List Cls} {W : Cls → Nat} (h : ∀ c, a.depth c ≤ W c) (hc : ∀ c, ts.count c ≤ W c) :
    ∀ r ∈ a.peekRegs ts, r.idx < W r.cls := by
  intro r hr
  have h1 := seqRegs_lt _ _ r hr
  have h2 := h r.cls
  have h3 := hc r.cls
  omega

theorem AOk.room {b : Cls → Nat} {bs x ts : List Cls} {a : Alloc} {W : Cls → Nat} (h : AOk b bs a (x.reverse ++ ts))
    (hw : ∀ c, a.maxDepth c ≤ W c) : (∀ c, a.depth c ≤ W c) ∧ ∀ c, x.count c ≤ W c := by
  have h1 : ∀ c, a.depth c ≤ W c := fun c => Nat.le_trans (h.le c) (hw c)
  refine ⟨h1, fun c => Nat.le_trans ?_ (h1 c)⟩
  rw [h.depth]
  simp only [dep, List.count_append, List.count_reverse]
  omega

/-! ## Instructions -/

/-- number of locals -/
def _root_.Verif.Model.FnCtx.nloc (K : FnCtx) : Nat := (localTypes K.params K.locals).length

/-- a destination within the window -/
structure DstIn (W : Cls → Nat) (nl : Nat) (c : Cls) (d : Dst) : Prop where
  regs : ∀ r ∈ d.regs c, r.idx < W r.cls
  locs : ∀ l ∈ d.locs, l < nl

/-- an operand within the window -/
structure OpndIn (W : Cls → Nat) (nl : Nat) {c : Cls} (o : Opnd c) : Prop where
  regs : ∀ r ∈ o.regs, r.idx < W r.cls
  locs : ∀ l ∈ o.locs, l < nl

/-- the locals of pending operands exist -/
def PendIn (nl : Nat) (p : List Pend) : Prop := ∀ x ∈ p, ∀ l ∈ x.opnd.locs, l < nl

theorem DstIn.reg {W : Cls → Nat} {nl : Nat} {c : Cls} {i : Nat} (h : i < W c) : DstIn W nl c (.reg i) :=
  ⟨by simpa [Dst.regs] using h, by simp [Dst.locs]⟩

theorem DstIn.loc {W : Cls → Nat} {nl : Nat} {c : Cls} {i : Nat} (h : i < nl) : DstIn W nl c (.loc i) :=
  ⟨by simp [Dst.regs], by simpa [Dst.locs] using h⟩

theorem OpndIn.reg {W : Cls → Nat} {nl : Nat} {c : Cls} {i : Nat} (h : i < W c) : OpndIn W nl (.reg i : Opnd c) :=
  ⟨by simpa [Opnd.regs] using h, by simp [Opnd.locs]⟩

theorem take_in {W : Cls → Nat} {nl : Nat} {p : List Pend} {c : Cls} {i : Nat} (hp : PendIn nl p) (h : i < W c) :
    OpndIn W nl (take p c i).1 ∧ PendIn nl (take p c i).2 := by
  unfold take
  split
  · rename_i x rest
    split
    · rename_i hx
      refine ⟨?_, fun y hy => hp y (List.mem_cons_of_mem _ hy)⟩
      subst hx
      refine ⟨?_, fun l hl => hp x (by simp) l hl⟩
      intro r hr
      cases x <;> simp [Pend.opnd, Opnd.regs] at hr
    · exact ⟨.reg h, hp⟩
  · exact ⟨.reg h, by intro y hy; simp at hy⟩

/-- calls pass as many arguments as the callee has parameters -/
def Args (M : MInfo) : Instr → Prop
  | .call f ps _ => ∃ t, M.funcs[f]? = some (none, t) ∧ ps.length = t.params.length
  | .callIndirect ty _ _ ps _ => ∃ t, M.types[ty]? = some t ∧ ps.length = t.params.length
  | _ => True

/-- The state of the preprocessor: everything emitted so far is within the window. -/
structure CWin (K : FnCtx) (W : Cls → Nat) (st : CS) : Prop where
  code : ∀ i ∈ st.code, InWindow W K.nloc i ∧ Args K.M i
  pend : PendIn K.nloc st.pend

theorem CWin.emit {K : FnCtx} {W : Cls → Nat} {st stx : CS} {i : Instr} (h : CWin K W st) (hc : stx.code = st.code ++ [i])
    (hp : PendIn K.nloc stx.pend) (hi : InWindow W K.nloc i) (hg : Args K.M i := by trivial) : CWin K W stx := by
  refine ⟨fun j hj => ?_, hp⟩
  rw [hc, List.mem_append, List.mem_singleton] at hj
  rcases hj with hj | rfl
  · exact h.code j hj
  · exact ⟨hi, hg⟩

theorem CWin.skip {K : FnCtx} {W : Cls → Nat} {st : CS} (h : CWin K W st) (n : Nat) : CWin K W (Lemmas.skip st n) := by
  refine ⟨fun j hj => ?_, h.pend⟩
  simp only [Lemmas.skip, List.mem_append, List.mem_replicate] at hj
  rcases hj with hj | ⟨_, rfl⟩
  · exact h.code j hj
  · exact ⟨⟨by simp [Instr.regs], by simp [Instr.locs]⟩, trivial⟩

/-- an operator with one result, ready to be finished -/
structure TakesW (K : FnCtx) (W : Cls → Nat) (b : Cls → Nat) (bs : List Cls) (st : CS) (rest : List WOp) (x : CS × List WOp) (dc : Cls)
    (ts0 : List Cls) : Prop where
  ex : ∃ (stx : CS) (a : Alloc) (fold : Bool) (mk : Dst → Instr), x = finish K stx a dc fold mk rest ∧
    stx.code = st.code ∧ stx.dead = st.dead ∧ PendIn K.nloc stx.pend ∧ AOk b bs a ts0 ∧
    (∀ d, DstIn W K.nloc dc d → InWindow W K.nloc (mk d) ∧ Args K.M (mk d))

theorem takesW_op {K : FnCtx} {W : Cls → Nat} {b : Cls → Nat} {bs : List Cls} {st : CS} {o : WOp} {rest : List WOp} {x : CS × List WOp}
    {ts ts1 : List Cls} (hco : consumer o = true) (ha : AOk b bs st.alloc ts) (hw : ∀ d, st.alloc.maxDepth d ≤ W d)
    (hp : PendIn K.nloc st.pend) (ht : opTy K o ts = some ts1) (hc : compOp K st o rest = some x) :
    ∃ dc ts0, ts1 = dc :: ts0 ∧ TakesW K W b bs st rest x dc ts0 := by
  cases o <;> simp only [consumer, Bool.false_eq_true] at hco
  case globalGet g =>
    simp only [opTy] at ht
    split at ht
    · rename_i c hg
      obtain ⟨r, rfl, rfl⟩ := sig_some ht
      refine ⟨c, ts, rfl, ?_⟩
      simp only [compOp, MInfo.globalType, hg, Option.getD_some] at hc
      split at hc
      · cases hc
      · rename_i d hd
        obtain ⟨rfl, _⟩ := selectBank_some hd
        simp only [Option.some.injEq] at hc
        exact ⟨⟨st, st.alloc, true, _, hc.symm, rfl, rfl, hp, ha, fun d hd => ⟨⟨hd.regs, hd.locs⟩, trivial⟩⟩⟩
    · cases ht
  case un op =>
    simp only [opTy] at ht
    obtain ⟨r, rfl, rfl⟩ := sig_some ht
    refine ⟨op.dst, r, rfl, ?_⟩
    have hm := noMov hc
    have hc' : (if takesPending op then
        some (finish K { st with pend := (take st.pend op.src (st.alloc.pop op.src).1.idx).2 } (st.alloc.pop op.src).2 op.dst (un_folds op)
          (fun d => .op1 op d (take st.pend op.src (st.alloc.pop op.src).1.idx).1) rest)
        else some (finish K st (st.alloc.pop op.src).2 op.dst true (fun d => .op1 op d (.reg (st.alloc.pop op.src).1.idx)) rest)) = some x := by
      rw [← hc]
      cases op <;> first | rfl | exact absurd rfl (hm _)
    have hr := AOk.pop_lt (ts := r) ha hw
    have key : ∀ (y : Opnd op.src), OpndIn W K.nloc y → ∀ d, DstIn W K.nloc op.dst d → InWindow W K.nloc (.op1 op d y) ∧ Args K.M (.op1 op d y) := by
      intro y hy d hd
      refine ⟨⟨fun r hr => ?_, fun l hl => ?_⟩, trivial⟩
      · rcases List.mem_append.1 hr with h | h
        · exact hd.regs r h
        · exact hy.regs r h
      · rcases List.mem_append.1 hl with h | h
        · exact hd.locs l h
        · exact hy.locs l h
    split at hc'
    · simp only [Option.some.injEq] at hc'
      obtain ⟨h1, h2⟩ := take_in hp hr
      exact ⟨⟨_, _, _, _, hc'.symm, rfl, rfl, h2, AOk.pop ha, key _ h1⟩⟩
    · simp only [Option.some.injEq] at hc'
      exact ⟨⟨_, _, _, _, hc'.symm, rfl, rfl, hp, AOk.pop ha, key _ (.reg hr)⟩⟩
  case bin op =>
    simp only [opTy] at ht
    obtain ⟨r, rfl, rfl⟩ := sig_some ht
    refine ⟨op.dst, r, rfl, ?_⟩
    have hr2 := AOk.pop_lt (ts := op.src :: r) ha hw
    have ha1 := AOk.pop (ts := op.src :: r) ha
    have hr1 := AOk.pop_lt (ts := r) ha1 hw
    have ha0 := AOk.pop (ts := r) ha1
    simp only [compOp, Option.some.injEq] at hc
    obtain ⟨h1, h2⟩ := take_in hp hr2
    obtain ⟨h3, h4⟩ := take_in h2 hr1
    refine ⟨⟨_, _, _, _, hc.symm, rfl, rfl, h4, ha0, fun d hd => ⟨⟨fun r hr => ?_, fun l hl => ?_⟩, trivial⟩⟩⟩
    · simp only [Instr.regs, List.mem_append] at hr
      rcases hr with (h | h) | h
      · exact hd.regs r h
      · exact h3.regs r h
      · exact h1.regs r h
    · simp only [Instr.locs, List.mem_append] at hl
      rcases hl with (h | h) | h
      · exact hd.locs l h
      · exact h3.locs l h
      · exact h1.locs l h
  case load op off =>
    simp only [opTy] at ht
    obtain ⟨r, rfl, rfl⟩ := sig_some ht
    refine ⟨op.cls, r, rfl, ?_⟩
    have hr := AOk.pop_lt (ts := r) ha hw
    simp only [compOp, Option.some.injEq] at hc
    obtain ⟨h1, h2⟩ := take_in hp hr
    refine ⟨⟨_, _, _, _, hc.symm, rfl, rfl, h2, AOk.pop ha, fun d hd => ⟨⟨fun r hr => ?_, fun l hl => ?_⟩, trivial⟩⟩⟩
    · simp only [Instr.regs, List.mem_append] at hr
      rcases hr with h | h
      · exact hd.regs r h
      · exact h1.regs r h
    · simp only [Instr.locs, List.mem_append] at hl
      rcases hl with h | h
      · exact hd.locs l h
      · exact h1.locs l h

theorem takesW_live {K : FnCtx} {W : Cls → Nat} {b : Cls → Nat} {bs : List Cls} {st st1 : CS} {rest : List WOp} {ts0 : List Cls} {dc : Cls}
    (hW : CWin K W st) (hw : ∀ d, st1.alloc.maxDepth d ≤ W d) (h : TakesW K W b bs st rest (st1, rest) dc ts0) :
    CWin K W st1 ∧ AOk b bs st1.alloc (dc :: ts0) ∧ st1.dead = st.dead := by
  obtain ⟨stx, a, fold, mk, hx, h1, h2, h3, h4, h5⟩ := h.ex
  have e := finish_live hx.symm
  subst e
  refine ⟨hW.emit (by simp [CS.emit, h1]) h3 (h5 _ (.reg (push_lt hw))).1 (h5 _ (.reg (push_lt hw))).2, h4.push dc, h2⟩

theorem takesW_fused {K : FnCtx} {W : Cls → Nat} {b : Cls → Nat} {bs : List Cls} {st st1 : CS} {r : List WOp} {ts0 ts2 : List Cls} {dc : Cls} {i : Nat}
    (hW : CWin K W st) (ht : opTy K (.localSet i) (dc :: ts0) = some ts2)
    (h : TakesW K W b bs st (.localSet i :: r) (st1, r) dc ts0) :
    CWin K W st1 ∧ AOk b bs st1.alloc ts2 ∧ st1.dead = st.dead := by
  obtain ⟨stx, a, fold, mk, hx, h1, h2, h3, h4, h5⟩ := h.ex
  obtain ⟨e0, e⟩ := finish_fused hx.symm
  simp only [opTy] at ht
  split at ht
  · rename_i c hl
    obtain ⟨r, hr, rfl⟩ := sig_some ht
    simp only [List.reverse_singleton, List.singleton_append, List.cons.injEq] at hr
    obtain ⟨rfl, rfl⟩ := hr
    have hlt : FnCtx.lty K i = some dc := hl
    subst e
    refine ⟨hW.emit (by simp [CS.emit, h1]) h3 (h5 _ (.loc (Nat.lt_of_le_of_lt (u16_le i) (lty_type hlt).2))).1 (h5 _ (.loc (Nat.lt_of_le_of_lt (u16_le i) (lty_type hlt).2))).2, (h4.push dc).pop, h2⟩
  · cases ht

/-- the open brackets: their result registers fit the labels -/
def CtxIn (L : List (List Cls)) (ctrl : List Ctl) (W : Cls → Nat) : Prop :=
  ∀ (d : Nat) (ct : Ctl), ctrl[d]? = some ct → ∃ lt, L[d]? = some lt ∧ (ct.isLoop = false → ct.resultRegs.map (·.cls) = lt) ∧
    ∀ r ∈ ct.resultRegs, r.idx < W r.cls

theorem labelOk_some {L : List (List Cls)} {ts lt : List Cls} {d : Nat} (h : labelOk L ts d = true) (hl : L[d]? = some lt) :
    ∃ r, ts = lt.reverse ++ r := by
  rw [labelOk, hl] at h
  obtain ⟨r, hr⟩ := Option.isSome_iff_exists.1 h
  exact ⟨r, popTys_some hr⟩

theorem branchRegs_tgt {L : List (List Cls)} {W : Cls → Nat} {st : CS} {d : Nat} (hx : CtxIn L st.ctrl W) :
    ∀ r ∈ (branchRegs st d).2, r.idx < W r.cls := by
  intro r hr
  unfold branchRegs at hr
  split at hr
  · simp at hr
  · rename_i ct hct
    obtain ⟨lt, _, _, h⟩ := hx d ct hct
    dsimp only at hr
    split at hr
    · simp at hr
    · exact h r hr

theorem branchRegs_src {L : List (List Cls)} {W : Cls → Nat} {b : Cls → Nat} {bs ts : List Cls} {st : CS} {d : Nat} (hx : CtxIn L st.ctrl W)
    (ha : AOk b bs st.alloc ts) (hw : ∀ c, st.alloc.maxDepth c ≤ W c) (hl : labelOk L ts d = true) :
    ∀ r ∈ (branchRegs st d).1, r.idx < W r.cls := by
  intro r hr
  unfold branchRegs at hr
  split at hr
  · simp at hr
  · rename_i ct hct
    obtain ⟨lt, h1, h2, h3⟩ := hx d ct hct
    dsimp only at hr
    split at hr
    · simp at hr
    · rename_i hlp
      have h2 := h2 (by simpa using hlp)
      rw [List.mem_iff_getElem] at hr
      obtain ⟨i, hi, rfl⟩ := hr
      simp only [List.length_mapIdx] at hi
      simp only [List.getElem_mapIdx]
      have hmem : ct.resultRegs[i].cls ∈ lt := by
        rw [← h2]; exact List.mem_map_of_mem (List.getElem_mem hi)
      obtain ⟨r', rfl⟩ := labelOk_some hl h1
      have hd : 0 < st.alloc.depth ct.resultRegs[i].cls := by
        rw [ha.depth]
        have := List.count_pos_iff.2 hmem
        simp only [dep, List.count_append, List.count_reverse]
        omega
      have h4 := mk_le ct.resultRegs[i].cls (st.alloc.depth ct.resultRegs[i].cls - (ct.resultRegs.length - i))
      have h5 := ha.le ct.resultRegs[i].cls
      have h6 := hw ct.resultRegs[i].cls
      show (Alloc.mkReg _ _).idx < W ct.resultRegs[i].cls
      omega

/-- Facts about the module the proof needs. -/
structure Hosts (M : MInfo) : Prop where
  one : ∀ (f id : Nat) (t : FuncType), M.funcs[f]? = some (some id, t) → t.results.length ≤ 1

theorem storeLocal_win {K : FnCtx} {W : Cls → Nat} {st stx st1 : CS} {c : Cls} {src i : Nat} (hW : CWin K W st) (hc : stx.code = st.code)
    (hp : stx.pend = st.pend) (hs : src < W c) (hi : i < K.nloc) (h : storeLocal stx c src i = some st1) :
    CWin K W st1 ∧ st1.alloc = stx.alloc ∧ st1.dead = stx.dead := by
  have hu : u16 i < K.nloc := Nat.lt_of_le_of_lt (u16_le i) hi
  have hpp : PendIn K.nloc stx.pend := by rw [hp]; exact hW.pend
  cases c <;> simp only [storeLocal, Option.some.injEq, reduceCtorEq] at h <;> subst h <;>
    exact ⟨hW.emit (congrArg (· ++ [_]) hc) hpp ⟨by simpa [Instr.regs, Dst.regs, Opnd.regs] using hs, by simpa [Instr.locs, Dst.locs, Opnd.locs] using hu⟩, rfl, rfl⟩

/-- One operator of reachable code. -/
theorem op_win {K : FnCtx} {W : Cls → Nat} {b : Cls → Nat} {bs ts : List Cls} {L : List (List Cls)} {st st1 : CS} {o : WOp} {rest : List WOp}
    {τ : Option (List Cls)} (hh : Hosts K.M) (hb : isBracket o = false) (hn : o ≠ .selectT .ref) (hW : CWin K W st)
    (ha : AOk b bs st.alloc ts) (hx : CtxIn L st.ctrl W) (hw1 : ∀ c, st1.alloc.maxDepth c ≤ W c)
    (ht : stepTy K L o ts = some τ) (hc : compOp K st o rest = some (st1, rest)) :
    CWin K W st1 ∧ (τ = none → st1.dead = 1 ∧ ∃ ts', AOk b bs st1.alloc ts') ∧ (∀ t, τ = some t → AOk b bs st1.alloc t ∧ st1.dead = st.dead) := by
  have hw : ∀ c, st.alloc.maxDepth c ≤ W c := fun c => Nat.le_trans (compOp_max hc c) (hw1 c)
  by_cases hco : consumer o = true
  · have ht' : ∃ ts1, τ = some ts1 ∧ opTy K o ts = some ts1 := by
      cases o <;> simp only [consumer, Bool.false_eq_true] at hco <;>
        simp only [stepTy, Option.map_eq_some_iff] at ht <;> obtain ⟨t, h1, rfl⟩ := ht <;> exact ⟨t, rfl, h1⟩
    obtain ⟨ts1, rfl, ht'⟩ := ht'
    obtain ⟨dc, ts0, rfl, h⟩ := takesW_op hco ha hw hW.pend ht' hc
    obtain ⟨h1, h2, h3⟩ := takesW_live hW hw1 h
    exact ⟨h1, (nomatch ·), fun t e => by cases e; exact ⟨h2, h3⟩⟩
  have fin : ∀ {ts1 : List Cls}, τ = some ts1 → CWin K W st1 → AOk b bs st1.alloc ts1 → st1.dead = st.dead →
      CWin K W st1 ∧ (τ = none → st1.dead = 1 ∧ ∃ ts', AOk b bs st1.alloc ts') ∧ (∀ t, τ = some t → AOk b bs st1.alloc t ∧ st1.dead = st.dead) := by
    intro ts1 e h1 h2 h3
    subst e
    exact ⟨h1, (nomatch ·), fun t e => by cases e; exact ⟨h2, h3⟩⟩
  cases o <;> simp only [isBracket, reduceCtorEq, Bool.true_eq_false] at hb <;> try simp only [consumer, not_true_eq_false] at hco
  case localGet i =>
    simp only [stepTy, Option.map_eq_some_iff, opTy] at ht
    obtain ⟨t, ht, rfl⟩ := ht
    split at ht
    case h_2 => cases ht
    rename_i c hl
    obtain ⟨r, rfl, rfl⟩ := sig_some ht
    obtain ⟨hlc, hlen⟩ := lty_type (K := K) hl
    have hu : u16 i < K.nloc := Nat.lt_of_le_of_lt (u16_le i) hlen
    simp only [compOp, Option.map_eq_some_iff] at hc
    obtain ⟨y, hy, he⟩ := hc
    cases he
    unfold compLocalGet at hy
    rw [hlc] at hy
    cases c <;> simp only [Option.some.injEq, reduceCtorEq] at hy
    case ref =>
      subst hy
      exact fin rfl (hW.emit rfl hW.pend ⟨by simpa [Instr.regs] using push_lt hw1, by simpa [Instr.locs] using hu⟩) (ha.push _) rfl
    all_goals
      split at hy
      · cases hy
        refine fin rfl ⟨hW.code, ?_⟩ (ha.push _) rfl
        intro x hx
        rcases List.mem_cons.1 hx with rfl | hx
        · simpa [Pend.opnd, Opnd.locs] using hu
        · exact hW.pend x hx
      · cases hy
        exact fin rfl (hW.emit rfl hW.pend ⟨by simpa [Instr.regs, Dst.regs, Opnd.regs, Op1.dst] using push_lt hw1,
          by simpa [Instr.locs, Opnd.locs, Dst.locs] using hu⟩) (ha.push _) rfl
  case localSet i =>
    simp only [stepTy, Option.map_eq_some_iff, opTy] at ht
    obtain ⟨t, ht, rfl⟩ := ht
    split at ht
    case h_2 => cases ht
    rename_i c hl
    obtain ⟨r, rfl, e⟩ := sig_some ht
    have e : r = t := e.symm
    subst e
    obtain ⟨hlc, hlen⟩ := lty_type (K := K) hl
    simp only [compOp, hlc, Option.map_eq_some_iff] at hc
    obtain ⟨y, hy, he⟩ := hc
    cases he
    obtain ⟨h1, h2, h3⟩ := storeLocal_win (stx := { st with alloc := (st.alloc.pop c).2 }) hW rfl rfl (AOk.pop_lt (ts := r) ha hw) hlen hy
    exact fin rfl h1 (by rw [h2]; exact AOk.pop ha) h3
  case localTee i =>
    simp only [stepTy, Option.map_eq_some_iff, opTy] at ht
    obtain ⟨t, ht, rfl⟩ := ht
    split at ht
    case h_2 => cases ht
    rename_i c hl
    obtain ⟨r, rfl, rfl⟩ := sig_some ht
    obtain ⟨hlc, hlen⟩ := lty_type (K := K) hl
    simp only [compOp, hlc] at hc
    rw [AOk.peek_some (ts := r) ha] at hc
    simp only [Option.map_eq_some_iff] at hc
    obtain ⟨y, hy, he⟩ := hc
    cases he
    obtain ⟨h1, h2, h3⟩ := storeLocal_win hW rfl rfl (AOk.pop_lt (ts := r) ha hw) hlen hy
    exact fin rfl h1 (by rw [h2]; exact ha) h3
  case globalSet g =>
    simp only [stepTy, Option.map_eq_some_iff, opTy] at ht
    obtain ⟨t, ht, rfl⟩ := ht
    split at ht
    case h_2 => cases ht
    rename_i c hg
    obtain ⟨r, rfl, e⟩ := sig_some ht
    have e : r = t := e.symm
    subst e
    simp only [compOp, MInfo.globalType, hg, Option.getD_some] at hc
    split at hc
    · cases hc
    · rename_i d hd
      obtain ⟨rfl, _⟩ := selectBank_some hd
      cases hc
      have hr := AOk.pop_lt (ts := r) ha hw
      obtain ⟨h1, h2⟩ := take_in hW.pend hr
      refine fin rfl (hW.emit rfl h2 ?_) (AOk.pop ha) rfl
      generalize (take st.pend d (st.alloc.pop d).1.idx).1 = y at h1
      cases y with
      | reg j => exact ⟨by simpa [Instr.regs, globalSrc, Dst.regs] using hr, by simp [Instr.locs, globalSrc, Dst.locs]⟩
      | const v => exact ⟨by simpa [Instr.regs, globalSrc, Dst.regs] using hr, by simp [Instr.locs, globalSrc, Dst.locs]⟩
      | param j => exact ⟨by simp [Instr.regs, globalSrc, Dst.regs], h1.locs⟩
  case const c v =>
    simp only [stepTy, Option.map_eq_some_iff, opTy] at ht
    obtain ⟨t, ht, rfl⟩ := ht
    obtain ⟨r, rfl, rfl⟩ := sig_some ht
    simp only [compOp, compConst, Option.map_eq_some_iff] at hc
    obtain ⟨y, hy, he⟩ := hc
    cases he
    split at hy
    · cases hy
    · split at hy
      · cases hy
        refine fin rfl ⟨hW.code, ?_⟩ (ha.push _) rfl
        intro x hx
        rcases List.mem_cons.1 hx with rfl | hx
        · simp [Pend.opnd, Opnd.locs]
        · exact hW.pend x hx
      · cases hy
        exact fin rfl (hW.emit rfl hW.pend ⟨by simpa [Instr.regs, Dst.regs, Opnd.regs, Op1.dst] using push_lt hw1,
          by simp [Instr.locs, Opnd.locs, Dst.locs]⟩) (ha.push _) rfl
  case store op off =>
    simp only [stepTy, Option.map_eq_some_iff, opTy] at ht
    obtain ⟨t, ht, rfl⟩ := ht
    obtain ⟨r, rfl, e⟩ := sig_some ht
    have e : r = t := e.symm
    subst e
    cases hc
    have hv := AOk.pop_lt (ts := .i32 :: r) ha hw
    have ha1 := AOk.pop (ts := .i32 :: r) ha
    have hr := AOk.pop_lt (ts := r) ha1 hw
    obtain ⟨h1, h2⟩ := take_in hW.pend hr
    refine fin rfl (hW.emit rfl h2 ⟨fun x hx => ?_, h1.locs⟩) (AOk.pop ha1) rfl
    simp only [Instr.regs, List.mem_append, List.mem_singleton] at hx
    rcases hx with h | rfl
    · exact h1.regs x h
    · exact hv
  case memSize =>
    simp only [stepTy, Option.map_eq_some_iff, opTy] at ht
    obtain ⟨t, ht, rfl⟩ := ht
    obtain ⟨r, rfl, rfl⟩ := sig_some ht
    cases hc
    exact fin rfl (hW.emit rfl hW.pend ⟨by simpa [Instr.regs] using push_lt hw1, by simp [Instr.locs]⟩) (ha.push _) rfl
  case memGrow =>
    simp only [stepTy, Option.map_eq_some_iff, opTy] at ht
    obtain ⟨t, ht, rfl⟩ := ht
    obtain ⟨r, rfl, rfl⟩ := sig_some ht
    cases hc
    have h1 := AOk.pop_lt (ts := r) ha hw
    exact fin rfl (hW.emit rfl hW.pend ⟨by simpa [Instr.regs] using ⟨push_lt hw1, h1⟩, by simp [Instr.locs]⟩) ((AOk.pop ha).push _) rfl
  case memCopy => 
    simp only [stepTy, Option.map_eq_some_iff, opTy] at ht
    obtain ⟨t, ht, rfl⟩ := ht
    obtain ⟨r, rfl, e⟩ := sig_some ht
    have e : r = t := e.symm
    subst e
    cases hc
    have h1 := AOk.pop_lt (ts := .i32 :: .i32 :: r) ha hw
    have a1 := AOk.pop (ts := .i32 :: .i32 :: r) ha
    have h2 := AOk.pop_lt (ts := .i32 :: r) a1 hw
    have a2 := AOk.pop (ts := .i32 :: r) a1
    have h3 := AOk.pop_lt (ts := r) a2 hw
    exact fin rfl (hW.emit rfl hW.pend ⟨by simpa [Instr.regs] using ⟨h3, h2, h1⟩, by simp [Instr.locs]⟩) (AOk.pop a2) rfl
  case memInit =>
    simp only [stepTy, Option.map_eq_some_iff, opTy] at ht
    obtain ⟨t, ht, rfl⟩ := ht
    obtain ⟨r, rfl, e⟩ := sig_some ht
    have e : r = t := e.symm
    subst e
    cases hc
    have h1 := AOk.pop_lt (ts := .i32 :: .i32 :: r) ha hw
    have a1 := AOk.pop (ts := .i32 :: .i32 :: r) ha
    have h2 := AOk.pop_lt (ts := .i32 :: r) a1 hw
    have a2 := AOk.pop (ts := .i32 :: r) a1
    have h3 := AOk.pop_lt (ts := r) a2 hw
    exact fin rfl (hW.emit rfl hW.pend ⟨by simpa [Instr.regs] using ⟨h3, h2, h1⟩, by simp [Instr.locs]⟩) (AOk.pop a2) rfl
  case memFill =>
    simp only [stepTy, Option.map_eq_some_iff, opTy] at ht
    obtain ⟨t, ht, rfl⟩ := ht
    obtain ⟨r, rfl, e⟩ := sig_some ht
    have e : r = t := e.symm
    subst e
    cases hc
    have h1 := AOk.pop_lt (ts := .i32 :: .i32 :: r) ha hw
    have a1 := AOk.pop (ts := .i32 :: .i32 :: r) ha
    have h2 := AOk.pop_lt (ts := .i32 :: r) a1 hw
    have a2 := AOk.pop (ts := .i32 :: r) a1
    have h3 := AOk.pop_lt (ts := r) a2 hw
    exact fin rfl (hW.emit rfl hW.pend ⟨by simpa [Instr.regs] using ⟨h3, h2, h1⟩, by simp [Instr.locs]⟩) (AOk.pop a2) rfl
  case dataDrop k =>
    simp only [stepTy, Option.map_eq_some_iff, opTy] at ht
    obtain ⟨t, ht, rfl⟩ := ht
    cases ht
    cases hc
    exact fin rfl (hW.emit rfl hW.pend ⟨by simp [Instr.regs], by simp [Instr.locs]⟩) ha rfl
  case selectT c =>
    simp only [stepTy, Option.map_eq_some_iff, opTy] at ht
    obtain ⟨t, ht, rfl⟩ := ht
    obtain ⟨r, rfl, rfl⟩ := sig_some ht
    simp only [compOp] at hc
    split at hc
    · cases hc
    · rename_i bk hbk
      have hbk : bk = c := by
        cases c <;> simp [selectBankT, selectBank] at hbk <;> first | exact hbk.symm | exact absurd rfl hn
      subst hbk
      cases hc
      have h1 := AOk.pop_lt (ts := bk :: bk :: r) ha hw
      have a1 := AOk.pop (ts := bk :: bk :: r) ha
      have h2 := AOk.pop_lt (ts := bk :: r) a1 hw
      have a2 := AOk.pop (ts := bk :: r) a1
      have h3 := AOk.pop_lt (ts := r) a2 hw
      exact fin rfl (hW.emit rfl hW.pend ⟨by simpa [Instr.regs] using ⟨push_lt hw1, h3, h2, h1⟩, by simp [Instr.locs]⟩) ((AOk.pop a2).push _) rfl
  case select =>
    simp only [stepTy, Option.map_eq_some_iff, opTy] at ht
    obtain ⟨t, ht, rfl⟩ := ht
    split at ht
    case h_2 => cases ht
    rename_i c d r
    split at ht
    case isFalse => cases ht
    rename_i hcd
    obtain ⟨rfl, hnum⟩ := hcd
    cases ht
    have a1 := AOk.pop ha
    have hpt : ((st.alloc.pop .i32).2.peekType).getD .i32 = c := by simp [Alloc.peekType, a1.types]
    simp only [compOp, hpt, (selectBankT_num hnum).2] at hc
    cases hc
    have h1 := AOk.pop_lt ha hw
    have h2 := AOk.pop_lt a1 hw
    have a2 := AOk.pop a1
    have h3 := AOk.pop_lt a2 hw
    exact fin rfl (hW.emit rfl hW.pend ⟨by simpa [Instr.regs] using ⟨push_lt hw1, h3, h2, h1⟩, by simp [Instr.locs]⟩) ((AOk.pop a2).push _) rfl
  case refNull =>
    simp only [stepTy, Option.map_eq_some_iff, opTy] at ht
    obtain ⟨t, ht, rfl⟩ := ht
    obtain ⟨r, rfl, rfl⟩ := sig_some ht
    cases hc
    exact fin rfl (hW.emit rfl hW.pend ⟨by simpa [Instr.regs] using push_lt hw1, by simp [Instr.locs]⟩) (ha.push _) rfl
  case refIsNull =>
    simp only [stepTy, Option.map_eq_some_iff, opTy] at ht
    obtain ⟨t, ht, rfl⟩ := ht
    obtain ⟨r, rfl, rfl⟩ := sig_some ht
    cases hc
    have h1 := AOk.pop_lt (ts := r) ha hw
    exact fin rfl (hW.emit rfl hW.pend ⟨by simpa [Instr.regs] using ⟨push_lt hw1, h1⟩, by simp [Instr.locs]⟩) ((AOk.pop ha).push _) rfl
  case tableGet =>
    simp only [stepTy, Option.map_eq_some_iff, opTy] at ht
    obtain ⟨t, ht, rfl⟩ := ht
    obtain ⟨r, rfl, rfl⟩ := sig_some ht
    cases hc
    have h1 := AOk.pop_lt (ts := r) ha hw
    exact fin rfl (hW.emit rfl hW.pend ⟨by simpa [Instr.regs] using ⟨push_lt hw1, h1⟩, by simp [Instr.locs]⟩) ((AOk.pop ha).push _) rfl
  case tableSet =>
    simp only [stepTy, Option.map_eq_some_iff, opTy] at ht
    obtain ⟨t, ht, rfl⟩ := ht
    obtain ⟨r, rfl, e⟩ := sig_some ht
    have e : r = t := e.symm
    subst e
    cases hc
    have h1 := AOk.pop_lt (ts := .i32 :: r) ha hw
    have a1 := AOk.pop (ts := .i32 :: r) ha
    have h2 := AOk.pop_lt (ts := r) a1 hw
    exact fin rfl (hW.emit rfl hW.pend ⟨by simpa [Instr.regs] using ⟨h2, h1⟩, by simp [Instr.locs]⟩) (AOk.pop a1) rfl
  case tableFill =>
    simp only [stepTy, Option.map_eq_some_iff, opTy] at ht
    obtain ⟨t, ht, rfl⟩ := ht
    obtain ⟨r, rfl, e⟩ := sig_some ht
    have e : r = t := e.symm
    subst e
    cases hc
    have h1 := AOk.pop_lt (ts := .ref :: .i32 :: r) ha hw
    have a1 := AOk.pop (ts := .ref :: .i32 :: r) ha
    have h2 := AOk.pop_lt (ts := .i32 :: r) a1 hw
    have a2 := AOk.pop (ts := .i32 :: r) a1
    have h3 := AOk.pop_lt (ts := r) a2 hw
    exact fin rfl (hW.emit rfl hW.pend ⟨by simpa [Instr.regs] using ⟨h3, h2, h1⟩, by simp [Instr.locs]⟩) (AOk.pop a2) rfl
  case drop =>
    simp only [stepTy, Option.map_eq_some_iff, opTy] at ht
    obtain ⟨t, ht, rfl⟩ := ht
    split at ht
    case h_2 => cases ht
    rename_i c r
    cases ht
    have e : st.alloc.popAny = some (st.alloc.pop c) := by simp [Alloc.popAny, ha.types]
    simp only [compOp, e] at hc
    cases hc
    exact fin rfl ⟨hW.code, hW.pend⟩ (AOk.pop ha) rfl
  case other => simp [compOp] at hc
  case nop =>
    simp only [stepTy, Option.map_eq_some_iff, opTy] at ht
    obtain ⟨t, ht, rfl⟩ := ht
    cases ht
    cases hc
    exact fin rfl hW ha rfl
  case unreachable =>
    simp only [stepTy, Option.some.injEq] at ht
    subst ht
    cases hc
    exact ⟨hW.emit rfl hW.pend ⟨by simp [Instr.regs], by simp [Instr.locs]⟩, fun _ => ⟨rfl, ts, ha⟩, fun _ h => nomatch h⟩
  case br d =>
    simp only [stepTy] at ht
    split at ht
    case isFalse => cases ht
    rename_i hlab
    cases ht
    cases hc
    refine ⟨hW.emit rfl hW.pend ⟨fun r hr => ?_, by simp [Instr.locs]⟩, fun _ => ⟨rfl, ts, ha⟩, fun _ h => nomatch h⟩
    rcases List.mem_append.1 hr with h | h
    · exact branchRegs_src hx ha hw hlab r h
    · exact branchRegs_tgt hx r h
  case brIf d =>
    simp only [stepTy] at ht
    split at ht
    case h_2 => cases ht
    rename_i r0 hr0
    have hts : ts = .i32 :: r0 := popTys_some hr0
    subst hts
    split at ht
    case isFalse => cases ht
    rename_i hlab
    cases ht
    simp only [compOp, AOk.peek_some ha, Option.getD_some] at hc
    cases hc
    have a1 := AOk.pop ha
    refine fin rfl (hW.emit rfl hW.pend ⟨fun r hr => ?_, by simp [Instr.locs]⟩) a1 rfl
    simp only [Instr.regs, List.mem_cons, List.mem_append] at hr
    rcases hr with rfl | h | h
    · exact AOk.pop_lt ha hw
    · exact branchRegs_src (L := L) (st := { st with alloc := (st.alloc.pop .i32).2 }) hx a1 hw hlab r h
    · exact branchRegs_tgt (L := L) (st := { st with alloc := (st.alloc.pop .i32).2 }) hx r h
  case brTable ds d =>
    simp only [stepTy] at ht
    split at ht
    case h_2 => cases ht
    rename_i r0 hr0
    have hts : ts = .i32 :: r0 := popTys_some hr0
    subst hts
    split at ht
    case isFalse => cases ht
    rename_i hall
    cases ht
    simp only [compOp, AOk.peek_some ha, Option.getD_some] at hc
    cases hc
    have a1 := AOk.pop ha
    have hlab : labelOk L r0 d = true := by
      have := List.all_eq_true.1 hall d (by simp)
      simp only [Bool.and_eq_true] at this
      exact this.1
    refine ⟨hW.emit rfl hW.pend ⟨fun r hr => ?_, by simp [Instr.locs]⟩, fun _ => ⟨rfl, _, a1⟩, fun _ h => nomatch h⟩
    simp only [Instr.regs, List.mem_cons, List.mem_append, List.mem_flatMap, List.mem_map] at hr
    rcases hr with rfl | (h | h) | ⟨x, ⟨k, _, rfl⟩, h⟩
    · exact AOk.pop_lt ha hw
    · exact branchRegs_src (L := L) (st := { st with alloc := (st.alloc.pop .i32).2 }) hx a1 hw hlab r h
    · exact branchRegs_tgt (L := L) (st := { st with alloc := (st.alloc.pop .i32).2 }) hx r h
    · exact branchRegs_tgt (L := L) (st := { st with alloc := (st.alloc.pop .i32).2 }) hx r h
  case ret =>
    simp only [stepTy] at ht
    split at ht
    case isFalse => cases ht
    rename_i hr
    obtain ⟨r, hr⟩ := Option.isSome_iff_exists.1 hr
    have hts := popTys_some hr
    subst hts
    cases ht
    cases hc
    obtain ⟨g1, g2⟩ := AOk.room ha hw
    exact ⟨hW.emit rfl hW.pend ⟨peekRegs_lt g1 g2, by simp [Instr.locs]⟩, fun _ => ⟨rfl, r, AOk.popAll _ ha⟩, fun _ h => nomatch h⟩
  case call f =>
    simp only [stepTy, Option.map_eq_some_iff, opTy] at ht
    obtain ⟨t, ht, rfl⟩ := ht
    split at ht
    case h_2 => cases ht
    rename_i id ft hf
    obtain ⟨r, rfl, rfl⟩ := sig_some ht
    simp only [compOp, MInfo.callee, hf, Option.getD_some] at hc
    cases id with
    | some id =>
      dsimp only at hc
      have ht1 : ft.results.take 1 = ft.results := List.take_of_length_le (hh.one f id ft hf)
      rw [ht1] at hc
      cases hc
      obtain ⟨g1, g2⟩ := AOk.room ha hw
      obtain ⟨p1, p2⟩ := pushAll_lt ft.results hw1
      refine fin rfl (hW.emit rfl hW.pend ⟨fun x hx => ?_, by simp [Instr.locs]⟩) (AOk.pushAll' _ (AOk.popAll _ ha)) rfl
      rcases List.mem_append.1 hx with h | h
      · exact peekRegs_lt g1 g2 x h
      · refine p1 x ?_
        cases hq : (pushAll (popAll st.alloc ft.params.reverse) ft.results).1 with
        | nil => rw [hq] at h; simp at h
        | cons y ys => rw [hq] at h; simp at h; simp [h]
    | none =>
      dsimp only at hc
      cases hc
      obtain ⟨g1, g2, g3⟩ := AOk.popParams' _ ha hw
      obtain ⟨p1, p2⟩ := pushAll_lt ft.results hw1
      refine fin rfl (hW.emit rfl hW.pend ⟨fun x hx => ?_, by simp [Instr.locs]⟩
        ⟨ft, hf, by have := congrArg List.length g3; simpa using this⟩) (AOk.pushAll' _ g1) rfl
      rcases List.mem_append.1 hx with h | h
      · exact g2 x h
      · exact p1 x h
  case callIndirect ty tbl =>
    simp only [stepTy, Option.map_eq_some_iff, opTy] at ht
    obtain ⟨t, ht, rfl⟩ := ht
    split at ht
    case h_2 => cases ht
    rename_i ft hf
    obtain ⟨r, hts, rfl⟩ := sig_some ht
    rw [List.reverse_append] at hts
    have hts : ts = .i32 :: (ft.params.reverse ++ r) := hts
    subst hts
    simp only [compOp, AOk.peek_some ha, hf] at hc
    cases hc
    have a1 := AOk.pop ha
    obtain ⟨g1, g2, g3⟩ := AOk.popParams' _ a1 hw
    obtain ⟨p1, p2⟩ := pushAll_lt ft.results hw1
    refine fin rfl (hW.emit rfl hW.pend ⟨fun x hx => ?_, by simp [Instr.locs]⟩
      ⟨ft, hf, by have := congrArg List.length g3; simpa using this⟩) (AOk.pushAll' _ g1) rfl
    simp only [Instr.regs, List.mem_cons, List.mem_append] at hx
    rcases hx with rfl | h | h
    · exact AOk.pop_lt ha hw
    · exact g2 x h
    · exact p1 x h

end Verif.Lemmas
