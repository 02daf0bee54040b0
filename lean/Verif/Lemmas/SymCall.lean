import Verif.Lemmas.SymFlow
/-
Symbolic code does what the source means: calls, and the whole simulation.
-/
namespace Verif.Lemmas
open Verif.Model Verif.Spec Verif.Props

variable {S : Wasi}

/-- the program the machine runs is symbolic code for the source module -/
structure Linked (S : Wasi) (E : Env) (Q : SProg) (M : MInfo) : Prop where
  H : E.H = Q.H
  types : E.P.types = Q.types
  mtypes : M.types = Q.types
  missing : ∀ f : Nat, Q.funcs[f]? = none → E.P.funcs[f]? = none ∧ M.funcs[f]? = none
  wasm : ∀ (f : Nat) t ls b, Q.funcs[f]? = some (.wasm t ls b) → M.funcs[f]? = some (none, t) ∧
    callLocals ls = .ok (declLocals ls) ∧ t.results.length ≤ 8 ∧
    ∃ body W, E.P.funcs[f]? = some (.runtime t ⟨ls, body, some W⟩) ∧ SymFn ⟨M, t.params, ls, t.results⟩ body W b
  wasi : ∀ (f : Nat) t id, Q.funcs[f]? = some (.wasi t id) → M.funcs[f]? = some (some id, t) ∧
    E.P.funcs[f]? = some (.wasi t id) ∧ E.hasWasi = true ∧ t.results.length ≤ 1 ∧
    ∀ args m w (r : Option Val) m' w', args.map (·.cls) = t.params → S.call id args m w = .ok (some r, m', w') →
      r.toList.map (·.cls) = t.results

theorem declLocals_cls (ls : List (Nat × Cls)) :
    (declLocals ls).map (·.cls) = ls.flatMap fun p => List.replicate p.1 p.2 := by
  simp [declLocals, List.map_flatMap, Cls.zeroVal]

/-- entering a function -/
theorem Rel.enter {cx : Cx S} (ok : CxOk cx) (lk : Linked S cx.E cx.Q cx.K.M) {Γ : List Lab} {pc : Nat} {os : List SOp}
    {stk : List Val} {vsegs : List (List Val)} {s : SSt S.W} {c : Conf S} (h : Rel cx Γ pc os stk vsegs s c) {i : Instr}
    {f : Nat} {args : List Val} {rs : List Reg} {t : FuncType} {ls : List (Nat × Cls)} {b : WSeq}
    (hi : cx.body[pc]? = some i)
    (hs : Model.step cx.E.H cx.E.P cx.body.length c.vm i = .ok (.yield (.invoke f args rs) c.vm.next))
    (hf : cx.Q.funcs[f]? = some (.wasm t ls b)) (ha : args.map (·.cls) = t.params) :
    ∃ (cx' : Cx S) (c' : Conf S) (caller : Frame), CxOk cx' ∧ cx'.E = cx.E ∧ cx'.Q = cx.Q ∧
      cx'.K = ⟨cx.K.M, t.params, ls, t.results⟩ ∧ SymFn cx'.K cx'.body cx'.W b ∧ cx'.low = c.vm.rf ∧
      cx'.callers = caller :: cx.callers ∧ caller.func = cx.f ∧ caller.n = cx.K.results.length ∧
      caller.locals = c.vm.locals ∧ caller.labels.length = c.vm.labels.length ∧
      (caller.labels.head?.map (·.ip)).getD 0 = pc + 1 ∧ caller.retRegs = [] ∧ caller.resultRegs = rs ∧
      CStep cx.E c c' ∧ Rel cx' [] 0 [] [] [] ⟨args ++ declLocals ls, s.st, s.world⟩ c' := by
  obtain ⟨fr, h1, h2, h3⟩ := h.frame
  obtain ⟨hM, hcl, hcap, body, W, hP, hsym⟩ := lk.wasm f t ls b hf
  have hlab := h.labels
  cases hL : c.vm.labels with
  | nil => rw [hL] at hlab; simp at hlab
  | cons lb lbs =>
    let caller : Frame := { fr with locals := c.vm.locals, labels := { lb with ip := c.vm.pc + 1 } :: lbs,
                                    retRegs := c.vm.retRegs, memPtr := c.vm.memPtr, resultRegs := rs }
    let nf := newFrame c.vm.inst f t (args ++ declLocals ls) false
    let m' : Machine S := { c.m with rf := c.vm.rf.saveOffsets W, frames := nf :: caller :: cx.callers, inst := c.vm.inst }
    refine ⟨⟨cx.E, cx.Q, ⟨cx.K.M, t.params, ls, t.results⟩, body, W, f, caller :: cx.callers, c.vm.rf⟩,
      ⟨m', (m'.enter nf).vm⟩, caller, ⟨?_, ok.H, h.win.lowOk, hcap⟩, rfl, rfl, rfl, hsym, rfl, rfl, h2, h3, rfl, ?_, ?_, h.ret, rfl, ?_, ?_⟩
    · simp only [Prog.body, hP]
    · simp only [caller, List.length_cons]
    · simp only [caller, List.head?_cons, Option.map_some, Option.getD_some, h.pc]
    · refine .yield (i := i) (y := .invoke f args rs) (vm' := c.vm.next) (m' := m') (f' := nf) (fs' := caller :: cx.callers) h1 ?_ ?_ ?_ rfl
      · rw [h2, ok.body]; exact h.at hi
      · rw [h2, ok.body]; exact hs
      · simp only [Machine.react, Machine.doInvoke, hP, hcl, Res.bind_ok, Res.pure_eq, Machine.leave, VM.next, hL, enterRegs, h1,
          List.tail_cons]
        rfl
    · refine ⟨⟨nf, rfl, rfl, rfl⟩, h.world, rfl, rfl, rfl, ⟨rfl, ?_, h.here.store, rfl, h.here.gtys⟩, Win.enter, rfl, rfl⟩
      simp only [List.map_append, ha, declLocals_cls, localTypes]

/-- leaving a function for its caller -/
theorem RetAt.back {cx' : Cx S} (ok : CxOk cx') {vals : List Val} {st : Store} {w : S.W} {c : Conf S} {caller : Frame}
    {rest : List Frame} (h : RetAt cx' vals st w c) (hc : cx'.callers = caller :: rest) {rf : RegFile}
    (hset : cx'.low.setVals caller.resultRegs vals = .ok rf) :
    ∃ (m' : Machine S) (fr : Frame), CStep cx'.E c ⟨m', (m'.enter fr).vm⟩ ∧ m'.frames = fr :: rest ∧
      fr = { caller with memPtr := m'.inst.ptr, resultRegs := [] } ∧ m'.rf = rf ∧ m'.inst.store = st ∧ m'.world = w := by
  obtain ⟨vm', hl, hw, hst, hv, hn⟩ := h.out
  obtain ⟨fr, h1, h2, h3⟩ := h.frame
  let m' : Machine S := { c.m with rf := rf, inst := vm'.inst, frames := { caller with memPtr := vm'.inst.ptr, resultRegs := [] } :: rest }
  have hd : (c.m.leave fr ⟨vm', false, 0, c.m.looks⟩).doReturn = .ok (.running m') := by
    simp only [Machine.doReturn, Machine.leave, h1, List.tail_cons, hc, hv, Res.bind_ok, hw.restore ok.low, hset, Res.pure_eq]
    rfl
  refine ⟨m', { caller with memPtr := vm'.inst.ptr, resultRegs := [] }, ?_, rfl, rfl, rfl, hst, h.world⟩
  cases hl with
  | ret hi hs =>
    rename_i i
    refine .yield (i := i) (y := .ret) (vm' := vm') (m' := m') h1 ?_ ?_ hd rfl
    · rw [h2, ok.body]; exact hi
    · rw [h2, ok.body]; exact hs
  | halt hi hlab =>
    refine .halt (m' := m') h1 ?_ hlab hd rfl
    rw [h2, ok.body]; exact hi

/-- the results of a call arrive in their registers, nothing else changes -/
theorem rd_setVals {vm : VM} {rf : RegFile} {rs : List Reg} {vals : List Val} (hs : vm.rf.setVals rs vals = .ok rf)
    (hc : vals.map (·.cls) = rs.map (·.cls)) (hv : ∀ x ∈ rs, x.cls ≠ .v128) (hn : rs.Nodup) (vm' : VM) (hr : vm'.rf = rf)
    (hl : vm'.locals = vm.locals) :
    (sregs rs).map (rd vm') = vals.reverse.map .ok ∧ ∀ x, (∀ y ∈ rs, x ≠ SOp.ofReg y) → rd vm' x = rd vm x := by
  have hlen : rs.length = vals.length := by simpa using (congrArg List.length hc).symm
  obtain ⟨h1, h2⟩ := results_delivered_in_order_partial rs vals vm.rf rf hlen
    (fun i hi hi' => by
      have := congrArg (fun l => l[i]?) hc
      simp only [List.getElem?_map, List.getElem?_eq_getElem hi, List.getElem?_eq_getElem hi', Option.map_some,
        Option.some.injEq] at this
      exact this) hv hn hs
  constructor
  · simp only [sregs, List.map_map, List.map_reverse]
    congr 1
    apply List.ext_getElem
    · simp [hlen]
    · intro i hi hi'
      simp only [List.getElem_map, Function.comp, rd_reg, hr]
      exact h1 i (by simpa using hi) (by simpa using hi')
  · intro x hx
    obtain ⟨c, o⟩ := x
    cases o with
    | const w => rfl
    | param j => simp only [rd, VM.read, hl]
    | reg j =>
      have := h2 ⟨c, j⟩ (fun hmem => hx _ hmem rfl)
      have e : (⟨c, .reg j⟩ : SOp) = SOp.ofReg ⟨c, j⟩ := rfl
      rw [e, rd_reg, rd_reg, hr, this]

/-- a function body at fuel `n` -/
def SimFn (S : Wasi) (n : Nat) : Prop :=
  ∀ (cx : Cx S), CxOk cx → Linked S cx.E cx.Q cx.K.M → ∀ b, SymFn cx.K cx.body cx.W b → ∀ s c, Rel cx [] 0 [] [] [] s c →
    CallMatch cx n (finishCall cx.K.results.length (run S cx.Q cx.K.M n b [] s)) c

/-- calling a function of the module -/
theorem match_invoke {cx : Cx S} (ok : CxOk cx) (lk : Linked S cx.E cx.Q cx.K.M) {n : Nat} (ih : SimFn S n) {Γ : List Lab}
    {pc pc' : Nat} {os r : List SOp} {out : Option (List SOp)} {stk vr args : List Val} {vsegs : List (List Val)} {s : SSt S.W}
    {c : Conf S} (h : Rel cx Γ pc os stk vsegs s c) {i : Instr} {f : Nat} {rs : List Reg} {t : FuncType}
    {ls : List (Nat × Cls)} {b : WSeq} {k : List Val → SSt S.W → SOut S.W} (hi : cx.body[pc]? = some i)
    (hs : Model.step cx.E.H cx.E.P cx.body.length c.vm i = .ok (.yield (.invoke f args rs) c.vm.next))
    (hf : cx.Q.funcs[f]? = some (.wasm t ls b)) (ha : args.map (·.cls) = t.params) (hr : r.map (rd c.vm) = vr.map .ok)
    (hrc : rs.map (·.cls) = t.results) (hfresh : Fresh cx.W Γ r rs)
    (hk : Goes cx (n + 1) Γ (sregs rs ++ r) (pc + 1) pc' out k) :
    Match cx Γ vsegs pc' out (n + 1)
      ((callWith S (run S cx.Q cx.K.M n) (.wasm t ls b) args s.st s.world).cont s.locals vr k) c := by
  obtain ⟨cx', c', caller, ok', hE, hQ, hK, hsym, hlow, hcs, hcf, hcn, hcl, hclab, hcip, hcret, hcres, hstep, hrel⟩ :=
    h.enter ok lk hi hs hf ha
  have lk' : Linked S cx'.E cx'.Q cx'.K.M := by rw [hE, hQ, hK]; exact lk
  have hm := ih cx' ok' lk' b hsym _ _ hrel
  have hK1 : cx'.K.M = cx.K.M := by rw [hK]
  have hK2 : cx'.K.results = t.results := by rw [hK]
  rw [hQ, hK1, hK2] at hm
  simp only [callWith]
  generalize finishCall t.results.length (run S cx.Q cx.K.M n b [] ⟨args ++ declLocals ls, s.st, s.world⟩) = o at hm
  cases o with
  | ok vals st w =>
    obtain ⟨j, c1, hp, hret⟩ := hm
    obtain ⟨rf, hset⟩ := setVals_ok (xs := rs) (vs := vals) h.win (fun x hx => (hfresh.2 x hx).2.1)
    have hcls := hret.cls
    rw [hK2] at hcls
    have hgty := hret.gtys
    rw [hK1] at hgty
    obtain ⟨m', fr, hb, hfr, hfrd, hmrf, hmst, hmw⟩ := hret.back ok' hcs (rf := rf) (by rw [hlow, hcres]; exact hset)
    rw [hE] at hp hb
    obtain ⟨h4, h5⟩ := rd_setVals hset (by rw [hcls, hrc]) (fun x hx => (hfresh.2 x hx).2.2) hfresh.1 (m'.enter fr).vm hmrf
      (by rw [← hcl, hfrd]; rfl)
    have hrel' : Rel cx Γ (pc + 1) (sregs rs ++ r) (vals.reverse ++ vr) vsegs ⟨s.locals, st, w⟩ ⟨m', (m'.enter fr).vm⟩ := by
      refine ⟨⟨fr, hfr, by rw [hfrd]; exact hcf, by rw [hfrd]; exact hcn⟩, hmw, ?_, ?_, ?_,
        ⟨?_, h.here.ltys, hmst, ?_, hgty⟩, ?_, ?_, ?_⟩
      · rw [hfrd]; exact hcip
      · rw [hfrd]; exact hclab.trans h.labels
      · rw [hfrd]; exact hcret
      · rw [hfrd]; exact hcl.trans h.here.locals
      · rw [hfrd]; rfl
      · show Win cx.low cx.W m'.rf
        rw [hmrf]; exact h.win.setVals hset
      · rw [List.map_append, List.map_append, h4, ← hr]
        congr 1
        exact rds_congr fun x hx => h5 x fun y hy e => (hfresh.2 y hy).1.1 (e ▸ hx)
      · rw [← h.segs]
        exact segs_congr fun l hl x hx => h5 x fun y hy e => (hfresh.2 y hy).1.2 l hl (e ▸ hx)
    exact (hk _ _ _ _ hrel').prepend (((CPath.one hstep).append hp).append (CPath.one hb)) (by omega)
  | fail g st w =>
    obtain ⟨j, c1, l, hp, he, hst, hw, hg⟩ := hm
    rw [hE] at hp he
    exact ⟨_, c1, l, (CPath.one hstep).append hp, he, hst, hw, by rw [← hK1]; exact hg⟩
  | stuck => exact hm
  | timeout =>
    obtain ⟨j, c1, hn, hp⟩ := hm
    rw [hE] at hp
    exact ⟨_, c1, by omega, (CPath.one hstep).append hp⟩
  | gap =>
    obtain ⟨j, c1, hp, he⟩ := hm
    rw [hE] at hp he
    exact ⟨_, c1, (CPath.one hstep).append hp, he⟩

/-- calling a host function -/
theorem match_wasi {cx : Cx S} (ok : CxOk cx) (lk : Linked S cx.E cx.Q cx.K.M) {n : Nat} {Γ : List Lab}
    {pc pc' : Nat} {os r : List SOp} {out : Option (List SOp)} {stk vr args : List Val} {vsegs : List (List Val)} {s : SSt S.W}
    {c : Conf S} (h : Rel cx Γ pc os stk vsegs s c) {i : Instr} {f id : Nat} {rs : List Reg} {t : FuncType}
    {k : List Val → SSt S.W → SOut S.W} {run : WSeq → List Val → SSt S.W → SOut S.W} (hi : cx.body[pc]? = some i)
    (hs : Model.step cx.E.H cx.E.P cx.body.length c.vm i = .ok (.yield (.wasi id args rs.head?) c.vm.next))
    (hf : cx.Q.funcs[f]? = some (.wasi t id)) (ha : args.map (·.cls) = t.params) (hr : r.map (rd c.vm) = vr.map .ok)
    (hrc : rs.map (·.cls) = t.results) (hlen : rs.length ≤ 1) (hfresh : Fresh cx.W Γ r rs)
    (hk : Goes cx n Γ (sregs rs ++ r) (pc + 1) pc' out k) :
    Match cx Γ vsegs pc' out n ((callWith S run (.wasi t id) args s.st s.world).cont s.locals vr k) c := by
  obtain ⟨fr, h1, h2, h3⟩ := h.frame
  obtain ⟨hM, hP, hw, _, hty⟩ := lk.wasi f t id hf
  have hlab := h.labels
  cases hL : c.vm.labels with
  | nil => rw [hL] at hlab; simp at hlab
  | cons lb lbs =>
  have hmem := h.here.mem
  have hcb : (cx.E.P.body fr.func)[c.vm.pc]? = some i := by rw [h2, ok.body]; exact h.at hi
  have hcs : Model.step cx.E.H cx.E.P (cx.E.P.body fr.func).length c.vm i = .ok (.yield (.wasi id args rs.head?) c.vm.next) := by
    rw [h2, ok.body]; exact hs
  have hend : ∀ {x : Res (End S)}, Round.ended ((c.m.leave fr ⟨c.vm.next, false, 0, c.m.looks⟩).doWasi cx.E.hasWasi id args rs.head?) = some x →
      CEndL cx.E c x ((c.m.leave fr ⟨c.vm.next, false, 0, c.m.looks⟩).wasiLeft cx.E.hasWasi id args) :=
    fun {x} hx => .yield (i := i) h1 hcb hcs hx
  simp only [callWith, hmem]
  cases hmm : c.vm.inst.mem with
  | none =>
    refine ⟨0, c, _, .nil c, hend ?_, ?_, ?_, h.here.gtys⟩
    · simp only [Machine.doWasi, Machine.leave, VM.next, hw, hmm, Round.ended, Fail.res]
    · simp only [Machine.wasiLeft, Machine.leave, VM.next, hw, hmm]; exact h.here.store
    · simp only [Machine.wasiLeft, Machine.leave, VM.next, hw, hmm]; exact h.world
  | some mem =>
    simp only
    have hwd : (c.m.leave fr ⟨c.vm.next, false, 0, c.m.looks⟩).world = s.world := h.world
    have hdo : (c.m.leave fr ⟨c.vm.next, false, 0, c.m.looks⟩).inst.mem = some mem := hmm
    cases hcall : S.call id args mem s.world with
    | trap e =>
      refine ⟨0, c, _, .nil c, hend ?_, ?_, ?_, h.here.gtys⟩
      · simp only [Machine.doWasi, hw, hdo, hwd, hcall]; rfl
      · simp only [Machine.wasiLeft, hw, hdo, hwd, hcall]; exact h.here.store
      · simp only [Machine.wasiLeft, hw, hdo, hwd, hcall]
    | panic =>
      refine ⟨0, c, _, .nil c, hend ?_, ?_, ?_, h.here.gtys⟩
      · simp only [Machine.doWasi, hw, hdo, hwd, hcall]; rfl
      · simp only [Machine.wasiLeft, hw, hdo, hwd, hcall]; exact h.here.store
      · simp only [Machine.wasiLeft, hw, hdo, hwd, hcall]
    | ub =>
      refine ⟨0, c, _, .nil c, hend ?_, ?_, ?_, h.here.gtys⟩
      · simp only [Machine.doWasi, hw, hdo, hwd, hcall]; rfl
      · simp only [Machine.wasiLeft, hw, hdo, hwd, hcall]; exact h.here.store
      · simp only [Machine.wasiLeft, hw, hdo, hwd, hcall]
    | ok x =>
      obtain ⟨res, mem', w'⟩ := x
      cases res with
      | none =>
        refine ⟨0, c, _, .nil c, hend ?_, ?_, ?_, h.here.gtys⟩
        · simp only [Machine.doWasi, hw, hdo, hwd, hcall, Res.bind_ok]; rfl
        · simp only [Machine.wasiLeft, hw, hdo, hwd, hcall]
          rw [← h.here.store]; rfl
        · simp only [Machine.wasiLeft, hw, hdo, hwd, hcall]
      | some v =>
        have hv := hty _ _ _ _ _ _ ha hcall
        obtain ⟨rf, hset⟩ := setVals_ok (xs := rs) (vs := v.toList) h.win (fun x hx => (hfresh.2 x hx).2.1)
        let fr' : Frame := { fr with locals := c.vm.locals, labels := { lb with ip := c.vm.pc + 1 } :: lbs,
                                     retRegs := c.vm.retRegs, memPtr := c.vm.memPtr }
        let m' : Machine S := { c.m with rf := rf, frames := fr' :: cx.callers, inst := { c.vm.inst with mem := some mem' }, world := w' }
        have hres : hostResult t.results mem' w' s.st (some v) = .ok v.toList { s.st with mem := some mem' } w' := by
          cases v with
          | none => simp only [Option.toList, List.map_nil] at hv; simp [hostResult, ← hv]
          | some v => simp only [Option.toList, List.map_cons, List.map_nil] at hv; simp [hostResult, ← hv]
        have hstep : CStep cx.E c ⟨m', (m'.enter fr').vm⟩ := by
          refine .yield (i := i) (m' := m') (f' := fr') (fs' := cx.callers) h1 hcb hcs ?_ rfl
          simp only [Machine.react, Machine.doWasi, hw, hdo, hwd, hcall, Res.bind_ok]
          have hrl : rs.length = v.toList.length := by
            have := congrArg List.length (hrc.trans hv.symm); simpa using this
          cases v with
          | none =>
            cases rs with
            | cons _ _ => simp at hrl
            | nil =>
              simp only [RegFile.setVals, Res.ok_inj] at hset
              subst hset
              simp only [List.head?_nil, Res.pure_eq, Machine.leave, VM.next, hL, h1, List.tail_cons]
              rfl
          | some v =>
            match rs, hrl with
            | [x], _ =>
              simp only [Option.toList, RegFile.setVals] at hset
              cases hsv : c.vm.rf.setVal x v with
              | ok rf1 =>
                rw [hsv] at hset
                simp only [Res.bind_ok, Res.ok_inj] at hset
                subst hset
                simp only [List.head?_cons, Machine.leave, VM.next, hsv, Res.bind_ok, Res.pure_eq, hL, h1, List.tail_cons]
                rfl
              | trap e => rw [hsv] at hset; cases hset
              | panic => rw [hsv] at hset; cases hset
              | ub => rw [hsv] at hset; cases hset
        simp only [hres, COut.cont]
        obtain ⟨h4, h5⟩ := rd_setVals hset (by rw [hv, hrc]) (fun x hx => (hfresh.2 x hx).2.2) hfresh.1 (m'.enter fr').vm rfl rfl
        have hrel' : Rel cx Γ (pc + 1) (sregs rs ++ r) (v.toList.reverse ++ vr) vsegs
            ⟨s.locals, { s.st with mem := some mem' }, w'⟩ ⟨m', (m'.enter fr').vm⟩ := by
          refine ⟨⟨fr', rfl, h2, h3⟩, rfl, ?_, ?_, h.ret, ⟨h.here.locals, h.here.ltys, ?_, ?_, h.here.gtys⟩,
            h.win.setVals hset, ?_, ?_⟩
          · simp only [m', fr', Machine.enter, List.head?_cons, Option.map_some, Option.getD_some, h.pc]
          · rw [← hlab, hL]; rfl
          · rw [← h.here.store]; rfl
          · have := h.here.ptr
            simp only [Inst.ptr, hmm, Option.map_some] at this
            simp only [m', fr', Machine.enter, Inst.ptr, Option.map_some, this]
          · rw [List.map_append, List.map_append, h4, ← hr]
            congr 1
            exact rds_congr fun x hx => h5 x fun y hy e => (hfresh.2 y hy).1.1 (e ▸ hx)
          · rw [← h.segs]
            exact segs_congr fun l hl x hx => h5 x fun y hy e => (hfresh.2 y hy).1.2 l hl (e ▸ hx)
        exact (hk _ _ _ _ hrel').prepend (CPath.one hstep) (by omega)

end Verif.Lemmas
