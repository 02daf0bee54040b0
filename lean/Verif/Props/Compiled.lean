import Verif.Spec.Compiled
import Verif.Lemmas.CompFn
import Verif.Lemmas.SymMain
/-
Whole programs: what the interpreter does for an accepted module is what the module means.
-/
namespace Verif.Props
open Verif.Model Verif.Spec Verif.Lemmas

theorem compileAll_get {M : MInfo} : ∀ {Fs : List SFunc} {Gs : List FuncInst}, compileAll M Fs = some Gs →
    ∀ f : Nat, Gs[f]? = (Fs[f]?).bind (compileFunc M) ∧ (Fs[f]? = none → Gs[f]? = none) ∧
      (∀ F, Fs[f]? = some F → ∃ G, Gs[f]? = some G ∧ compileFunc M F = some G)
  | [], _, h, f => by cases h; simp
  | F :: Fs, Gs, h, f => by
    simp only [compileAll] at h
    split at h
    · rename_i G Gs' hG hGs
      cases h
      cases f with
      | zero => simp [hG]
      | succ f => simpa using compileAll_get hGs f
    · cases h

/-- the symbolic view of an accepted module -/
theorem linked {S : Wasi} {E : Env} {Q : SProg} {globals : List Cls} (hH : E.H = Q.H) (hc : Q.compile globals = some E.P)
    (ha : Accepted S Q globals) (hw : ∀ t id, SFunc.wasi t id ∈ Q.funcs → E.hasWasi = true) :
    Linked S E Q (Q.info globals) := by
  simp only [SProg.compile, Option.map_eq_some_iff] at hc
  obtain ⟨fs, hfs, hP⟩ := hc
  have hget := compileAll_get hfs
  have hPf : E.P.funcs = fs := by rw [← hP]
  refine ⟨hH, by rw [← hP], rfl, fun f hf => ⟨by rw [hPf]; exact (hget f).2.1 hf, by simp [SProg.info, hf]⟩, ?_, ?_⟩
  · intro f t ls b hf
    have hmem : SFunc.wasm t ls b ∈ Q.funcs := List.mem_of_getElem? hf
    have fits := ha.fits t ls b hmem
    obtain ⟨G, hG, hcf⟩ := (hget f).2.2 _ hf
    simp only [compileFunc, Option.map_eq_some_iff] at hcf
    obtain ⟨code, hcode, rfl⟩ := hcf
    have halloc : ∃ W, code.alloc = some W := by
      unfold compileFn at hcode
      split at hcode
      · cases hcode
      · split at hcode
        · cases hcode
        · cases hcode; exact ⟨_, rfl⟩
    obtain ⟨W, hW⟩ := halloc
    obtain ⟨hl, hsym⟩ := compile_symFn (ha.faithful t ls b hmem) hcode hW (fits.regs code W hcode hW)
    refine ⟨by simp [SProg.info, hf, SFunc.info], ?_, fits.results, code.body, W, ?_, hsym⟩
    · unfold callLocals
      rw [if_neg]
      simp only [List.any_eq_true, Bool.and_eq_true, decide_eq_true_eq, not_exists, not_and]
      intro p hp hr
      have := fits.noRefs p hp hr
      omega
    · rw [hPf, hG]
      obtain ⟨l, bd, al⟩ := code
      simp only [fnCtx] at hl hW ⊢
      subst hl hW
      rfl
  · intro f t id hf
    have hmem : SFunc.wasi t id ∈ Q.funcs := List.mem_of_getElem? hf
    obtain ⟨G, hG, hcf⟩ := (hget f).2.2 _ hf
    simp only [compileFunc, Option.some.injEq] at hcf
    subst hcf
    exact ⟨by simp [SProg.info, hf, SFunc.info], by rw [hPf, hG], hw t id hmem, ha.one t id hmem, fun args m w r m' w' h1 h2 =>
      ha.host t id hmem args m w r m' w' h1 h2⟩

/-- how a program is started: the module is loaded, the function exists, the arguments and the globals have their types -/
structure Start (S : Wasi) (E : Env) (Q : SProg) (globals : List Cls) (inst : Inst) (f : Nat) (t : FuncType)
    (ls : List (Nat × Cls)) (b : WSeq) (args : List Val) : Prop where
  host : E.H = Q.H
  load : Q.compile globals = some E.P
  accepted : Accepted S Q globals
  wasi : ∀ t id, SFunc.wasi t id ∈ Q.funcs → E.hasWasi = true
  func : Q.funcs[f]? = some (.wasm t ls b)
  args : args.map (·.cls) = t.params
  globals : inst.globals.map (·.value.cls) = globals

/-- the first activation -/
theorem start_rel {S : Wasi} {E : Env} {Q : SProg} {globals : List Cls} {inst : Inst} {f : Nat} {t : FuncType}
    {ls : List (Nat × Cls)} {b : WSeq} {args : List Val} (st : Start S E Q globals inst f t ls b args) (world : S.W) :
    ∃ (m : Machine S) (fr : Frame) (cx : Cx S), Machine.new E.P inst world f args = .ok m ∧ m.frames = [fr] ∧ fr.enable = false ∧
      CxOk cx ∧ cx.E = E ∧ cx.Q = Q ∧ cx.K = fnCtx (Q.info globals) t ls ∧ cx.callers = [] ∧ SymFn cx.K cx.body cx.W b ∧
      Rel cx [] 0 [] [] [] ⟨args ++ declLocals ls, storeOf inst, world⟩ ⟨m, (m.enter fr).vm⟩ := by
  have lk := linked st.host st.load st.accepted st.wasi
  obtain ⟨hM, hcl, hcap, body, W, hP, hsym⟩ := lk.wasm f t ls b st.func
  let fr := newFrame inst f t (args ++ declLocals ls) false
  let m : Machine S := { rf := RegFile.empty.saveOffsets W, frames := [fr], inst := inst, world := world, looks := 0 }
  refine ⟨m, fr, ⟨E, Q, fnCtx (Q.info globals) t ls, body, W, f, [], RegFile.empty⟩, ?_, rfl, rfl, ⟨?_, st.host, rfl, hcap⟩,
    rfl, rfl, rfl, rfl, hsym, ?_⟩
  · have := congrArg List.length st.args
    simp only [List.length_map] at this
    simp only [Machine.new, hP, this, ne_eq, not_true, if_false, enterRegs]
    rfl
  · simp only [Prog.body, hP]
  · refine ⟨⟨fr, rfl, rfl, rfl⟩, rfl, rfl, rfl, rfl, ⟨rfl, ?_, rfl, rfl, st.globals⟩, Win.enter, rfl, rfl⟩
    simp only [List.map_append, st.args, declLocals_cls, localTypes, fnCtx]

/-- the outermost activation returns -/
theorem RetAt.last {S : Wasi} {cx : Cx S} (ok : CxOk cx) {vals : List Val} {st : Store} {w : S.W} {c : Conf S}
    (h : RetAt cx vals st w c) (hc : cx.callers = []) :
    ∃ m' : Machine S, CEndL cx.E c (.ok (.done vals m')) (m'.inst, m'.world) ∧ m'.inst.store = st ∧ m'.world = w := by
  obtain ⟨vm', hl, hw, hst, hv, hn⟩ := h.out
  obtain ⟨fr, h1, h2, h3⟩ := h.frame
  rw [hc] at h1
  let m' : Machine S := { c.m with rf := vm'.rf.restoreOffsets, inst := vm'.inst, frames := [] }
  have hd : (c.m.leave fr ⟨vm', false, 0, c.m.looks⟩).doReturn = .ok (.done vals m') := by
    simp only [Machine.doReturn, Machine.leave, h1, List.tail_cons, h3, ← hn, List.take_length, hv, Res.bind_ok, Res.pure_eq]
    rfl
  refine ⟨m', ?_, hst, h.world⟩
  cases hl with
  | ret hi hs =>
    rename_i i
    refine .yield (i := i) (y := .ret) (vm' := vm') h1 ?_ ?_ ?_
    · rw [h2, ok.body]; exact hi
    · rw [h2, ok.body]; exact hs
    · exact congrArg Round.ended hd
  | halt hi hlab =>
    refine .halt h1 ?_ hlab (congrArg Round.ended hd)
    rw [h2, ok.body]; exact hi

/-- what running a compiled program shows, for each outcome of its source -/
theorem run_match {S : Wasi} {E : Env} {Q : SProg} {globals : List Cls} {inst : Inst} {f : Nat} {t : FuncType}
    {ls : List (Nat × Cls)} {b : WSeq} {args : List Val} (st : Start S E Q globals inst f t ls b args) (world : S.W) :
    ∃ m, Machine.new E.P inst world f args = .ok m ∧
      (∀ n vs s w, invoke S Q (Q.info globals) n (.wasm t ls b) args (storeOf inst) world = .ok vs s w →
        ∃ m' N0, (∀ N, N0 ≤ N → m.runL E (loopDL E) false N = some (.ok (.done vs m'), m'.inst, m'.world)) ∧
          storeOf m'.inst = s ∧ m'.world = w ∧ s.globals.map (·.value.cls) = globals) ∧
      (∀ n e s w, invoke S Q (Q.info globals) n (.wasm t ls b) args (storeOf inst) world = .fail e s w →
        ∃ i N0, (∀ N, N0 ≤ N → m.runL E (loopDL E) false N = some (e.report, i, w)) ∧ storeOf i = s ∧
          s.globals.map (·.value.cls) = globals) ∧
      (∀ n, invoke S Q (Q.info globals) n (.wasm t ls b) args (storeOf inst) world ≠ .stuck) ∧
      (∀ n, invoke S Q (Q.info globals) n (.wasm t ls b) args (storeOf inst) world = .gap →
        ∃ N0, ∀ N, N0 ≤ N → m.run E (loopD E) false N = some (.trap .executionFailed)) ∧
      ((∀ n, invoke S Q (Q.info globals) n (.wasm t ls b) args (storeOf inst) world = .timeout) →
        ∀ N, m.run E (loopD E) false N = none) := by
  have lk := linked st.host st.load st.accepted st.wasi
  obtain ⟨m, fr, cx, hm, hfr, hen, ok, hE, hQ, hK, hcs, hsym, hrel⟩ := start_rel st world
  have hKM : cx.K.M = Q.info globals := by rw [hK]; rfl
  have hKr : cx.K.results = t.results := by rw [hK]; rfl
  have hsim : ∀ n, CallMatch cx n (invoke S Q (Q.info globals) n (.wasm t ls b) args (storeOf inst) world) ⟨m, (m.enter fr).vm⟩ := by
    intro n
    have := sim_fn n cx ok (by rw [hE, hQ, hKM]; exact lk) b hsym _ _ hrel
    rw [hQ, hKM, hKr] at this
    exact this
  have hoff : AllOff m := by
    intro g hg
    rw [hfr] at hg
    simp only [List.mem_singleton] at hg
    subst hg; exact hen
  have hrun : ∀ N, m.run E (loopD E) false N = m.runLoop E (loopD E) false N N := by
    intro N
    have : { m with frames := setFirstEnable false m.frames } = m := by
      have h2 : setFirstEnable false m.frames = m.frames := by
        rw [hfr]
        simp only [setFirstEnable, ← hen]
      rw [h2]
    simp only [Machine.run, this]
  have hrunL : ∀ N, m.runL E (loopDL E) false N = m.runLoopL E (loopDL E) false N N := by
    intro N
    have : { m with frames := setFirstEnable false m.frames } = m := by
      have h2 : setFirstEnable false m.frames = m.frames := by
        rw [hfr]
        simp only [setFirstEnable, ← hen]
      rw [h2]
    simp only [Machine.runL, this]
  refine ⟨m, hm, fun n vs s w h => ?_, fun n e s w h => ?_, fun n h => ?_, fun n h => ?_, fun h N => ?_⟩
  · have := hsim n
    rw [h] at this
    obtain ⟨j, c', hp, hret⟩ := this
    obtain ⟨m', he, h1, h2⟩ := RetAt.last ok hret hcs
    rw [hE] at hp he
    obtain ⟨N0, hN⟩ := run_endsL hoff hfr (EndsL.path hp hoff (.here he))
    exact ⟨m', N0, fun N hle => by rw [hrunL]; exact hN N hle, h1, h2, by rw [hret.gtys, hKM]; rfl⟩
  · have := hsim n
    rw [h] at this
    obtain ⟨j, c', l, hp, he, hs, hw, hg⟩ := this
    rw [hE] at hp he
    obtain ⟨N0, hN⟩ := run_endsL hoff hfr (EndsL.path hp hoff (.here he))
    refine ⟨l.1, N0, fun N hle => ?_, hs, by rw [hg, hKM]; rfl⟩
    rw [hrunL, hN N hle, ← hw]
    cases e <;> rfl
  · have := hsim n
    rw [h] at this
    exact this
  · have := hsim n
    rw [h] at this
    obtain ⟨j, c', hp, he⟩ := this
    rw [hE] at hp he
    obtain ⟨N0, hN⟩ := run_ends hoff hfr (Ends.path hp hoff (.here he))
    exact ⟨N0, fun N hle => by rw [hrun, hN N hle]⟩
  · rw [hrun]
    refine run_diverges hoff hfr (fun n => ?_) N N
    have := hsim n
    rw [h n, CallMatch] at this
    rw [hE] at this
    exact this

end Verif.Props
