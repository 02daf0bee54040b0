import Verif.Spec.History
import Verif.Lemmas.LeftRun
import Verif.Props.WebAssembly
import Verif.Lemmas.Steady
/-
C66: calls made one after the other on one instance.
-/
namespace Verif.Props
open Verif.Model Verif.Spec Verif.Lemmas

/-- the dispatchers with what they leave -/
inductive IsDL (E : Env) : DispatcherL → Prop
  | loop : IsDL E (loopDL E)
  | tco : IsDL E (tcoDL E)

/-- the dispatcher without what it leaves -/
theorem IsDL.plain {E : Env} {D : DispatcherL} (h : IsDL E D) :
    ∃ D', IsD E D' ∧ ∀ n c d, (D n c d).map (·.1) = D' n c d := by
  cases h with
  | loop => exact ⟨_, .loop, fun n c d => loopL_fst E c n d⟩
  | tco => exact ⟨_, .tco, fun n c d => tcoL_fst E c n d⟩

theorem IsDL.leaves {E : Env} {D : DispatcherL} (h : IsDL E D) (hq : Quiet E) : LeavesPlain E D := by
  cases h with
  | loop => exact loopDL_leaves hq
  | tco => exact tcoDL_leaves hq

theorem IsD.noCk {E : Env} {D : Dispatcher} (h : IsD E D) (hq : Quiet E) {n : Nat} {code : List Instr} {d : DState} {r : Res Final}
    (hr : D n code d = some r) : obsF r ≠ .trap .checkpointRequested := by
  cases h with
  | loop => exact loop_noCk hq code n d r hr
  | tco => exact tco_noCk hq code n d r hr

/-- the interpreter, started in `m`, finishes with this answer and leaves this store and outside world -/
def AnswersL {S : Wasi} (E : Env) (D : DispatcherL) (en : Bool) (m : Machine S) (o : Res (List Val)) (st : Store) (w : S.W) : Prop :=
  ∃ n x l, m.runL E D en n = some (x, l) ∧ endValues x = o ∧ storeOf l.1 = st ∧ l.2 = w

/-- what of an observation is in the answer -/
theorem endValues_obs {S : Wasi} {x x' : Res (End S)} (h : obsE x = obsE x') : endValues x = endValues x' := by
  rcases x with (⟨vs, m⟩ | m) | e | _ | _ <;> rcases x' with (⟨vs', m'⟩ | m') | e' | _ | _ <;> simp_all [obsE, endValues]

theorem storeOf_data {i j : Inst} (h : i.data = j.data) : storeOf i = storeOf j := by
  obtain ⟨h1, h2, h3, h4⟩ := Inst.data_eq h
  simp only [storeOf, h1, h2, h3, h4]

/-- which dispatcher is used and whether checkpointing is on does not matter for the answer nor for what is left -/
theorem answersL_any {S : Wasi} {E : Env} (hq : Quiet E) (hp : Preprocessed E.P) {D D' : DispatcherL} (hD : IsDL E D) (hD' : IsDL E D')
    (en en' : Bool) {m : Machine S} {o : Res (List Val)} {st : Store} {w : S.W} (h : AnswersL E D en m o st w) : AnswersL E D' en' m o st w := by
  obtain ⟨n, x, l, hr, rfl, rfl, rfl⟩ := h
  obtain ⟨P, hP, eP⟩ := hD.plain
  obtain ⟨P', hP', eP'⟩ := hD'.plain
  have h1 : Answers E P en m (shown x) := ⟨n, x, by rw [← runL_fst eP, hr]; rfl, rfl⟩
  obtain ⟨n', x', hr', _⟩ := (answers_any hq hp hP hP' en en' m _).mp h1
  rw [← runL_fst eP'] at hr'
  obtain ⟨⟨x1, l'⟩, hr1, rfl⟩ := Option.map_eq_some_iff.mp hr'
  obtain ⟨e1, e2, e3⟩ := runLoopL_sim (hD.leaves hq) (hD'.leaves hq)
    (fun n code d r vm h => hP.noCk hq (by rw [← eP, h]; rfl)) hp.inside _ _ _ _ _ _ _ _ (setFirst_sim (.refl m) en en') hr hr1
  exact ⟨n', x1, l', hr1, (endValues_obs e1).symm, (storeOf_data e2).symm, e3.symm⟩

/-- two answers are the same -/
theorem answersL_unique {S : Wasi} {E : Env} (hq : Quiet E) (hp : Preprocessed E.P) {D : DispatcherL} (hD : IsDL E D) {en : Bool}
    {m : Machine S} {o o' : Res (List Val)} {st st' : Store} {w w' : S.W} (h : AnswersL E D en m o st w) (h' : AnswersL E D en m o' st' w') :
    o = o' ∧ st = st' ∧ w = w' := by
  obtain ⟨n, x, l, hr, rfl, rfl, rfl⟩ := h
  obtain ⟨n', x', l', hr', rfl, rfl, rfl⟩ := h'
  obtain ⟨P, hP, eP⟩ := hD.plain
  obtain ⟨e1, e2, e3⟩ := runLoopL_sim (hD.leaves hq) (hD.leaves hq)
    (fun n code d r vm h => hP.noCk hq (by rw [← eP, h]; rfl)) hp.inside _ _ _ _ _ _ _ _ (setFirst_sim (.refl m) en en) hr hr'
  exact ⟨endValues_obs e1, storeOf_data e2, e3⟩

/-- the answer has leavings -/
theorem answersL_of {S : Wasi} {E : Env} {D : DispatcherL} {P : Dispatcher} (eP : ∀ n c d, (D n c d).map (·.1) = P n c d) {en : Bool}
    {m : Machine S} {n : Nat} {x : Res (End S)} (h : m.run E P en n = some x) : ∃ l, m.runL E D en n = some (x, l) := by
  rw [← runL_fst eP] at h
  obtain ⟨⟨x1, l⟩, hr, rfl⟩ := Option.map_eq_some_iff.mp h
  exact ⟨l, hr⟩

/-- **C66** for one call: whatever WebAssembly says a call returns (or that it fails) and leaves, the interpreter returns and
leaves, and conversely; also when the call fails, with either dispatcher, checkpointing on or off. -/
theorem call_leaves_partial {S : Wasi} {E : Env} {Q : SProg} {globals : List Cls} {inst : Inst} {f : Nat} {t : FuncType}
    {ls : List (Nat × Cls)} {b : WSeq} {args : List Val} (st : Start S E Q globals inst f t ls b args) (hq : Quiet E)
    {D : DispatcherL} (hD : IsDL E D) (en : Bool) (world : S.W)
    (hn : ¬ HitsHost S Q (Q.info globals) (.wasm t ls b) args (storeOf inst) world) :
    ∃ m, Machine.new E.P inst world f args = .ok m ∧
      (∀ o st' w', GivesL S Q (Q.info globals) (.wasm t ls b) args (storeOf inst) world o st' w' ↔ AnswersL E D en m o st' w') ∧
      ∀ o st' w', AnswersL E D en m o st' w' → st'.globals.map (·.value.cls) = globals := by
  have hp := compile_preprocessed st.load
  obtain ⟨m, hm, h1, h2, h3, h4, h5⟩ := run_match st world
  have hfwd : ∀ o st' w', GivesL S Q (Q.info globals) (.wasm t ls b) args (storeOf inst) world o st' w' →
      AnswersL E D en m o st' w' ∧ st'.globals.map (·.value.cls) = globals := by
    intro o st' w' ho
    cases ho with
    | ok h =>
      obtain ⟨m', N, hr, hs, hw, hg⟩ := h1 _ _ _ _ h
      exact ⟨answersL_any hq hp .loop hD false en ⟨N, _, _, hr N (Nat.le_refl _), rfl, hs, hw⟩, hg⟩
    | @fail n e s w h =>
      obtain ⟨i, N, hr, hs, hg⟩ := h2 _ _ _ _ h
      exact ⟨answersL_any hq hp .loop hD false en ⟨N, _, _, hr N (Nat.le_refl _), by cases e <;> rfl, hs, rfl⟩, hg⟩
  have key : ∀ o st' w', AnswersL E D en m o st' w' →
      GivesL S Q (Q.info globals) (.wasm t ls b) args (storeOf inst) world o st' w' := by
    intro o st' w' ho
    have ho' := ho
    obtain ⟨P, hP, eP⟩ := hD.plain
    rcases Classical.em (∀ n, invoke S Q (Q.info globals) n (.wasm t ls b) args (storeOf inst) world = .timeout) with hto | hto
    · obtain ⟨N, x, l, hr, _⟩ := answersL_any hq hp hD .loop en false ho
      have := h5 hto N
      rw [run_of_runL hr] at this
      cases this
    · obtain ⟨n, hto⟩ := Classical.not_forall.mp hto
      cases hi : invoke S Q (Q.info globals) n (.wasm t ls b) args (storeOf inst) world with
      | ok vs s w =>
        obtain ⟨rfl, rfl, rfl⟩ := answersL_unique hq hp hD ho (hfwd _ _ _ (.ok hi)).1
        exact .ok hi
      | fail e s w =>
        obtain ⟨rfl, rfl, rfl⟩ := answersL_unique hq hp hD ho (hfwd _ _ _ (.fail hi)).1
        exact .fail hi
      | stuck => exact absurd hi (h3 n)
      | timeout => exact absurd hi hto
      | gap => exact absurd ⟨n, hi⟩ hn
  exact ⟨m, hm, fun o st' w' => ⟨fun h => (hfwd o st' w' h).1, key o st' w'⟩, fun o st' w' h => (hfwd o st' w' (key o st' w' h)).2⟩


/-- the function at an index of a compiled program -/
theorem compile_at {Q : SProg} {globals : List Cls} {P : Prog} (h : Q.compile globals = some P) {f : Nat} {t : FuncType} {code : Code}
    (hf : P.funcs[f]? = some (.runtime t code)) : ∃ ls b, Q.funcs[f]? = some (.wasm t ls b) := by
  simp only [SProg.compile, Option.map_eq_some_iff] at h
  obtain ⟨Gs, hG, rfl⟩ := h
  have h1 := (compileAll_get hG f).1
  simp only at hf
  rw [hf] at h1
  cases hF : Q.funcs[f]? with
  | none => rw [hF] at h1; cases h1
  | some F =>
    rw [hF] at h1
    simp only [Option.bind_some] at h1
    cases F with
    | wasi t' id => simp [compileFunc] at h1
    | wasm t' ls b =>
      simp only [compileFunc] at h1
      cases hc : compileFn (fnCtx (Q.info globals) t' ls) b.body with
      | none => rw [hc] at h1; cases h1
      | some c =>
        rw [hc] at h1
        simp only [Option.map_some, Option.some.injEq, FuncInst.runtime.injEq] at h1
        obtain ⟨rfl, rfl⟩ := h1
        exact ⟨ls, b, rfl⟩

/-- an instance calls can be made on -/
structure Callable (A : SMod) (i : Inst) : Prop where
  globals : i.globals.map (·.value.cls) = A.globalTypes
  good : (storeOf i).Good
  has : (storeOf i).Has A.stock

/-- what calls on an instance of the module are made with -/
structure Hosted (S : Wasi) (A : SMod) (H : FloatHost) (L : Loaded) (atomics : Bool) (D : DispatcherL) : Prop where
  keeps : WasiKeepsSize S
  wf : A.WellFormed S H
  pages : MaxPages A
  named : A.Named H
  comp : ∃ P, (A.source H).compile A.globalTypes = some P
  nodup : (A.exports.map (·.1)).Nodup
  load : loadFile (some A.file) = .ok L
  disp : IsDL (envOf H atomics (fun _ => false) L.prog L.hasWasi) D

variable {S : Wasi} {A : SMod} {H : FloatHost} {L : Loaded} {atomics : Bool} {D : DispatcherL}

theorem Hosted.parts (C : Hosted S A H L atomics D) : (A.source H).compile A.globalTypes = some L.prog ∧ L.hasWasi = (!A.imports.isEmpty) ∧
    (∀ name f, L.exportFunc name = .ok f ↔ (name, .func f) ∈ A.exports) ∧ ∃ fs, instantiate (A.loaded fs) = .ok L := by
  obtain ⟨P, hc⟩ := C.comp
  obtain ⟨fs, L', hp, hL, hload, hprog, hw, _⟩ := load_ok C.wf hc
  rw [C.load] at hload
  cases hload
  exact ⟨by rw [hc, hprog], hw, fun name f => export_resolves hL C.nodup name f, fs, hL⟩

/-- a freshly loaded instance is one, and its store is the module's initial store -/
theorem Hosted.ready (C : Hosted S A H L atomics D) : Callable A L.inst ∧ InitialStore A (storeOf L.inst) := by
  obtain ⟨hc, hw, hex, fs, hL⟩ := C.parts
  have hst := load_store C.wf hL
  refine ⟨⟨?_, initialStore_good C.wf C.pages hst, initialStore_has hst⟩, hst⟩
  obtain ⟨hgl, hgv⟩ := globals_initialised hL
  have hgl' : L.inst.globals.length = A.globals.length := hgl
  apply List.ext_getElem
  · simp [SMod.globalTypes, hgl']
  · intro i i1 i2
    simp only [List.length_map] at i1
    obtain ⟨m, c, e, a1, a2, _⟩ := hgv i _ (List.getElem?_eq_getElem i1)
    have a1' : A.globals[i]? = some (m, c, e) := a1
    have := C.wf.globals i m c e a1' _ a2
    simp only [List.getElem_map, this, SMod.globalTypes]
    rcases List.getElem?_eq_some_iff.mp a1' with ⟨_, hh⟩
    rw [hh]

/-- two exports of the same name are the same -/
theorem Hosted.export_eq (C : Hosted S A H L atomics D) {name : String} {f f' : Nat} (h : (name, .func f) ∈ A.exports)
    (h' : (name, .func f') ∈ A.exports) : f = f' := by
  obtain ⟨_, _, hex, _⟩ := C.parts
  have := (hex name f).mpr h
  rw [(hex name f').mpr h'] at this
  cases this
  rfl

/-- **C66** for one request -/
theorem reply_correct (C : Hosted S A H L atomics D) {i : Inst} (hi : Callable A i) {r : Request} (hr : Proper A H r) {w : S.W}
    (hodd : ∀ f F, (r.name, .func f) ∈ A.exports → (A.source H).funcs[f]? = some F →
      ¬ Call S (A.source H) ((A.source H).info A.globalTypes) F r.args (storeOf i) w (.odd .deviates)) :
    (∀ n o i1 w1, L.call (envOf H atomics (fun _ => false) L.prog L.hasWasi) D n i w r = some (o, i1, w1) →
      Callable A i1 ∧ o ≠ .ub ∧ Reply S A H (storeOf i) w r (.of o) (storeOf i1) w1) ∧
    (∀ out st1 w1, Reply S A H (storeOf i) w r out st1 w1 →
      ∃ n o i1, L.call (envOf H atomics (fun _ => false) L.prog L.hasWasi) D n i w r = some (o, i1, w1) ∧ .of o = out ∧ storeOf i1 = st1) := by
  obtain ⟨hc, hw, hex, fs, hL⟩ := C.parts
  rcases hr with ⟨f, t, ls, b, he, hf, ha⟩ | hno
  · -- a function of the module's own
    have hstart : Start S (envOf H atomics (fun _ => false) L.prog L.hasWasi) (A.source H) A.globalTypes i f t ls b r.args := by
      refine ⟨rfl, hc, C.wf.accepted, ?_, hf, ha, hi.globals⟩
      intro t' id hm
      show L.hasWasi = true
      rw [hw]
      simp only [SMod.source, List.mem_append, List.mem_map, reduceCtorEq, and_false, exists_false, or_false] at hm
      obtain ⟨i, hi, _⟩ := hm
      cases hA : A.imports with
      | nil => rw [hA] at hi; cases hi
      | cons => rfl
    have hlen : r.args.length = t.params.length := by rw [← ha]; simp
    have hmis : ¬ Call S (A.source H) ((A.source H).info A.globalTypes) (.wasm t ls b) r.args (storeOf i) w (.odd .misnamed) :=
      call_named C.named (List.mem_of_getElem? hf) hlen hi.has
    have hkeep : ∀ c, Call S (A.source H) ((A.source H).info A.globalTypes) (.wasm t ls b) r.args (storeOf i) w c → TidyC A.stock c :=
      fun c h => call_keeps C.named (List.mem_of_getElem? hf) hlen hi.has h
    obtain ⟨w1, w2, w3, w4, w5, w6⟩ := source_leaves (M := (A.source H).info A.globalTypes) (F := .wasm t ls b) (args := r.args) (w := w)
      C.keeps hi.good (by
        intro y
        cases y with
        | deviates => exact hodd f _ he hf
        | misnamed => exact hmis)
    obtain ⟨m, hm, c1, c2⟩ := call_leaves_partial hstart (fun _ => rfl) C.disp r.ckpt w w5
    have hcall : ∀ n, L.call (envOf H atomics (fun _ => false) L.prog L.hasWasi) D n i w r =
        (m.runL (envOf H atomics (fun _ => false) L.prog L.hasWasi) D r.ckpt n).map fun x => (endValues x.1, x.2) := by
      intro n
      unfold Loaded.call
      rw [(hex r.name f).mpr he]
      simp only
      rw [show Machine.new L.prog i w f r.args = .ok m from hm]
    refine ⟨?_, ?_⟩
    · intro n o i1 w1' h
      rw [hcall, Option.map_eq_some_iff] at h
      obtain ⟨⟨x, l⟩, hx, e⟩ := h
      simp only [Prod.mk.injEq] at e
      obtain ⟨rfl, rfl⟩ := e
      have hA : AnswersL (envOf H atomics (fun _ => false) L.prog L.hasWasi) D r.ckpt m (endValues x) (storeOf i1) w1' :=
        ⟨n, x, (i1, w1'), hx, rfl, rfl, rfl⟩
      have hg := (c1 _ _ _).mpr hA
      have hgl : i1.globals.map (·.value.cls) = A.globalTypes := c2 _ _ _ hA
      generalize endValues x = o at hg hA
      have hfin : (storeOf i1).Has A.stock → Reply S A H (storeOf i) w r (.of o) (storeOf i1) w1' → o ≠ .ub →
          Callable A i1 ∧ o ≠ .ub ∧ Reply S A H (storeOf i) w r (.of o) (storeOf i1) w1' :=
        fun h1 h2 h3 => ⟨⟨hgl, w6 _ _ _ hg, h1⟩, h3, h2⟩
      have herr : (o = .panic ∨ ∃ e, o = .trap e ∧ ∀ c, e ≠ .processExit c) →
          Call S (A.source H) ((A.source H).info A.globalTypes) (.wasm t ls b) r.args (storeOf i) w (.trap (storeOf i1) w1') :=
        fun h => (w3 _ _).mpr ⟨o, hg, h⟩
      rcases o with vs | e | _ | _
      · have k := (w1 _ _ _).mpr hg
        exact hfin (hkeep _ k) (.returns he hf ha k) nofun
      · by_cases hx : ∃ c, e = .processExit c
        · obtain ⟨c, rfl⟩ := hx
          have k := (w2 _ _ _).mpr hg
          exact hfin (hkeep _ k) (.exits he hf ha k) nofun
        · have k := herr (.inr ⟨e, rfl, fun c h => hx ⟨c, h⟩⟩)
          refine hfin (hkeep _ k) ?_ nofun
          rw [show Outcome.of (.trap e) = .error by
            cases e <;> first | rfl | exact (hx ⟨_, rfl⟩).elim]
          exact .traps he hf ha k
      · have k := herr (.inl rfl)
        exact hfin (hkeep _ k) (.traps he hf ha k) nofun
      · exact (w4 _ _ hg).elim
    · intro out st1 w1' h
      have hrun : ∀ o, GivesL S (A.source H) ((A.source H).info A.globalTypes) (.wasm t ls b) r.args (storeOf i) w o st1 w1' →
          ∃ n i1, L.call (envOf H atomics (fun _ => false) L.prog L.hasWasi) D n i w r = some (o, i1, w1') ∧ storeOf i1 = st1 := by
        intro o hg
        obtain ⟨n, x, l, hx, rfl, rfl, rfl⟩ := (c1 _ _ _).mp hg
        exact ⟨n, l.1, by rw [hcall, hx]; rfl, rfl⟩
      have same : ∀ f' F', (r.name, .func f') ∈ A.exports → (A.source H).funcs[f']? = some F' → F' = .wasm t ls b := by
        intro f' F' h1 h2
        cases C.export_eq he h1
        rw [hf] at h2
        cases h2
        rfl
      cases h with
      | returns he' hf' ha' k =>
        cases same _ _ he' hf'
        obtain ⟨n, i1, h1, h2⟩ := hrun _ ((w1 _ _ _).mp k)
        exact ⟨n, _, i1, h1, rfl, h2⟩
      | exits he' hf' ha' k =>
        cases same _ _ he' hf'
        obtain ⟨n, i1, h1, h2⟩ := hrun _ ((w2 _ _ _).mp k)
        exact ⟨n, _, i1, h1, rfl, h2⟩
      | traps he' hf' ha' k =>
        cases same _ _ he' hf'
        obtain ⟨o, hg, ho⟩ := (w3 _ _).mp k
        obtain ⟨n, i1, h1, h2⟩ := hrun _ hg
        refine ⟨n, _, i1, h1, ?_, h2⟩
        rcases ho with rfl | ⟨e, rfl, hne⟩
        · rfl
        · cases e <;> first | rfl | exact (hne _ rfl).elim
      | refused h => exact (h _ _ he hf hlen).elim
  · -- refused
    have hcall : ∀ n, ∃ e, L.call (envOf H atomics (fun _ => false) L.prog L.hasWasi) D n i w r = some (.trap e, i, w) ∧
        ∀ c, e ≠ .processExit c := by
      intro n
      unfold Loaded.call
      cases hx : L.exportFunc r.name with
      | ok f =>
        have he := (hex r.name f).mp hx
        simp only
        unfold Machine.new
        cases hP : L.prog.funcs[f]? with
        | none => exact ⟨_, rfl, nofun⟩
        | some G =>
          cases G with
          | runtime t code =>
            obtain ⟨ls, b, hF⟩ := compile_at hc hP
            simp only
            rw [if_pos (show r.args.length ≠ t.params.length from hno f _ he hF)]
            exact ⟨_, rfl, nofun⟩
          | _ => exact ⟨_, rfl, nofun⟩
      | trap e =>
        refine ⟨e, rfl, ?_⟩
        rintro c rfl
        unfold Loaded.exportFunc at hx
        split at hx <;> cases hx
      | panic => unfold Loaded.exportFunc at hx; split at hx <;> cases hx
      | ub => unfold Loaded.exportFunc at hx; split at hx <;> cases hx
    refine ⟨?_, ?_⟩
    · intro n o i1 w1 h
      obtain ⟨e, h1, h2⟩ := hcall n
      rw [h1] at h
      cases h
      refine ⟨hi, nofun, ?_⟩
      rw [show Outcome.of (.trap e) = .error by cases e <;> first | rfl | exact (h2 _ rfl).elim]
      exact .refused hno
    · intro out st1 w1 h
      have : out = .error ∧ st1 = storeOf i ∧ w1 = w := by
        cases h with
        | returns he' hf' ha' k => exact (hno _ _ he' hf' (by rw [← ha']; simp)).elim
        | exits he' hf' ha' k => exact (hno _ _ he' hf' (by rw [← ha']; simp)).elim
        | traps he' hf' ha' k => exact (hno _ _ he' hf' (by rw [← ha']; simp)).elim
        | refused h => exact ⟨rfl, rfl, rfl⟩
      obtain ⟨rfl, rfl, rfl⟩ := this
      obtain ⟨e, h1, h2⟩ := hcall 0
      refine ⟨0, _, i, h1, ?_, rfl⟩
      cases e <;> first | rfl | exact (h2 _ rfl).elim

/-- the requests that remain after one -/
theorem neverOdd_tail {st : Store} {w : S.W} {r : Request} {rs : List Request} (h : NeverOdd S A H st w (r :: rs)) {o : Outcome}
    {st1 : Store} {w1 : S.W} (hr : Reply S A H st w r o st1 w1) : NeverOdd S A H st1 w1 rs := by
  intro before r' after os st2 w2 f F e hh
  exact h (r :: before) r' after (o :: os) st2 w2 f F (by rw [e]; rfl) (.next hr hh)

theorem history_forth (C : Hosted S A H L atomics D) {i i' : Inst} {w w' : S.W} {rs : List Request} {os : List (Res (List Val))}
    (h : L.Answers (envOf H atomics (fun _ => false) L.prog L.hasWasi) D i w rs os i' w') (hi : Callable A i)
    (hr : ∀ r ∈ rs, Proper A H r) (hodd : NeverOdd S A H (storeOf i) w rs) :
    History S A H (storeOf i) w (rs.take os.length) (os.map .of) (storeOf i') w' ∧
      (os.length = rs.length ∨ os.getLast? = some .panic) := by
  induction h with
  | nil => exact ⟨.nil, .inl rfl⟩
  | @next n i w r rs o i1 w1 os i2 w2 h ha hs ih =>
    obtain ⟨k1, _, k2⟩ := (reply_correct C hi (hr r (.head _)) (fun f F he hf => hodd [] r rs [] _ _ f F rfl .nil he hf)).1 _ _ _ _ h
    obtain ⟨h1, h2⟩ := ih k1 (fun r h => hr r (.tail _ h)) (neverOdd_tail hodd k2)
    refine ⟨.next k2 h1, ?_⟩
    rcases h2 with h2 | h2
    · exact .inl (by simp [h2])
    · refine .inr ?_
      cases os with
      | nil => cases h2
      | cons a l => rw [List.getLast?_cons_cons]; exact h2
  | @dies n i w r rs o i1 w1 h ha =>
    obtain ⟨k1, k3, k2⟩ := (reply_correct C hi (hr r (.head _)) (fun f F he hf => hodd [] r rs [] _ _ f F rfl .nil he hf)).1 _ _ _ _ h
    rcases ha with rfl | rfl
    · exact ⟨.next k2 .nil, .inr rfl⟩
    · exact (k3 rfl).elim

theorem history_back (C : Hosted S A H L atomics D) {st' : Store} {w w' : S.W} {rs : List Request} {outs : List Outcome} {st : Store}
    (h : History S A H st w rs outs st' w') : ∀ {i : Inst}, storeOf i = st → Callable A i → (∀ r ∈ rs, Proper A H r) →
    NeverOdd S A H (storeOf i) w rs → ∃ os i1 w1, L.Answers (envOf H atomics (fun _ => false) L.prog L.hasWasi) D i w rs os i1 w1 ∧
      os.map .of <+: outs ∧ (os.length = rs.length → storeOf i1 = st' ∧ w1 = w') := by
  induction h with
  | nil => exact fun {i} e hi _ _ => ⟨[], i, _, .nil, List.prefix_refl _, fun _ => ⟨e, rfl⟩⟩
  | @next st w r rs o st1 w1 os st2 w2 h hs ih =>
    rintro i rfl hi hr hodd
    obtain ⟨k1, k2⟩ := reply_correct C hi (hr r (.head _)) (fun f F he hf => hodd [] r rs [] _ _ f F rfl .nil he hf)
    obtain ⟨n, o', i1, hcall, rfl, rfl⟩ := k2 _ _ _ h
    obtain ⟨hi1, hub, _⟩ := k1 _ _ _ _ hcall
    by_cases hp : o' = .panic
    · subst hp
      refine ⟨[.panic], i1, w1, .dies hcall (.inl rfl), ⟨os, rfl⟩, fun e => ?_⟩
      cases rs with
      | nil => cases hs; exact ⟨rfl, rfl⟩
      | cons => simp at e
    · obtain ⟨os', i2, w2', h1, h2, h3⟩ := ih rfl hi1 (fun r h => hr r (.tail _ h)) (neverOdd_tail hodd h)
      refine ⟨o' :: os', i2, w2', .next hcall ⟨hp, hub⟩ h1, ?_, fun e => h3 (by simpa using e)⟩
      rw [List.map_cons]
      exact (List.prefix_cons_inj _).mpr h2

/-- **C66** (for well-formed modules in the supported part of WebAssembly and calls that reach none of the deviations of `Spec.Odd`):
with no trigger raised, calls made one after the other on one instance of a module have exactly the outcomes WebAssembly says,
each starting in the memory, globals, tables and outside world the one before has left — also when that one trapped, ended the
process with a code or was refused — until a call panics, which ends the process.  Whichever dispatcher the interpreter is built with, and
whether checkpointing is on, for each call.  Missing from the full claim: after a trap that panics there are no further
calls (`after_panic_violated`). -/
theorem history_correct_partial {S : Wasi} (hS : WasiKeepsSize S) {A : SMod} {H : FloatHost} (h : A.WellFormed S H) (hx : MaxPages A)
    (hN : A.Named H) {P : Prog} (hc : (A.source H).compile A.globalTypes = some P) (hn : (A.exports.map (·.1)).Nodup) {L : Loaded}
    (hl : loadFile (some A.file) = .ok L) (atomics : Bool) {D : DispatcherL}
    (hD : IsDL (envOf H atomics (fun _ => false) L.prog L.hasWasi) D) (world : S.W) {st : Store} (hst : InitialStore A st)
    {rs : List Request} (hr : ∀ r ∈ rs, Proper A H r) (hodd : NeverOdd S A H st world rs) :
    (∀ os i w, L.Answers (envOf H atomics (fun _ => false) L.prog L.hasWasi) D L.inst world rs os i w →
      History S A H st world (rs.take os.length) (os.map .of) (storeOf i) w ∧ (os.length = rs.length ∨ os.getLast? = some .panic)) ∧
    (∀ outs st' w', History S A H st world rs outs st' w' →
      ∃ os i w, L.Answers (envOf H atomics (fun _ => false) L.prog L.hasWasi) D L.inst world rs os i w ∧ os.map .of <+: outs ∧
        (os.length = rs.length → storeOf i = st' ∧ w = w')) := by
  have C : Hosted S A H L atomics D := ⟨hS, h, hx, hN, ⟨P, hc⟩, hn, hl, hD⟩
  obtain ⟨k1, k2⟩ := C.ready
  have hs := initialStore_unique hst k2
  subst hs
  exact ⟨fun os i w ha => history_forth C ha k1 hr hodd, fun outs st' w' hh => history_back C hh rfl k1 hr hodd⟩

/-- a steady module's calls reach no deviation, whatever is called and in which order -/
theorem steady_neverOdd {S : Wasi} {A : SMod} {H : FloatHost} (hA : A.Steady H) (hD : Defined S) {st : Store} (hst : InitialStore A st)
    (w : S.W) (rs : List Request) : NeverOdd S A H st w rs := by
  have hQ := steadyQ hA hD hst
  have keep : ∀ st1 w1 before os st2 w2, History S A H st1 w1 before os st2 w2 → Same st.tables st.mem.isSome st1 →
      Same st.tables st.mem.isSome st2 := by
    intro st1 w1 before os st2 w2 h
    induction h with
    | nil => exact id
    | next h hs ih =>
      intro k
      refine ih ?_
      cases h with
      | returns he hf ha hc => exact call_same hQ (List.mem_of_getElem? hf) k hc
      | traps he hf ha hc => exact call_same hQ (List.mem_of_getElem? hf) k hc
      | exits he hf ha hc => exact call_same hQ (List.mem_of_getElem? hf) k hc
      | refused h => exact k
  intro before r after os st1 w1 f F _ hh _ hf
  exact call_calm hQ (List.mem_of_getElem? hf) (keep _ _ _ _ _ _ hh ⟨rfl, rfl⟩)

end Verif.Props
