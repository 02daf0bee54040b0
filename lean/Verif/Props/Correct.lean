import Verif.Props.Compiled
import Verif.Props.Programs
/-
C22, C23 (and, through them, C14, C18, C19, C20, C24): the programs the interpreter runs compute what their source says.
-/
namespace Verif.Props
open Verif.Model Verif.Spec Verif.Lemmas

/-- what a finished run shows -/
def shown {S : Wasi} : Res (End S) → Res (List Val × Store × S.W)
  | .ok (.done vs m) => .ok (vs, storeOf m.inst, m.world)
  | .ok (.ckpt _) => .trap .checkpointRequested
  | .trap e => .trap e
  | .panic => .panic
  | .ub => .ub

/-- the interpreter, started in `m`, finishes and shows `o` -/
def Answers {S : Wasi} (E : Env) (D : Dispatcher) (en : Bool) (m : Machine S) (o : Res (List Val × Store × S.W)) : Prop :=
  ∃ n r, m.run E D en n = some r ∧ shown r = o

/-- the observation of `Runs`, without the instance's allocation counter -/
def strip {S : Wasi} : Res (List Val × Inst × S.W) → Res (List Val × Store × S.W)
  | .ok (vs, i, w) => .ok (vs, storeOf i, w)
  | .trap e => .trap e
  | .panic => .panic
  | .ub => .ub

theorem strip_obs {S : Wasi} (r : Res (End S)) : strip (obsE r) = shown r := by
  cases r with
  | ok e => cases e <;> rfl
  | trap e => rfl
  | panic => rfl
  | ub => rfl

theorem answers_iff {S : Wasi} {E : Env} {D : Dispatcher} {en : Bool} {m : Machine S} {o : Res (List Val × Store × S.W)} :
    Answers E D en m o ↔ ∃ o', Runs E D en m o' ∧ strip o' = o := by
  constructor
  · rintro ⟨n, r, h, rfl⟩
    exact ⟨obsE r, ⟨n, r, h, rfl⟩, strip_obs r⟩
  · rintro ⟨o', ⟨n, r, h, rfl⟩, rfl⟩
    exact ⟨n, r, h, (strip_obs r).symm⟩

/-- dispatcher and checkpoint option do not matter while no trigger is raised -/
theorem answers_any {S : Wasi} {E : Env} (hq : Quiet E) (hp : Preprocessed E.P) {D D' : Dispatcher} (hD : IsD E D)
    (hD' : IsD E D') (en en' : Bool) (m : Machine S) (o : Res (List Val × Store × S.W)) :
    Answers E D en m o ↔ Answers E D' en' m o := by
  have key : ∀ {D : Dispatcher} (_ : IsD E D) (en : Bool) o', Runs E D en m o' ↔ Runs E (loopD E) false m o' := by
    intro D hD en o'
    cases hD with
    | loop => exact (checkpoint_option_invisible hq hp.inside m en false o').1
    | tco =>
      exact ((checkpoint_option_invisible hq hp.inside m en false o').2).trans (dispatchers_agree_run hq hp.inside m false o').symm
  rw [answers_iff, answers_iff]
  constructor
  · rintro ⟨o', h, rfl⟩; exact ⟨o', (key hD' en' o').2 ((key hD en o').1 h), rfl⟩
  · rintro ⟨o', h, rfl⟩; exact ⟨o', (key hD en o').2 ((key hD' en' o').1 h), rfl⟩

/-- a run has one result -/
theorem answers_unique {S : Wasi} {E : Env} (hq : Quiet E) (hp : Preprocessed E.P) {D : Dispatcher} (hD : IsD E D) {en : Bool}
    {m : Machine S} {o o' : Res (List Val × Store × S.W)} (h : Answers E D en m o) (h' : Answers E D en m o') : o = o' := by
  rw [answers_any hq hp hD .loop en en] at h h'
  obtain ⟨n, r, h, rfl⟩ := h
  obtain ⟨n', r', h', rfl⟩ := h'
  have a := runLoop_mono (loop_faithful hq) (Nat.le_max_left n n') (Nat.le_max_left n n') h
  have b := runLoop_mono (loop_faithful hq) (Nat.le_max_right n n') (Nat.le_max_right n n') h'
  rw [a] at b
  cases b; rfl

/-- a loaded module was preprocessed -/
theorem compile_preprocessed {Q : SProg} {globals : List Cls} {P : Prog} (h : Q.compile globals = some P) : Preprocessed P := by
  simp only [SProg.compile, Option.map_eq_some_iff] at h
  obtain ⟨Gs, hG, rfl⟩ := h
  intro f t code hf
  have h1 := (compileAll_get hG f).1
  simp only at hf
  rw [hf] at h1
  cases hF : Q.funcs[f]? with
  | none => rw [hF] at h1; cases h1
  | some F =>
    rw [hF] at h1
    simp only [Option.bind_some] at h1
    cases F with
    | wasi t' id => simp [compileFunc] at h1
    | wasm t' ls b =>
      simp only [compileFunc] at h1
      cases hc : compileFn (fnCtx (Q.info globals) t' ls) b.body with
      | none => rw [hc] at h1; cases h1
      | some c =>
        rw [hc] at h1
        simp only [Option.map_some, Option.some.injEq, FuncInst.runtime.injEq] at h1
        obtain ⟨_, rfl⟩ := h1
        exact ⟨_, _, hc⟩

/-- the result of a run with its leavings -/
theorem run_of_runL {S : Wasi} {E : Env} {en : Bool} {n : Nat} {m : Machine S} {r : Res (End S)} {l : Inst × S.W}
    (h : m.runL E (loopDL E) en n = some (r, l)) : m.run E (loopD E) en n = some r := by
  rw [← runL_fst (D := loopD E) (DL := loopDL E) (fun n c d => loopL_fst E c n d), h]; rfl

/-- **C22, C23** (for modules whose functions are in the faithfully translated part of WebAssembly): call an exported
function of a loaded module with arguments of its types, in any store, with either dispatcher, checkpointing on or off
and no trigger raised.  Then
* whatever WebAssembly says the call shows (results, memory, globals, tables, data segments, effects on the outside
  world, or the kind of failure), the interpreter shows;
* conversely, whatever the interpreter shows is what WebAssembly says — in particular the interpreter finishes only if
  the source does;
* except that an indirect call of a host function, which WebAssembly allows, fails. -/
theorem program_correct_partial {S : Wasi} {E : Env} {Q : SProg} {globals : List Cls} {inst : Inst} {f : Nat} {t : FuncType}
    {ls : List (Nat × Cls)} {b : WSeq} {args : List Val} (st : Start S E Q globals inst f t ls b args) (hq : Quiet E)
    {D : Dispatcher} (hD : IsD E D) (en : Bool) (world : S.W) :
    ∃ m, Machine.new E.P inst world f args = .ok m ∧
      (∀ o, Gives S Q (Q.info globals) (.wasm t ls b) args (storeOf inst) world o → Answers E D en m o) ∧
      (¬ HitsHost S Q (Q.info globals) (.wasm t ls b) args (storeOf inst) world →
        ∀ o, Answers E D en m o → Gives S Q (Q.info globals) (.wasm t ls b) args (storeOf inst) world o) ∧
      (HitsHost S Q (Q.info globals) (.wasm t ls b) args (storeOf inst) world → Answers E D en m (.trap .executionFailed)) := by
  have hp := compile_preprocessed st.load
  obtain ⟨m, hm, h1, h2, h3, h4, h5⟩ := run_match st world
  have hfwd : ∀ o, Gives S Q (Q.info globals) (.wasm t ls b) args (storeOf inst) world o → Answers E D en m o := by
    intro o ho
    rw [answers_any hq hp hD .loop en false]
    cases ho with
    | ok h =>
      obtain ⟨m', N, hr, hs, hw, _⟩ := h1 _ _ _ _ h
      exact ⟨N, _, run_of_runL (hr N (Nat.le_refl _)), by rw [shown, hs, hw]⟩
    | @fail n e s w h =>
      obtain ⟨i, N, hr, _⟩ := h2 _ _ _ _ h
      exact ⟨N, _, run_of_runL (hr N (Nat.le_refl _)), by cases e <;> rfl⟩
  refine ⟨m, hm, hfwd, fun hn o ho => ?_, fun ⟨n, hg⟩ => ?_⟩
  · rcases Classical.em (∀ n, invoke S Q (Q.info globals) n (.wasm t ls b) args (storeOf inst) world = .timeout) with hto | hto
    · rw [answers_any hq hp hD .loop en false] at ho
      obtain ⟨N, r, hr, _⟩ := ho
      rw [h5 hto N] at hr; cases hr
    · obtain ⟨n, hto⟩ := Classical.not_forall.mp hto
      cases hi : invoke S Q (Q.info globals) n (.wasm t ls b) args (storeOf inst) world with
      | ok vs s w => rw [answers_unique hq hp hD ho (hfwd _ (.ok hi))]; exact .ok hi
      | fail e s w => rw [answers_unique hq hp hD ho (hfwd _ (.fail hi))]; exact .fail hi
      | stuck => exact absurd hi (h3 n)
      | timeout => exact absurd hi hto
      | gap => exact absurd ⟨n, hi⟩ hn
  · rw [answers_any hq hp hD .loop en false]
    obtain ⟨N, hr⟩ := h4 n hg
    exact ⟨N, _, hr N (Nat.le_refl _), rfl⟩

/-- the source itself has one meaning -/
theorem gives_unique {S : Wasi} {E : Env} {Q : SProg} {globals : List Cls} {inst : Inst} {f : Nat} {t : FuncType}
    {ls : List (Nat × Cls)} {b : WSeq} {args : List Val} (st : Start S E Q globals inst f t ls b args) (hq : Quiet E)
    (world : S.W) {o o' : Res (List Val × Store × S.W)}
    (h : Gives S Q (Q.info globals) (.wasm t ls b) args (storeOf inst) world o)
    (h' : Gives S Q (Q.info globals) (.wasm t ls b) args (storeOf inst) world o') : o = o' := by
  obtain ⟨m, _, h1, _⟩ := program_correct_partial st hq .loop false world
  exact answers_unique hq (compile_preprocessed st.load) .loop (h1 o h) (h1 o' h')

end Verif.Props
