import Verif.Lemmas.Accept
import Verif.Props.WebAssembly
/-
What the preprocessor accepts (C52).
-/
namespace Verif.Props
open Verif.Model Verif.Spec Verif.Lemmas

/-- **C52.** In a module whose host functions have at most one result, the preprocessor accepts a valid function body
exactly if its reachable operators are supported ones: it never stumbles over nesting, branches, the shape of the operand
stack or anything in unreachable code. -/
theorem valid_body_accepted_iff {K : FnCtx} {w : WSeq}
    (hosts : ∀ (f id : Nat) (t : FuncType), K.M.funcs[f]? = some (some id, t) → t.results.length ≤ 1) (hv : ValidFn K w) :
    (∃ code, compileFn K w.body = some code) ↔ supported K w = true :=
  ⟨fun ⟨_, h⟩ => fn_supported hv h, fn_some ⟨hosts⟩ hv⟩

/-- all functions of a list -/
theorem compileAll_some {M : MInfo} : ∀ {Fs : List SFunc}, (∃ Gs, compileAll M Fs = some Gs) ↔ ∀ F ∈ Fs, ∃ G, compileFunc M F = some G
  | [] => by simp [compileAll]
  | F :: Fs => by
    have ih := compileAll_some (M := M) (Fs := Fs)
    simp only [List.mem_cons, forall_eq_or_imp, ← ih, compileAll]
    constructor
    · rintro ⟨Gs, h⟩
      split at h
      · rename_i G Gs' h1 h2
        exact ⟨⟨G, h1⟩, ⟨Gs', h2⟩⟩
      · cases h
    · rintro ⟨⟨G, h1⟩, ⟨Gs', h2⟩⟩
      rw [h1, h2]; exact ⟨_, rfl⟩

/-- A module of valid functions is accepted exactly if all its functions use supported operators only. -/
theorem valid_module_accepted_iff {Q : SProg} {globals : List Cls}
    (hosts : ∀ t id, SFunc.wasi t id ∈ Q.funcs → t.results.length ≤ 1)
    (hv : ∀ t ls b, SFunc.wasm t ls b ∈ Q.funcs → ValidFn (fnCtx (Q.info globals) t ls) b) :
    (∃ P, Q.compile globals = some P) ↔
      ∀ t ls b, SFunc.wasm t ls b ∈ Q.funcs → supported (fnCtx (Q.info globals) t ls) b = true := by
  have hh : ∀ (f id : Nat) (t : FuncType), (Q.info globals).funcs[f]? = some (some id, t) → t.results.length ≤ 1 := by
    intro f id t h
    simp only [SProg.info, List.getElem?_map, Option.map_eq_some_iff] at h
    obtain ⟨F, h1, h2⟩ := h
    cases F with
    | wasm => cases h2
    | wasi t' id' => cases h2; exact hosts _ _ (List.mem_of_getElem? h1)
  have e : (∃ P, Q.compile globals = some P) ↔ ∃ Gs, compileAll (Q.info globals) Q.funcs = some Gs := by
    simp only [SProg.compile, Option.map_eq_some_iff]
    exact ⟨fun ⟨_, Gs, h, _⟩ => ⟨Gs, h⟩, fun ⟨Gs, h⟩ => ⟨_, Gs, h, rfl⟩⟩
  rw [e, compileAll_some]
  constructor
  · intro h t ls b hm
    obtain ⟨G, hG⟩ := h _ hm
    simp only [compileFunc, Option.map_eq_some_iff] at hG
    obtain ⟨c, hc, _⟩ := hG
    exact (valid_body_accepted_iff hh (hv t ls b hm)).mp ⟨c, hc⟩
  · intro h F hm
    cases F with
    | wasi t id => exact ⟨_, rfl⟩
    | wasm t ls b =>
      obtain ⟨c, hc⟩ := (valid_body_accepted_iff hh (hv t ls b hm)).mpr (h t ls b hm)
      exact ⟨_, by simp only [compileFunc, hc]; rfl⟩

/-- The command follows the WebAssembly rules: as `main_is_webassembly`, with a condition on the module's operators in the
place of the assumption that the preprocessor accepts it. -/
theorem main_is_webassembly_of_supported {S : Wasi} (hS : WasiKeepsSize S) {A : SMod} {H : FloatHost} (h : A.WellFormed S H) (hx : MaxPages A) (hN : A.Named H)
    (hsup : ∀ t ls b, SFunc.wasm t ls b ∈ (A.source H).funcs → supported (fnCtx ((A.source H).info A.globalTypes) t ls) b = true)
    (hn : (A.exports.map (·.1)).Nodup) {name : String} {f : Nat}
    (he : (name, .func f) ∈ A.exports) {t : FuncType} {ls : List (Nat × Cls)} {b : WSeq}
    (hf : (A.source H).funcs[f]? = some (.wasm t ls b)) {args : List Val} (hargs : args.map (·.cls) = t.params)
    (atomics : Bool) {D : Env → Dispatcher} (hD : Build D) (enable : Bool) (world : S.W) :
    ∃ st, InitialStore A st ∧
      (¬ Call S (A.source H) ((A.source H).info A.globalTypes) (.wasm t ls b) args st world (.odd .deviates) →
      (∀ vs st' w', MainShows H atomics D enable (some A.file) name args world (.ok (vs, st', w')) ↔
        Call S (A.source H) ((A.source H).info A.globalTypes) (.wasm t ls b) args st world (.ok vs st' w')) ∧
      (∀ c, MainShows (S := S) H atomics D enable (some A.file) name args world (.trap (.processExit c)) ↔
        (∃ st' w', Call S (A.source H) ((A.source H).info A.globalTypes) (.wasm t ls b) args st world (.exit c st' w'))) ∧
      ((∃ o, MainShows (S := S) H atomics D enable (some A.file) name args world o ∧
          (o = .panic ∨ ∃ e, o = .trap e ∧ ∀ c, e ≠ .processExit c)) ↔
        (∃ st' w', Call S (A.source H) ((A.source H).info A.globalTypes) (.wasm t ls b) args st world (.trap st' w'))) ∧
      ¬ MainShows (S := S) H atomics D enable (some A.file) name args world .ub) := by
  obtain ⟨P, hc⟩ := (valid_module_accepted_iff (globals := A.globalTypes) h.accepted.one fun t ls b hm => (h.accepted.faithful t ls b hm).valid).mpr hsup
  obtain ⟨st, hst⟩ := initialStore_exists h hc
  exact ⟨st, hst, main_is_webassembly hS h hx hN hc hn he hf hargs atomics hD enable world hst⟩

/-! ### The assumptions can be met, and what is not supported is rejected -/

/-- the functions of the example file are supported -/
example : ∀ t ls b, SFunc.wasm t ls b ∈ (FileEx.A.source Sample.host).funcs →
    supported (fnCtx ((FileEx.A.source Sample.host).info FileEx.A.globalTypes) t ls) b = true := by
  intro t ls b h
  rcases FileEx.mem_funcs h with ⟨rfl, rfl, rfl⟩ | ⟨rfl, rfl, rfl⟩ <;> decide +kernel

/-- a valid body: nested blocks, a loop, a branch out of it, and an unreachable rest that does not type -/
def knot : WSeq :=
  .block (.val .i32)
    (.loop .empty
      (.op (.localGet 0) <| .ite .empty (.op (.localGet 0) <| .op (.br 2) <| .op (.bin (.int .s64 .add)) <| .op (.globalGet 9) .done) .done)
      <| .op (.const .i32 (1 : BitVec 32)) .done) .done

/-- its context -/
def knotCtx : FnCtx := ⟨⟨[], [], []⟩, [.i32], [], [.i32]⟩

theorem knot_valid : ValidFn knotCtx knot :=
  ⟨by simp [knot, WSeq.Proper, isBracket], some [.i32], by decide +kernel, by decide⟩

example : ∃ code, compileFn knotCtx knot.body = some code :=
  (valid_body_accepted_iff (by intro f id t h; simp [knotCtx] at h) knot_valid).mpr (by decide +kernel)

/-- a valid body that reads a global of reference type -/
def refGlobal : WSeq := .op (.globalGet 0) <| .op .refIsNull .done

/-- its context -/
def refCtx : FnCtx := ⟨⟨[], [.ref], []⟩, [], [], [.i32]⟩

theorem refGlobal_valid : ValidFn refCtx refGlobal :=
  ⟨by simp [refGlobal, WSeq.Proper, isBracket], some [.i32], by decide +kernel, by decide⟩

/-- Globals of reference type are WebAssembly, but functions using them are rejected. -/
theorem reference_globals_rejected : ValidFn refCtx refGlobal ∧ compileFn refCtx refGlobal.body = none := by
  refine ⟨refGlobal_valid, Option.eq_none_iff_forall_ne_some.mpr fun code h => ?_⟩
  have := (valid_body_accepted_iff (by intro f id t h; simp [refCtx] at h) refGlobal_valid).mp ⟨code, h⟩
  revert this; decide +kernel

/-- a valid body that reads a local of the vector type -/
def vecLocal : WSeq := .op (.localGet 0) <| .op .drop .done

/-- its context -/
def vecCtx : FnCtx := ⟨⟨[], [], []⟩, [.v128], [], []⟩

theorem vecLocal_valid : ValidFn vecCtx vecLocal :=
  ⟨by simp [vecLocal, WSeq.Proper, isBracket], some [], by decide +kernel, by decide⟩

/-- Locals of the vector type are rejected as soon as they are used. -/
theorem vector_locals_rejected : ValidFn vecCtx vecLocal ∧ compileFn vecCtx vecLocal.body = none := by
  refine ⟨vecLocal_valid, Option.eq_none_iff_forall_ne_some.mpr fun code h => ?_⟩
  have := (valid_body_accepted_iff (by intro f id t h; simp [vecCtx] at h) vecLocal_valid).mp ⟨code, h⟩
  revert this; decide +kernel

end Verif.Props
