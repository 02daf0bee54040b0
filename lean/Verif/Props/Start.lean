import Verif.Spec.Start
import Verif.Props.WebAssembly
import Verif.Props.SessionEx
import Verif.Props.Loading
/-
C37: what is left of the claim.  The start function is never run (`start_ignored_violated`, `start_not_run_violated`); this
goes unnoticed exactly when running it would have changed nothing.
-/
namespace Verif.Props
open Verif.Model Verif.Spec Verif.Lemmas

/-- **C37** (partial: only modules without a start section, and modules whose start function ends normally and leaves the
initial store and the outside world as they were).  The exported function behaves as WebAssembly says it does after
instantiation.  Missing from the full claim, and false of the code: start functions with an effect and start functions
that trap. -/
theorem start_function_partial {S : Wasi} (hS : WasiKeepsSize S) {A : SMod} {H : FloatHost} (h : A.WellFormed S H) (hx : MaxPages A)
    (hN : A.Named H) {P : Prog} (hc : (A.source H).compile A.globalTypes = some P) (hn : (A.exports.map (·.1)).Nodup) {name : String} {f : Nat}
    (he : (name, .func f) ∈ A.exports) {t : FuncType} {ls : List (Nat × Cls)} {b : WSeq}
    (hf : (A.source H).funcs[f]? = some (.wasm t ls b)) {args : List Val} (hargs : args.map (·.cls) = t.params)
    (atomics : Bool) {D : Env → Dispatcher} (hD : Build D) (enable : Bool) (world : S.W) {st : Store} {w : S.W}
    (hst : Started S A H world st w) (hquiet : A.start = none ∨ (InitialStore A st ∧ w = world))
    (hodd : ¬ Call S (A.source H) ((A.source H).info A.globalTypes) (.wasm t ls b) args st w (.odd .deviates)) :
    (∀ vs st' w', MainShows H atomics D enable (some A.file) name args world (.ok (vs, st', w')) ↔
      Call S (A.source H) ((A.source H).info A.globalTypes) (.wasm t ls b) args st w (.ok vs st' w')) ∧
    (∀ c, MainShows (S := S) H atomics D enable (some A.file) name args world (.trap (.processExit c)) ↔
      (∃ st' w', Call S (A.source H) ((A.source H).info A.globalTypes) (.wasm t ls b) args st w (.exit c st' w'))) ∧
    ((∃ o, MainShows (S := S) H atomics D enable (some A.file) name args world o ∧
        (o = .panic ∨ ∃ e, o = .trap e ∧ ∀ c, e ≠ .processExit c)) ↔
      (∃ st' w', Call S (A.source H) ((A.source H).info A.globalTypes) (.wasm t ls b) args st w (.trap st' w'))) ∧
    ¬ MainShows (S := S) H atomics D enable (some A.file) name args world .ub := by
  have hi : InitialStore A st ∧ w = world := by
    rcases hquiet with hq | hq
    · cases hst with
      | none hs hst => exact ⟨hst, rfl⟩
      | start hs => rw [hq] at hs; cases hs
    · exact hq
  obtain ⟨hi, rfl⟩ := hi
  exact main_is_webassembly hS h hx hN hc hn he hf hargs atomics hD enable w hi hodd

/-- The command on a module with a start section shows what it shows on the same module without it. -/
theorem start_section_invisible_violated {S : Wasi} {A : SMod} {H : FloatHost} (h : A.WellFormed S H) {P : Prog}
    (hc : (A.source H).compile A.globalTypes = some P) (hn : (A.exports.map (·.1)).Nodup) {name : String} {f : Nat}
    (he : (name, .func f) ∈ A.exports) {t : FuncType} {ls : List (Nat × Cls)} {b : WSeq}
    (hf : (A.source H).funcs[f]? = some (.wasm t ls b)) {args : List Val} (hargs : args.map (·.cls) = t.params)
    (atomics : Bool) {D : Env → Dispatcher} (hD : Build D) (enable : Bool) (world : S.W) {st : Store} (hst : InitialStore A st)
    (hh : ¬ HitsHost S (A.source H) ((A.source H).info A.globalTypes) (.wasm t ls b) args st world) (o : Res (List Val × Store × S.W)) :
    MainShows H atomics D enable (some A.file) name args world o ↔
      MainShows H atomics D enable (some ({ A with start := none } : SMod).file) name args world o := by
  have h' : ({ A with start := none } : SMod).WellFormed S H :=
    ⟨h.imports, h.tables, h.mems, ⟨h.decls.imports, h.decls.types, h.decls.mems, h.decls.globals, h.decls.elems, h.decls.datas, h.decls.exports,
      by simp [SMod.decls]⟩, h.globals, h.exports, h.dataLen, h.accepted⟩
  have hst' : InitialStore ({ A with start := none } : SMod) st := ⟨hst.mem, hst.globals, hst.tables, hst.datas⟩
  obtain ⟨a1, a2, _⟩ := main_correct_partial h hc hn he hf hargs atomics hD enable world hst
  obtain ⟨b1, b2, _⟩ := main_correct_partial (A := { A with start := none }) h' hc hn he hf hargs atomics hD enable world hst'
  exact ⟨fun k => b1 o (a2 hh o k), fun k => a1 o (b2 hh o k)⟩

namespace StartEx

/-- looks at the global and leaves it as it is -/
def look : WSeq := .op (.globalGet 0) <| .op .drop .done

/-- a module whose start function changes nothing -/
def A : SMod where
  types := [⟨[], []⟩, ⟨[], [.i32]⟩]
  imports := []
  funcs := [⟨0, [], look⟩, ⟨1, [], LoadEx.get⟩]
  tables := []
  mems := []
  globals := [(true, .i32, [.i32 3])]
  exports := [("get", .func 1)]
  start := some 0
  elems := []
  datas := []

theorem funcs : (A.source Sample.host).funcs = [.wasm ⟨[], []⟩ [] look, .wasm ⟨[], [.i32]⟩ [] LoadEx.get] := by
  simp [SMod.source, A, SMod.type]

theorem mem_funcs {t : FuncType} {ls : List (Nat × Cls)} {b : WSeq} (h : SFunc.wasm t ls b ∈ (A.source Sample.host).funcs) :
    (t = ⟨[], []⟩ ∧ ls = [] ∧ b = look) ∨ (t = ⟨[], [.i32]⟩ ∧ ls = [] ∧ b = LoadEx.get) := by
  rw [funcs] at h
  simp only [List.mem_cons, SFunc.wasm.injEq, List.not_mem_nil, or_false] at h
  exact h

/-- what the preprocessor knows -/
def info : MInfo := (A.source Sample.host).info A.globalTypes

/-- registers a function uses -/
def sizes (t : FuncType) (b : WSeq) : Bool :=
  match compileFn (fnCtx info t []) b.body with
  | some ⟨_, _, some W⟩ => [Cls.i32, .i64, .f32, .f64, .ref, .v128].all fun c => decide (W c ≤ 65536)
  | _ => true

theorem sizes_ok {t : FuncType} {b : WSeq} (h : sizes t b = true) :
    ∀ code W, compileFn (fnCtx info t []) b.body = some code → code.alloc = some W → ∀ c, W c ≤ 65536 := by
  intro code W hc hW c
  obtain ⟨l, bd, al⟩ := code
  simp only at hW
  subst hW
  simp only [sizes, hc, List.all_eq_true, decide_eq_true_eq] at h
  exact h c (by cases c <;> decide)

theorem accepted : Accepted FileEx.wasi (A.source Sample.host) A.globalTypes := by
  refine ⟨fun t ls b h => ?_, fun t ls b h => ?_, fun t id h => ?_, fun t id h => ?_⟩
  · rcases mem_funcs h with ⟨rfl, rfl, rfl⟩ | ⟨rfl, rfl, rfl⟩
    · exact ⟨⟨by simp [look, WSeq.Proper, isBracket], some [], by decide +kernel, by decide⟩, by decide +kernel, by decide +kernel, by decide +kernel⟩
    · exact ⟨⟨by simp [LoadEx.get, WSeq.Proper, isBracket], some [.i32], by decide +kernel, by decide⟩, by decide +kernel, by decide +kernel, by decide +kernel⟩
  · rcases mem_funcs h with ⟨rfl, rfl, rfl⟩ | ⟨rfl, rfl, rfl⟩
    · exact ⟨by decide, by simp, sizes_ok (by decide +kernel)⟩
    · exact ⟨by decide, by simp, sizes_ok (by decide +kernel)⟩
  · rw [funcs] at h; simp at h
  · rw [funcs] at h; simp at h

theorem wellFormed : A.WellFormed FileEx.wasi Sample.host where
  imports := by intro i hi; cases hi
  tables := by intro l hl; cases hl
  mems := by intro l hl; cases hl
  decls :=
    { imports := by intro i hi; cases hi
      types := by
        intro f hf
        simp only [SMod.decls, A, List.map_cons, List.map_nil, List.mem_cons, List.not_mem_nil, or_false] at hf
        rcases hf with rfl | rfl
        · show 0 < 2; decide
        · show 1 < 2; decide
      mems := by intro p hp; cases hp
      globals := by
        intro i m c e h
        have h' : A.globals[i]? = some (m, c, e) := h
        simp only [A] at h'
        rcases i with _ | i
        · simp at h'; obtain ⟨rfl, rfl, rfl⟩ := h'; trivial
        · simp at h'
      elems := by intro e he; cases he
      datas := by intro d hd; cases hd
      exports := by
        intro e he
        simp only [SMod.decls, A, List.mem_cons, List.not_mem_nil, or_false] at he
        subst he; decide
      start := by simp [SMod.decls, A] }
  globals := by
    intro i m c e h v hv
    simp only [A] at h
    rcases i with _ | i
    · simp at h; obtain ⟨rfl, rfl, rfl⟩ := h
      cases hv; rfl
    · simp at h
  exports := by simp [A]
  dataLen := by intro d hd; cases hd
  accepted := accepted

theorem compiles : ∃ P, (A.source Sample.host).compile A.globalTypes = some P := by
  have : ((A.source Sample.host).compile A.globalTypes).isSome = true := by decide +kernel
  exact Option.isSome_iff_exists.mp this

theorem named : A.Named Sample.host := by
  intro t ls b h
  rcases mem_funcs h with ⟨rfl, rfl, rfl⟩ | ⟨rfl, rfl, rfl⟩ <;> decide

/-- the global as it starts -/
theorem store {st : Store} (hst : InitialStore A st) : ∃ v, st.globals[0]? = some ⟨true, v⟩ ∧ v = vi 3 := by
  obtain ⟨h1, h2⟩ := hst.globals
  have h0 : 0 < st.globals.length := by rw [h1]; decide
  obtain ⟨c, e, h3, h4⟩ := h2 0 _ (List.getElem?_eq_getElem h0)
  simp only [A, List.length_cons, List.length_nil, Nat.lt_add_one, getElem?_pos, List.getElem_cons_zero, Option.some.injEq, Prod.mk.injEq] at h3
  obtain ⟨hm, rfl, rfl⟩ := h3
  have hv : st.globals[0].value = vi 3 := by
    generalize st.globals[0].value = v at h4
    cases h4; rfl
  refine ⟨vi 3, ?_, rfl⟩
  rw [List.getElem?_eq_getElem h0]
  generalize hg : st.globals[0] = g at hm hv
  obtain ⟨m, v⟩ := g
  cases hm; cases hv; rfl

theorem get_inv {st : Store} (hg : st.globals[0]? = some ⟨true, vi 3⟩) {w : FileEx.wasi.W} {c : CallOut FileEx.wasi.W}
    (h : Call FileEx.wasi (A.source Sample.host) info (.wasm ⟨[], [.i32]⟩ [] LoadEx.get) [] st w c) : c = .ok [vi 3] st w := by
  have key : ∀ out, Ev FileEx.wasi (A.source Sample.host) info LoadEx.get [] ⟨initialLocals [] [], st, w⟩ out →
      out = .norm [vi 3] ⟨initialLocals [] [], st, w⟩ := by
    intro out h
    have h := ev_next_inv h (by intro y h; cases h <;> simp_all) (.globalGet hg)
    cases h; rfl
  cases h with
  | norm h => cases key _ h; rfl
  | brOut h => cases key _ h
  | retOut h => cases key _ h
  | trapOut h => cases key _ h
  | exitOut h => cases key _ h
  | oddOut h => cases key _ h

/-- `start_function_partial` applies to the example: the start function runs in WebAssembly, changes nothing, and the command
shows the global's value. -/
example (atomics : Bool) {D : Env → Dispatcher} (hD : Build D) (en : Bool) {st : Store} (hst : InitialStore A st) :
    A.start = some 0 ∧ Started FileEx.wasi A Sample.host (0 : Nat) st (0 : Nat) ∧
    MainShows (S := FileEx.wasi) Sample.host atomics D en (some A.file) "get" [] (0 : Nat) (.ok ([vi 3], st, (0 : Nat))) := by
  obtain ⟨_, hg, rfl⟩ := store hst
  have h1 : Started FileEx.wasi A Sample.host (0 : Nat) st (0 : Nat) := by
    refine .start rfl (by rw [funcs]; rfl) hst ?_
    exact .norm (S := FileEx.wasi) (vs := []) (s' := ⟨[], st, (0 : Nat)⟩) (.next (.globalGet hg) (.next .drop .done))
  obtain ⟨P, hP⟩ := compiles
  have hodd : ¬ Call FileEx.wasi (A.source Sample.host) info (.wasm ⟨[], [.i32]⟩ [] LoadEx.get) [] st (0 : Nat) (.odd .deviates) := by
    intro h
    cases get_inv hg h
  exact ⟨rfl, h1, ((start_function_partial FileEx.keeps wellFormed (by intro l hl; cases hl) named hP (by decide) (f := 1) (by simp [A])
    (by rw [funcs]; rfl) rfl atomics hD en (0 : Nat) h1 (.inr ⟨hst, rfl⟩) hodd).1 _ _ _).mpr
    (.norm (S := FileEx.wasi) (vs := [vi 3]) (s' := ⟨[], st, (0 : Nat)⟩) (.next (.globalGet hg) .done))⟩

end StartEx

end Verif.Props
