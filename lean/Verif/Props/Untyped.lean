import Verif.Lemmas.Untyped
import Verif.Props.Unsupported
import Verif.Props.Loading
/-
What becomes of function bodies that are not valid WebAssembly (C67).
-/
namespace Verif.Props
open Verif.Model Verif.Spec Verif.Lemmas

theorem compRunD_run {K : FnCtx} {bad : Bool} : ∀ {n : Nat} {st fin : CS} {ops : List WOp}, compRunD K bad n st ops = .ok fin →
    bad = false ∧ compRun K n st ops = some fin
  | n, st, fin, [], h => by
    cases n <;>
    · simp only [compRunD] at h
      split at h
      · cases h
      · rename_i hb
        split at h
        · rename_i he; cases h; exact ⟨by simpa using hb, by simp only [compRun, he, if_true]⟩
        · cases h
  | 0, _, _, _ :: _, h => by simp [compRunD] at h
  | n + 1, st, fin, o :: rest, h => by
    simp only [compRunD] at h
    split at h
    · split at h <;> cases h
    · rename_i st1 r hc
      obtain ⟨h1, h2⟩ := compRunD_run h
      exact ⟨h1, by simp only [compRun, hc, h2]⟩

theorem decodeCode_run {s s' : PSt} {ls : List (Nat × Cls)} {ops : List WOp} {bad : Bool} (h : decodeCode s ls ops bad = .ok s') :
    bad = false ∧ ∃ K fin, compRun K ops.length (CS.init K) ops = some fin := by
  unfold decodeCode at h
  simp only at h
  split at h
  · rename_i st hr
    obtain ⟨h1, h2⟩ := compRunD_run hr
    exact ⟨h1, _, _, h2⟩
  · cases h
  · cases h

theorem parseFrom_code : ∀ {ps : List Payload} {s s' : PSt}, parseFrom s ps = .ok s' → ∀ {ls : List (Nat × Cls)} {ops : List WOp} {bad : Bool},
    .code ls ops bad ∈ ps → ∃ t t', decodeCode t ls ops bad = .ok t'
  | [], _, _, _, _, _, _, hm => by cases hm
  | p :: ps, s, s', h, ls, ops, bad, hm => by
    simp only [parseFrom] at h
    cases hp : decodePayload s p with
    | err => rw [hp] at h; cases h
    | panic => rw [hp] at h; cases h
    | ok s1 =>
      rw [hp] at h
      rcases List.mem_cons.mp hm with rfl | hm
      · exact ⟨s, s1, hp⟩
      · exact parseFrom_code h hm

/-- **C67** (partial: of the validity conditions, the nesting of blocks).  In every file that is decoded without an error,
every function body is decoded to its last operator and none of its prefixes closes more blocks than it opens: nothing
follows the `end` of the function. -/
theorem early_end_refused_partial {file : List Payload} {s : PSt} (h : parseFile (some file) = .ok s) {ls : List (Nat × Cls)}
    {pre post : List WOp} {bad : Bool} (hm : .code ls (pre ++ post) bad ∈ file) (hp : post ≠ []) :
    bad = false ∧ closed pre ≤ opened pre := by
  obtain ⟨t, t', ht⟩ := parseFrom_code h hm
  obtain ⟨h1, K, fin, h2⟩ := decodeCode_run ht
  have := run_prefix h2 rfl hp
  exact ⟨h1, by simpa [level, CS.init] using this⟩

/-- **C67** (partial: bodies without `br`, `br_table`, `return` and `unreachable`; see `UntypedEx.unclosed_violated` for the
others).  In every file that is decoded without an error, every such body closes all blocks it opens. -/
theorem unclosed_refused_partial {file : List Payload} {s : PSt} (h : parseFile (some file) = .ok s) {ls : List (Nat × Cls)}
    {ops : List WOp} {bad : Bool} (hm : .code ls ops bad ∈ file) (hl : ∀ o ∈ ops, leaves o = false) :
    opened ops ≤ closed ops := by
  obtain ⟨t, t', ht⟩ := parseFrom_code h hm
  obtain ⟨_, K, fin, h2⟩ := decodeCode_run ht
  have := run_closed h2 rfl hl
  simpa [level, CS.init] using this

/-- **C67 is false of the code**: beyond the nesting, nothing is checked.  Whatever the operand types, the local and global
indices, the branch depths, the indices of called functions and the result types: a properly bracketed body of operators
of the interpreter's repertoire is translated. -/
theorem types_unchecked_violated {K : FnCtx} {w : WSeq} (hp : w.Proper) (hs : repSeq K w = true) :
    ∃ code, compileFn K w.body = some code := plain_fn hp hs

/-- every function of a module is bracketed and uses operators of the repertoire -/
def _root_.Verif.Spec.SMod.Repertoire (A : SMod) (H : FloatHost) : Prop :=
  ∀ d ∈ A.funcs, d.body.Proper ∧ repSeq (fnCtx ((A.source H).info A.globalTypes) (A.type d.type) d.locals) d.body = true

/-- **C67 is false of the code**, for files: a module whose declarations are in order is loaded, whatever its function bodies
do with the operand stack. -/
theorem invalid_module_loads_violated {A : SMod} {H : FloatHost} (h : A.Declared) (hr : A.Repertoire H) :
    ∃ L, loadFile (some A.file) = .ok L := by
  have hall : ∃ Gs, compileAll ((A.source H).info A.globalTypes) (A.source H).funcs = some Gs := by
    refine compileAll_some.mpr fun F hm => ?_
    cases F with
    | wasi t id => exact ⟨_, rfl⟩
    | wasm t ls b =>
      simp only [SMod.source, List.mem_append, List.mem_map, SFunc.wasm.injEq] at hm
      rcases hm with ⟨i, _, he⟩ | ⟨d, hd, rfl, rfl, rfl⟩
      · simp only [hostFunc] at he
        split at he <;> cases he
      · obtain ⟨c, hc⟩ := types_unchecked_violated (hr d hd).1 (hr d hd).2
        exact ⟨_, by simp only [compileFunc, hc]; rfl⟩
  obtain ⟨Gs, hG⟩ := hall
  have hc : (A.source H).compile A.globalTypes = some { types := (A.source H).types, funcs := Gs } := by
    simp only [SProg.compile, hG]; rfl
  obtain ⟨_, L, _, _, hL, _⟩ := load_declared h hc
  exact ⟨L, hL⟩

namespace UntypedEx

/-- a module with one exported function of type `[] → [i32]` -/
def A (b : WSeq) : SMod where
  types := [⟨[], [.i32]⟩]
  imports := []
  funcs := [⟨0, [], b⟩]
  tables := []
  mems := []
  globals := []
  exports := [("run", .func 0)]
  start := none
  elems := []
  datas := []

/-- adds two operands that are not there -/
def addNothing : WSeq := .op (.bin (.int .s32 .add)) .done
/-- tests an i64 operand that is not there -/
def testNothing : WSeq := .op (.un (.eqz .s64)) .done
/-- sets a local that does not exist, branches out of more blocks than there are, calls a function that does not exist -/
def strange : WSeq := .op (.localSet 7) <| .block (.val .f64) (.op (.br 3) .done) <| .op (.call 99) .done

theorem declared (b : WSeq) : (A b).Declared := by
  refine ⟨nofun, nofun, nofun, ?_, by simp [A]⟩
  exact {
    imports := nofun
    types := by intro f hf; simp only [SMod.decls, A, List.map_cons, List.map_nil, List.mem_singleton] at hf; subst hf; exact Nat.one_pos
    mems := nofun
    globals := nofun
    elems := nofun
    datas := nofun
    exports := by intro e he; simp only [SMod.decls, A, List.mem_singleton, List.map_cons, List.map_nil] at he; subst he; simp [SMod.decls, A]
    start := by simp [SMod.decls, A] }

/-- none of these bodies is valid … -/
theorem not_valid : ∀ b ∈ [addNothing, testNothing, strange], ¬ ValidFn (fnCtx ((A b).source Sample.host |>.info (A b).globalTypes) ⟨[], [.i32]⟩ []) b := by
  intro b hb
  have h : check (fnCtx ((A b).source Sample.host |>.info (A b).globalTypes) ⟨[], [.i32]⟩ []) [[.i32]] b [] = none := by
    simp only [List.mem_cons, List.not_mem_nil, or_false] at hb
    rcases hb with rfl | rfl | rfl <;> rfl
  intro hv
  obtain ⟨τ, h1, _⟩ := hv.typed
  exact absurd (h1.symm.trans h) (by simp)

/-- … and all are loaded. -/
example : ∀ b ∈ [addNothing, testNothing, strange], ∃ L, loadFile (some (A b).file) = .ok L := by
  intro b hb
  refine invalid_module_loads_violated (H := Sample.host) (declared b) ?_
  intro d hd
  simp only [A, List.mem_singleton] at hd
  subst hd
  simp only [List.mem_cons, List.not_mem_nil, or_false] at hb
  rcases hb with rfl | rfl | rfl
  · exact ⟨by simp [addNothing, WSeq.Proper, isBracket], rfl⟩
  · exact ⟨by simp [testNothing, WSeq.Proper, isBracket], rfl⟩
  · exact ⟨by simp [strange, WSeq.Proper, isBracket], rfl⟩

/-- **C67 is false of the code.**  The body `i32.add` in a function without parameters is not valid; the command runs it and
shows 0, with either dispatcher. -/
theorem invalid_runs_violated :
    (∀ atomics en, LoadEx.results (mainRun (S := LoadEx.wasi) (envOf Sample.host atomics fun _ => false) loopD en 10 (some (A addNothing).file) "run" [] ())
      = some [vi 0]) ∧
    (∀ atomics en, LoadEx.results (mainRun (S := LoadEx.wasi) (envOf Sample.host atomics fun _ => false) tcoD en 10 (some (A addNothing).file) "run" [] ())
      = some [vi 0]) := by
  constructor <;> decide +kernel

/-- The body `i64.eqz` in a function without i64 registers makes it read outside its register file, without a bounds check. -/
theorem invalid_ub_violated :
    (∀ atomics en, LoadEx.isUb (mainRun (S := LoadEx.wasi) (envOf Sample.host atomics fun _ => false) loopD en 10 (some (A testNothing).file) "run" [] ())
      = true) ∧
    (∀ atomics en, LoadEx.isUb (mainRun (S := LoadEx.wasi) (envOf Sample.host atomics fun _ => false) tcoD en 10 (some (A testNothing).file) "run" [] ())
      = true) := by
  constructor <;> decide +kernel

/-- a file with one function whose body is the given operators -/
def raw (ops : List WOp) : List Payload := [.version 1, .types [some ⟨[], []⟩], .funcs [some 0], .code [] ops false]

/-- is the file decoded without an error -/
def decoded : Parsed → Bool
  | .ok _ => true
  | _ => false

/-- **C67 is false of the code**, for nesting too: behind an operator that leaves, blocks that are never closed and `else`s
that belong to no `if` go unnoticed, and so does a body without its final `end`. -/
theorem unclosed_violated :
    decoded (parseFile (some (raw [.unreachable, .block .empty, .loop .empty]))) = true ∧
    decoded (parseFile (some (raw [.unreachable, .block .empty, .els, .els, .fin, .fin]))) = true ∧
    decoded (parseFile (some (raw [.nop]))) = true := by
  refine ⟨?_, ?_, ?_⟩ <;> decide +kernel

/-- bodies that are not nested properly, and are refused -/
example : decoded (parseFile (some (raw [.fin, .nop, .fin]))) = false ∧ decoded (parseFile (some (raw [.block .empty, .nop]))) = false ∧
    decoded (parseFile (some (raw [.block .empty, .els, .fin, .fin]))) = false := by decide +kernel

/-- a file to which the two theorems apply -/
example : closed [.block .empty, .nop] ≤ opened [.block .empty, .nop] ∧ opened [.block .empty, .nop, .fin, .fin] ≤ closed [.block .empty, .nop, .fin, .fin] := by
  have h : ∃ s, parseFile (some (raw [.block .empty, .nop, .fin, .fin])) = .ok s := by
    have : decoded (parseFile (some (raw [.block .empty, .nop, .fin, .fin]))) = true := by decide +kernel
    revert this
    cases parseFile (some (raw [.block .empty, .nop, .fin, .fin])) <;> simp [decoded]
  obtain ⟨s, hs⟩ := h
  exact ⟨(early_end_refused_partial hs (ls := []) (pre := [.block .empty, .nop]) (post := [.fin, .fin]) (bad := false) (by simp [raw]) (by simp)).2,
    unclosed_refused_partial hs (ls := []) (bad := false) (by simp [raw]) (by decide)⟩

end UntypedEx
end Verif.Props
