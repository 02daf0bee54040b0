import Verif.Spec.Source
import Verif.Spec.Subset
import Verif.Lemmas.Exec
import Verif.Lemmas.Regs
import Verif.Props.MigrateEx
/-
C25, and valid function bodies for which the preprocessed code does not do what WebAssembly specifies (C19, C22, C23).
-/
namespace Verif.Props
open Verif.Model Verif.Spec

/-! ## C25 -/

theorem declType_eq : ∀ (ls : List (Nat × Cls)) (i : Nat),
    i < (ls.flatMap fun p => List.replicate p.1 p.2).length →
    (ls.flatMap fun p => List.replicate p.1 p.2)[i]? = some (declType ls i)
  | [], i, h => by simp at h
  | (n, c) :: ls, i, h => by
    simp only [List.flatMap_cons, List.length_append, List.length_replicate] at h ⊢
    rw [declType]
    split
    · rename_i hi
      rw [List.getElem?_append_left (by simpa using hi), List.getElem?_replicate, if_pos hi]
    · rename_i hi
      rw [List.getElem?_append_right (by simpa using hi), List.length_replicate]
      exact declType_eq ls (i - n) (by omega)

/-- **C25**: the class the preprocessor uses for a local index is that of the WebAssembly local index space. -/
theorem local_types_resolved (params : List Cls) (locals : List (Nat × Cls)) (i : Nat)
    (h : i < (localTypes params locals).length) :
    (localTypes params locals)[i]? = some (getLocalType params locals i) := by
  simp only [localTypes, List.length_append] at h ⊢
  rw [getLocalType]
  split
  · rename_i c hc
    rw [List.getElem?_append_left (List.getElem?_eq_some_iff.mp hc).1, hc]
  · rename_i hc
    rw [List.getElem?_eq_none_iff] at hc
    rw [List.getElem?_append_right hc]
    exact declType_eq locals _ (by omega)

/-- two parameters, then runs of 0, 3 and 2 declared locals -/
example : (localTypes [.i32, .f64] [(0, .ref), (3, .i64), (2, .f32)])[6]? = some Cls.f32 ∧
    getLocalType [.i32, .f64] [(0, .ref), (3, .i64), (2, .f32)] 6 = .f32 := by decide

/-! ## Running a body both ways -/

/-- a module with this one function -/
def oneProg (K : FnCtx) (w : WSeq) : Prog :=
  { types := K.M.types
    funcs := match compileFn K w.body with | some c => [.runtime ⟨K.params, K.results⟩ c] | none => [] }

/-- the same module as source -/
def oneSrc (K : FnCtx) (w : WSeq) : SProg :=
  { H := Sample.host, types := K.M.types, funcs := [.wasm ⟨K.params, K.results⟩ K.locals w] }

/-- no triggers, no WASI -/
def oneEnv (K : FnCtx) (w : WSeq) : Env :=
  { H := Sample.host, P := oneProg K w, atomics := false, hasWasi := false, trig := fun _ => false }

/-- nothing in the store -/
def noStore : Store := ⟨none, [], [], []⟩
/-- nothing in the instance -/
def noInst : Inst := ⟨none, 0, [], [], []⟩

/-- the machine about to run the function -/
def oneMachine (K : FnCtx) (w : WSeq) (args : List Val) : Res (Machine Sample.wasi) :=
  Machine.new (oneProg K w) noInst () 0 args

/-- what the interpreter answers -/
def target (K : FnCtx) (w : WSeq) (args : List Val) (fuel : Nat) : Option (Res (List Val)) :=
  match oneMachine K w args with
  | .ok m =>
    match m.run (oneEnv K w) (loopD (oneEnv K w)) false fuel with
    | some (.ok (.done vs _)) => some (.ok vs)
    | some (.trap e) => some (.trap e)
    | some .panic => some .panic
    | some .ub => some .ub
    | _ => none
  | _ => none

/-- what WebAssembly specifies -/
def source (K : FnCtx) (w : WSeq) (args : List Val) (fuel : Nat) : Option (List Val) :=
  match invoke Sample.wasi (oneSrc K w) K.M fuel (.wasm ⟨K.params, K.results⟩ K.locals w) args noStore () with
  | .ok vs _ _ => some vs
  | _ => none

/-- an i32 value -/
abbrev vi (n : Nat) : Val := ⟨.i32, BitVec.ofNat 32 n⟩
/-- an i32 constant -/
abbrev ci (n : Nat) : WOp := .const .i32 (BitVec.ofNat 32 n)

/-- function context: types, parameters, locals, results -/
def ctx (types : List FuncType) (params : List Cls) (locals : List (Nat × Cls)) (results : List Cls) : FnCtx :=
  { M := { types := types, globals := [], funcs := [(none, ⟨params, results⟩)] }, params := params, locals := locals,
    results := results }

/-- a sequence of plain operators -/
def seq : List WOp → WSeq
  | [] => .done
  | o :: os => .op o (seq os)

theorem seq_proper : ∀ os : List WOp, os.all (fun o => !isBracket o) = true → (seq os).Proper
  | [], _ => trivial
  | o :: os, h => by
    simp only [List.all_cons, Bool.and_eq_true, Bool.not_eq_true'] at h
    exact ⟨h.1, seq_proper os h.2⟩

namespace Bug

/-- `i32.const 31; local.get 0; i32.clz; i32.sub`: highest set bit -/
def clz : WSeq := seq [ci 31, .localGet 0, .un (.int .s32 .clz), .bin (.int .s32 .sub)]
/-- its context -/
def clzK : FnCtx := ctx [] [.i32] [] [.i32]

/-- **C22 is false of the code**: a valid straight-line body (the position of the highest set bit) for which the
preprocessed code computes something else: of 1 it makes -31 instead of 0. -/
theorem straight_line_correct_violated : ValidFn clzK clz ∧ source clzK clz [vi 1] 2 = some [vi 0] ∧
    target clzK clz [vi 1] 20 = some (.ok [⟨.i32, -31⟩]) :=
  ⟨⟨seq_proper _ rfl, _, rfl, by decide⟩, by decide +kernel, by decide +kernel⟩

/-- `i32.const 7; br 0` -/
def top : WSeq := seq [ci 7, .br 0]
/-- its context -/
def topK : FnCtx := ctx [] [] [] [.i32]

/-- **C19 is false of the code**: a branch to the function's own label loses the results. -/
theorem function_label_branch_returns_violated : ValidFn topK top ∧ source topK top [] 2 = some [vi 7] ∧
    target topK top [] 20 = some (.ok []) :=
  ⟨⟨seq_proper _ rfl, _, rfl, by decide⟩, by decide +kernel, by decide +kernel⟩

/-- `local.get 0; br_table 0` -/
def table : WSeq := seq [.localGet 0, .brTable [] 0]
/-- its context -/
def tableK : FnCtx := ctx [] [.i32] [] []

/-- the body it is compiled to: the jump goes to the first instruction -/
def tableBody : List Instr :=
  [.op1 (.mov .i32) (.reg 0) (.param 0), .brTable [] (0, 0, []) 0 [], .fin [] []]

theorem tableBody_eq : (oneProg tableK table).body 0 = tableBody := rfl

/-- the machine about to run it -/
def tableM : Machine Sample.wasi := okD ⟨RegFile.empty, [], noInst, (), 0⟩ (oneMachine tableK table [vi 0])
/-- its frame -/
def tableF : Frame := newFrame noInst 0 ⟨[.i32], []⟩ [vi 0] false
/-- the running function before its first instruction -/
def table0 : VM := (tableM.enter tableF).vm

theorem table_step0 : step Sample.host (oneProg tableK table) 3 table0
    (.op1 (.mov .i32) (.reg 0) (.param 0)) = .ok (.cont { table0 with pc := 1 }) := by
  have : table0.rf.set .i32 0 (0 : BitVec 32) = .ok table0.rf := by
    show Res.ok _ = _
    congr 1
    refine Verif.Lemmas.RegFile.ext' ?_ rfl rfl
    intro c; cases c <;> rfl
  show ((do
    let rf ← table0.rf.set .i32 0 (0 : BitVec 32)
    pure { table0 with rf := rf } : Res VM) >>= fun s => Res.ok (Out.cont s.next)) = _
  rw [this]; rfl

/-- **C19 is false of the code** in another way: `br_table` to the function's label restarts the function.  This body,
which should return at once, runs forever. -/
theorem function_label_br_table_violated : ValidFn tableK table ∧ source tableK table [vi 0] 2 = some [] ∧
    ∃ m, oneMachine tableK table [vi 0] = .ok m ∧
      ∀ fuel, m.run (oneEnv tableK table) (loopD (oneEnv tableK table)) false fuel = none := by
  refine ⟨⟨seq_proper _ rfl, _, rfl, by decide⟩, by decide +kernel, tableM, rfl, ?_⟩
  intro fuel
  have s0 : CStep (oneEnv tableK table) (⟨tableM, table0⟩ : Conf Sample.wasi) ⟨tableM, { table0 with pc := 1 }⟩ :=
    .cont (f := tableF) (fs := []) rfl (i := .op1 (.mov .i32) (.reg 0) (.param 0)) rfl table_step0
  have s1 : CStep (oneEnv tableK table) (⟨tableM, { table0 with pc := 1 }⟩ : Conf Sample.wasi) ⟨tableM, table0⟩ :=
    .cont (f := tableF) (fs := []) rfl (i := .brTable [] (0, 0, []) 0 []) rfl rfl
  have hp : ∀ n, CPath (oneEnv tableK table) (n * 2) (⟨tableM, table0⟩ : Conf Sample.wasi) ⟨tableM, table0⟩ := by
    intro n
    induction n with
    | zero => exact .nil _
    | succ n ih => rw [Nat.succ_mul]; exact ih.append (.cons s0 (.one s1))
  exact run_diverges (f := tableF) (fs := []) (m := tableM) (fun f hf => by
    rw [show tableM.frames = [tableF] from rfl, List.mem_singleton] at hf; subst hf; rfl) rfl
    (fun n => ⟨n * 2, _, by omega, hp n⟩) fuel fuel

/-- `i32.const 5; i64.const 6; block (result i32 i64) i32.const 1; i64.const 2; br 0 end; drop; return` -/
def mixed : WSeq :=
  .op (ci 5) (.op (.const .i64 (6 : BitVec 64)) (.block (.func 0)
    (seq [ci 1, .const .i64 (2 : BitVec 64), .br 0]) (seq [.drop, .ret])))
/-- its context -/
def mixedK : FnCtx := ctx [⟨[], [.i32, .i64]⟩] [] [] [.i32]

/-- **C23 is false of the code**: a branch carrying results of different types takes them from wrong registers. -/
theorem branch_results_violated : ValidFn mixedK mixed ∧ source mixedK mixed [] 2 = some [vi 1] ∧
    target mixedK mixed [] 30 = some (.ok [vi 5]) :=
  ⟨⟨⟨rfl, rfl, seq_proper _ rfl, seq_proper _ rfl⟩, _, rfl, by decide⟩, by decide +kernel, by decide +kernel⟩

/-- the same branch when nothing lies below, reached through a second bracket:
`block (result i32 i64) block i32.const 1; i64.const 2; br 1 end; unreachable end; drop; return` -/
def bottom : WSeq :=
  .block (.func 0) (.block .empty (seq [ci 1, .const .i64 (2 : BitVec 64), .br 1]) (seq [.unreachable])) (seq [.drop, .ret])

/-- Results of different types are carried properly where each is the first of its type in the function; a declared local of
the type is enough to break it. -/
theorem bottom_faithful : Spec.Faithful mixedK bottom ∧ target mixedK bottom [] 30 = some (.ok [vi 1]) ∧
    Spec.plain (ctx [⟨[], [.i32, .i64]⟩] [] [(1, .i32)] [.i32]) [⟨[.i32], false, []⟩] bottom [] = false ∧
    target (ctx [⟨[], [.i32, .i64]⟩] [] [(1, .i32)] [.i32]) bottom [] 30 = some (.ok [vi 0]) :=
  ⟨⟨⟨⟨⟨seq_proper _ rfl, seq_proper _ rfl⟩, seq_proper _ rfl⟩, _, rfl, by decide⟩, by decide +kernel, by decide +kernel, by decide +kernel⟩,
    by decide +kernel, by decide +kernel, by decide +kernel⟩

/-- a loop with a parameter, restarted with another value on the stack below the new parameter:
`i32.const 3; loop (param i32) (result) local.set 1; i32.const 77; i32.const 88; local.get 0; i32.const 1; local.set 0;
i32.eqz; br_if 0; drop; drop end; local.get 1` -/
def loopParam : WSeq :=
  .op (ci 3) (.loop (.func 0)
    (seq [.localSet 1, ci 77, ci 88, .localGet 0, ci 1, .localSet 0, .un (.eqz .s32), .brIf 0, .drop, .drop])
    (seq [.localGet 1]))
/-- its context -/
def loopParamK : FnCtx := ctx [⟨[.i32], []⟩] [] [(2, .i32)] [.i32]

/-- **C23 is false of the code** in another way: a branch to a loop does not move the loop parameters into place.
(Without other operands in between they are in place anyway: `fact_faithful`.) -/
theorem loop_parameters_violated : ValidFn loopParamK loopParam ∧ source loopParamK loopParam [] 4 = some [vi 88] ∧
    target loopParamK loopParam [] 60 = some (.ok [vi 77]) :=
  ⟨⟨⟨rfl, seq_proper _ rfl, seq_proper _ rfl⟩, _, rfl, by decide⟩, by decide +kernel, by decide +kernel⟩

/-- The factorial, with a loop that takes parameters of two classes; whenever it is restarted they are the only operands
above its base: `i64.const 1; local.get 0; loop (param i64 i32) (result i64) local.set 1; local.get 1; i64.extend_i32_u;
i64.mul; local.get 1; i32.const 1; i32.sub; local.tee 1; local.get 1; br_if 0; drop end` -/
def fact : WSeq :=
  .op (.const .i64 (1 : BitVec 64)) (.op (.localGet 0) (.loop (.func 0)
    (seq [.localSet 1, .localGet 1, .un .extU, .bin (.int .s64 .mul), .localGet 1, ci 1, .bin (.int .s32 .sub),
      .localTee 1, .localGet 1, .brIf 0, .drop]) .done))
/-- its context -/
def factK : FnCtx := ctx [⟨[.i64, .i32], [.i64]⟩] [.i32] [(1, .i32)] [.i64]

/-- Loops with parameters are not excluded as such: this one is translated faithfully … -/
theorem fact_faithful : Spec.Faithful factK fact :=
  ⟨⟨⟨rfl, rfl, seq_proper _ rfl, trivial⟩, _, rfl, by decide⟩, by decide, by decide, by decide⟩

/-- … and computes what it should -/
example : source factK fact [vi 5] 8 = some [⟨.i64, (120 : BitVec 64)⟩] ∧
    target factK fact [vi 5] 100 = some (.ok [⟨.i64, (120 : BitVec 64)⟩]) := by
  constructor <;> decide +kernel

/-- `local.get 0; local.get 1; i32.eqz; i32.store`: keep the answer to a comparison -/
def keepFlag : WSeq := seq [.localGet 0, .localGet 1, .un (.eqz .s32), .store .i32 0]
/-- its context -/
def keepFlagK : FnCtx := ctx [] [.i32, .i32] [] []

/-- Two waiting operands before a unary operator do no harm when its result is stored: the address is fetched from where it
waits. Only other consumers of the first operand go wrong (`straight_line_correct_violated`). -/
theorem keepFlag_faithful : Spec.Faithful keepFlagK keepFlag :=
  ⟨⟨seq_proper _ rfl, _, rfl, by decide⟩, by decide, by decide, by decide⟩

/-- … and it is this instruction, not another, that the rule of the subset is about -/
example : Spec.crossed clzK clz = true ∧ Spec.crossed keepFlagK keepFlag = false := by decide

/-- `local.get 0; ref.null; i32.const 1; select (result funcref); ref.is_null` -/
def sel : WSeq := seq [.localGet 0, .refNull, ci 1, .selectT .ref, .refIsNull]
/-- its context -/
def selK : FnCtx := ctx [] [.ref] [] [.i32]

/-- **C14 and C22 are false of the code** for `select` on references: it uses the 64-bit integer registers, of which the
frame has none. -/
theorem select_on_references_violated : ValidFn selK sel ∧ source selK sel [⟨.ref, .func 0⟩] 2 = some [vi 0] ∧
    target selK sel [⟨.ref, .func 0⟩] 20 = some .ub :=
  ⟨⟨seq_proper _ rfl, _, rfl, by decide⟩, by decide +kernel, by decide +kernel⟩

end Bug
end Verif.Props
