import Verif.Spec.Subset
/-
A whole module: its functions as source and as what the interpreter holds after loading it.
-/
namespace Verif.Spec
open Verif.Model

/-- what the preprocessor knows about a function of the index space -/
def SFunc.info : SFunc → Option Nat × FuncType
  | .wasm t _ _ => (none, t)
  | .wasi t id => (some id, t)

/-- what the preprocessor knows about the module -/
def SProg.info (Q : SProg) (globals : List Cls) : MInfo :=
  { types := Q.types, globals := globals, funcs := Q.funcs.map SFunc.info }

/-- the context in which a function of type `t` is compiled -/
def fnCtx (M : MInfo) (t : FuncType) (ls : List (Nat × Cls)) : FnCtx :=
  { M := M, params := t.params, locals := ls, results := t.results }

/-- parser.rs:1160-1260 (a function body), execution/module.rs:84-105 and 186-199 (the function instances) -/
def compileFunc (M : MInfo) : SFunc → Option FuncInst
  | .wasm t ls b => (compileFn (fnCtx M t ls) b.body).map (.runtime t)
  | .wasi t id => some (.wasi t id)

/-- all functions in order; the first that fails to compile fails the module (parser.rs:7470-7485) -/
def compileAll (M : MInfo) : List SFunc → Option (List FuncInst)
  | [] => some []
  | F :: Fs =>
    match compileFunc M F, compileAll M Fs with
    | some G, some Gs => some (G :: Gs)
    | _, _ => none

/-- the program the interpreter runs for this module -/
def SProg.compile (Q : SProg) (globals : List Cls) : Option Prog :=
  (compileAll (Q.info globals) Q.funcs).map fun fs => { types := Q.types, funcs := fs }

/-- Limits of the interpreter on a function: at most eight results (`nine_results_violated`), no declared locals of
reference type (`ref_locals_violated`), and no more registers of a class than a 16 bit index can name. -/
structure Fits (M : MInfo) (t : FuncType) (ls : List (Nat × Cls)) (b : WSeq) : Prop where
  results : t.results.length ≤ 8
  noRefs : ∀ p ∈ ls, p.2 = .ref → p.1 = 0
  regs : ∀ code W, compileFn (fnCtx M t ls) b.body = some code → code.alloc = some W → ∀ c, W c ≤ 65536

/-- A module all of whose functions are translated faithfully. -/
structure Accepted (S : Wasi) (Q : SProg) (globals : List Cls) : Prop where
  faithful : ∀ t ls b, SFunc.wasm t ls b ∈ Q.funcs → Faithful (fnCtx (Q.info globals) t ls) b
  fits : ∀ t ls b, SFunc.wasm t ls b ∈ Q.funcs → Fits (Q.info globals) t ls b
  /-- host functions deliver what their type says -/
  host : ∀ t id, SFunc.wasi t id ∈ Q.funcs → ∀ args m w (r : Option Val) m' w', args.map (·.cls) = t.params →
    S.call id args m w = .ok (some r, m', w') → r.toList.map (·.cls) = t.results
  /-- and at most one result -/
  one : ∀ t id, SFunc.wasi t id ∈ Q.funcs → t.results.length ≤ 1

/-- the part of the instance a program can see -/
def storeOf (i : Inst) : Store := ⟨i.mem, i.globals, i.tables, i.datas⟩

/-- how the interpreter reports an abnormal end -/
def Fail.report {α : Type} : Fail → Res α
  | .trap e => .trap e
  | .panic => .panic
  | .ub => .ub

/-- What WebAssembly says a call of function `F` shows: its results, the memory, globals, tables and data segments it
leaves and the outside world, or how it fails. -/
inductive Gives (S : Wasi) (Q : SProg) (M : MInfo) (F : SFunc) (args : List Val) (st : Store) (w : S.W) :
    Res (List Val × Store × S.W) → Prop
  | ok {n : Nat} {vs : List Val} {st' : Store} {w' : S.W} (h : invoke S Q M n F args st w = .ok vs st' w') :
      Gives S Q M F args st w (.ok (vs, st', w'))
  | fail {n : Nat} {e : Fail} {st' : Store} {w' : S.W} (h : invoke S Q M n F args st w = .fail e st' w') :
      Gives S Q M F args st w e.report

/-- The same, with what is left also by a call that fails: everything done until then. -/
inductive GivesL (S : Wasi) (Q : SProg) (M : MInfo) (F : SFunc) (args : List Val) (st : Store) (w : S.W) :
    Res (List Val) → Store → S.W → Prop
  | ok {n : Nat} {vs : List Val} {st' : Store} {w' : S.W} (h : invoke S Q M n F args st w = .ok vs st' w') :
      GivesL S Q M F args st w (.ok vs) st' w'
  | fail {n : Nat} {e : Fail} {st' : Store} {w' : S.W} (h : invoke S Q M n F args st w = .fail e st' w') :
      GivesL S Q M F args st w e.report st' w'

/-- the call runs into an indirect call of a host function -/
def HitsHost (S : Wasi) (Q : SProg) (M : MInfo) (F : SFunc) (args : List Val) (st : Store) (w : S.W) : Prop :=
  ∃ n, invoke S Q M n F args st w = .gap

end Verif.Spec
