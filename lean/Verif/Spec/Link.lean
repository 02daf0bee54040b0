import Verif.Spec.Compiled
import Verif.Model.Link
/-
Linking: what an import must be given, and functions that need nothing of their module.
-/
namespace Verif.Spec
open Verif.Model

/-- What the import `(m, n)` of kind `d` is given: the supplied function if it has exactly the declared type, or the built-in
WASI function. -/
def Supplies (imps : ImportObjects) (types : List FuncType) (i : String × String × ImportDesc) (F : FuncInst) : Prop :=
  match i.2.2 with
  | .func ti => imps i.1 i.2.1 = some (.func F) ∧ types[ti]? = some F.type
  | .wasi w => F = .wasi w.type w.id
  | _ => False

/-- block types that are not an index into the module's types -/
def ownBlock : BlockTy → Bool
  | .func _ => false
  | _ => true

/-- operators that use nothing of the module: no globals, memory, tables, data segments, calls, or type indices -/
def ownOp : WOp → Bool
  | .localGet _ | .localSet _ | .localTee _ | .const _ _ | .un _ | .bin _ | .select | .selectT _ | .refNull | .refIsNull
  | .drop | .nop | .unreachable | .br _ | .brIf _ | .brTable _ _ | .ret | .els | .fin => true
  | .block bt | .loop bt | .ite bt => ownBlock bt
  | _ => false

/-- a body of such operators -/
def WSeq.selfContained : WSeq → Bool
  | .done => true
  | .op o k => ownOp o && k.selfContained
  | .block bt b k | .loop bt b k | .ite bt b k => ownBlock bt && b.selfContained && k.selfContained
  | .itee bt t e k => ownBlock bt && t.selfContained && e.selfContained && k.selfContained

/-- a function that needs nothing of its module -/
def SFunc.selfContained : SFunc → Bool
  | .wasm _ _ b => b.selfContained
  | .wasi _ _ => false

/-- operators that use nothing of the module but its types and, by loads and stores, its memory -/
def memOp : WOp → Bool
  | .load _ _ | .store _ _ | .block _ | .loop _ | .ite _ => true
  | o => ownOp o

/-- a body of such operators -/
def WSeq.ownMemory : WSeq → Bool
  | .done => true
  | .op o k => memOp o && k.ownMemory
  | .block _ b k | .loop _ b k | .ite _ b k => b.ownMemory && k.ownMemory
  | .itee _ t e k => t.ownMemory && e.ownMemory && k.ownMemory

/-- a function that needs nothing of its module but loads and stores -/
def SFunc.ownMemory : SFunc → Bool
  | .wasm _ _ b => b.ownMemory
  | .wasi _ _ => false

end Verif.Spec
