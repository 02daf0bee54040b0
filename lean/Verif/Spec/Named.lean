import Verif.Spec.WebAssembly
import Verif.Spec.File
/-
Names: every local, memory, table and data segment a function body mentions exists.  WebAssembly's validation demands this of all
code; `ValidFn` (types of reachable code) does not look at memories, tables and data segments.
-/
namespace Verif.Spec
open Verif.Model

/-- what there is to name: a memory or not, and how many tables and data segments -/
structure Stock where
  mem : Bool
  tables : Nat
  datas : Nat

/-- the locals, memory, table and data segment an operator mentions exist (`nl` locals) -/
def opNamed (N : Stock) (nl : Nat) : WOp → Bool
  | .localGet i | .localSet i | .localTee i => decide (i < nl)
  | .load _ _ | .store _ _ | .memSize | .memGrow | .memCopy | .memFill => N.mem
  | .memInit k => N.mem && decide (k < N.datas)
  | .dataDrop k => decide (k < N.datas)
  | .tableGet t | .tableSet t | .tableFill t | .callIndirect _ t => decide (t < N.tables)
  | _ => true

/-- in a sequence -/
def named (N : Stock) (nl : Nat) : WSeq → Bool
  | .done => true
  | .op o k => opNamed N nl o && named N nl k
  | .block _ b k | .loop _ b k | .ite _ b k => named N nl b && named N nl k
  | .itee _ t e k => named N nl t && named N nl e && named N nl k

/-- what a module has -/
def SMod.stock (A : SMod) : Stock := ⟨!A.mems.isEmpty, A.tables.length, A.datas.length⟩

/-- all function bodies of a module mention only what it has -/
def SMod.Named (A : SMod) (H : FloatHost) : Prop :=
  ∀ t ls b, SFunc.wasm t ls b ∈ (A.source H).funcs → named A.stock (localTypes t.params ls).length b = true

/-- a store with what there is to name -/
structure Store.Has (N : Stock) (st : Store) : Prop where
  mem : N.mem = st.mem.isSome
  tables : st.tables.length = N.tables
  datas : st.datas.length = N.datas

end Verif.Spec
