import Verif.Spec.Named
/-
Programs that cannot reach any of the places where the interpreter deviates from WebAssembly.
-/
namespace Verif.Spec
open Verif.Model

/-- operators that behave as WebAssembly says wherever they are used; and those that write tables are left out -/
def steadyOp : WOp → Bool
  | .load _ _ | .store _ _ | .memCopy | .memFill | .memInit _ | .memGrow | .tableSet _ | .tableFill _ => false
  | .un (.trunc op) => decide (op ≠ .i32_f32_s ∧ op ≠ .i32_f32_u)
  | _ => true

/-- sequences of such operators -/
def steady : WSeq → Bool
  | .done => true
  | .op o k => steadyOp o && steady k
  | .block _ b k | .loop _ b k | .ite _ b k => steady b && steady k
  | .itee _ t e k => steady t && steady e && steady k

/-- A module of steady functions: no element segment mentions an imported function, and it has a memory if it imports anything. -/
structure SMod.Steady (A : SMod) (H : FloatHost) : Prop where
  bodies : ∀ t ls b, SFunc.wasm t ls b ∈ (A.source H).funcs → steady b = true
  elems : ∀ e ∈ A.elems, ∀ f ∈ e.1, A.imports.length ≤ f
  mem : A.imports ≠ [] → A.mems ≠ []

/-- the host stays within defined behaviour -/
def Defined (S : Wasi) : Prop := ∀ id ps m w, S.call id ps m w ≠ .ub

end Verif.Spec
