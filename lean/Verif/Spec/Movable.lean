import Verif.Spec.Source
/-
Modules whose state a checkpoint saves completely.
-/
namespace Verif.Spec
open Verif.Model

/-- `table.set`, `table.fill`, `data.drop` -/
def _root_.Verif.Model.WOp.unsaved : WOp → Bool
  | .tableSet _ => true
  | .tableFill _ => true
  | .dataDrop _ => true
  | _ => false

/-- what the module of a session must not do, and its sizes -/
structure Movable (Q : SProg) : Prop where
  /-- no `table.set`, `table.fill` or `data.drop`: checkpoints do not save what they write -/
  saved : ∀ t ls b, SFunc.wasm t ls b ∈ Q.funcs → ∀ o ∈ b.body, o.unsaved = false
  bodies : ∀ t ls b, SFunc.wasm t ls b ∈ Q.funcs → b.body.length < 2 ^ 32
  funcs : Q.funcs.length ≤ 2 ^ 32
  results : ∀ t ls b, SFunc.wasm t ls b ∈ Q.funcs → t.results.length < 2 ^ 32

end Verif.Spec
