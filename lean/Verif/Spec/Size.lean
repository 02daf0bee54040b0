import Verif.Spec.Compiled
/-
A bound, read off the source text, on the registers a function needs.
-/
namespace Verif.Spec
open Verif.Model

/-- How many values an operator can add to the operand stack; the results of a block are counted where it is opened. -/
def grows (M : MInfo) : WOp → Nat
  | .localGet _ | .globalGet _ | .const _ _ | .un _ | .bin _ | .load _ _ | .memSize | .memGrow | .select | .selectT _
  | .refNull | .refIsNull | .tableGet _ => 1
  | .other _ pushes => pushes.length
  | .call f => match M.funcs[f]? with | some (_, t) => t.results.length | none => 0
  | .callIndirect ty _ => match M.types[ty]? with | some t => t.results.length | none => 0
  | .block bt | .loop bt | .ite bt => (M.blockParams bt).length + (M.blockResults bt).length
  | _ => 0

/-- declared locals of class `c` -/
def declared (ls : List (Nat × Cls)) (c : Cls) : Nat := (ls.map fun p => if p.2 = c then p.1 else 0).sum

/-- The declared locals of each class and all values the body's operators can push together number at most 65536 -/
def Small16 (M : MInfo) (ls : List (Nat × Cls)) (ops : List WOp) : Prop :=
  ∀ c, declared ls c + (ops.map (grows M)).sum ≤ 65536

/-- `Fits` read off the source: at most eight results, no declared locals of reference type, not too long -/
structure FitsText (M : MInfo) (t : FuncType) (ls : List (Nat × Cls)) (b : WSeq) : Prop where
  results : t.results.length ≤ 8
  noRefs : ∀ p ∈ ls, p.2 = .ref → p.1 = 0
  size : Small16 M ls b.body

end Verif.Spec
