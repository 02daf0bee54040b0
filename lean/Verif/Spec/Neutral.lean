import Verif.Model.Compile
/-
Which operators may show on what kind of machine the interpreter runs.
-/
namespace Verif.Spec
open Verif.Model

/-- one-operand operators whose result, if it is a NaN, is a NaN of the machine's choice: `ceil`, `floor`, `trunc`, `nearest`,
`sqrt`, `f32.demote_f64`, `f64.promote_f32` -/
def _root_.Verif.Model.Op1.choosy : Op1 → Bool
  | .round _ _ | .demote | .promote => true
  | _ => false

/-- two-operand operators of that kind: `add`, `sub`, `mul`, `div` on floats -/
def _root_.Verif.Model.Op2.choosy : Op2 → Bool
  | .arith _ _ => true
  | _ => false

/-- operators of that kind -/
def _root_.Verif.Model.WOp.choosy : WOp → Bool
  | .un op => op.choosy
  | .bin op => op.choosy
  | _ => false

/-- instructions of that kind -/
def _root_.Verif.Model.Instr.choosy : Instr → Bool
  | .op1 op _ _ => op.choosy
  | .op2 op _ _ _ => op.choosy
  | _ => false

end Verif.Spec
