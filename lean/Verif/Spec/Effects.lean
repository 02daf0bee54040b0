import Verif.Model.Compile
/-
Which part of the instance an operator or instruction can write.
-/
namespace Verif.Spec
open Verif.Model

/-- a part of the instance: global `g`, table `t`, data segment `d`, the size of memory, the content of memory -/
inductive Part | global (g : Nat) | table (t : Nat) | data (d : Nat) | size | mem
  deriving DecidableEq, Repr

/-- the parts a WebAssembly operator writes -/
def _root_.Verif.Model.WOp.writes : WOp → List Part
  | .globalSet g => [.global g]
  | .tableSet t | .tableFill t => [.table t]
  | .dataDrop d => [.data d]
  | .memGrow => [.size, .mem]
  | .store _ _ | .memCopy | .memInit _ | .memFill => [.mem]
  | _ => []

/-- the parts an instruction of the interpreter writes -/
def _root_.Verif.Model.Instr.writes : Instr → List Part
  | .globalSet _ _ g => [.global g]
  | .tableSet t _ _ | .tableFill t _ _ _ => [.table t]
  | .dataDrop d => [.data d]
  | .memGrow _ _ => [.size, .mem]
  | .store _ _ _ _ | .memCopy _ _ _ | .memInit _ _ _ _ | .memFill _ _ _ => [.mem]
  | _ => []

/-- the part is the same in both instances -/
def Part.Same (i j : Inst) : Part → Prop
  | .global g => i.globals[g]? = j.globals[g]?
  | .table t => i.tables[t]? = j.tables[t]?
  | .data d => i.datas[d]? = j.datas[d]?
  | .size => i.mem.map (fun m => (m.data.length, m.max)) = j.mem.map (fun m => (m.data.length, m.max))
  | .mem => i.mem.map (·.data) = j.mem.map (·.data)

end Verif.Spec
