import Verif.Spec.Branch
import Verif.Model.Runtime
/-
How much the running code of a program may occupy: a window of registers per call in progress, and a label per block around
the place each of them has got to.
-/
namespace Verif.Spec
open Verif.Model

/-- registers of each bank a function declares it needs -/
def needs (P : Prog) (f : Nat) (c : Cls) : Nat :=
  match P.funcs[f]? with
  | some (.runtime _ code) => match code.alloc with | some W => W c | none => 0
  | _ => 0

/-- registers the calls in progress (of these functions) need together -/
def needed (P : Prog) (fs : List Nat) (c : Cls) : Nat := (fs.map fun f => needs P f c).sum

/-- the functions being called, innermost first -/
def calls {S : Wasi} (m : Machine S) : List Nat := m.frames.map (·.func)

/-- how many blocks, loops and ifs a body has -/
def brackets (code : List Instr) : Nat :=
  code.countP fun i => match i with | .block _ | .ite _ _ _ => true | _ => false

end Verif.Spec
