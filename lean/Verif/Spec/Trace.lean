import Verif.Spec.Asks
/-
What of a checkpoint is ever read: each block a function is in remembers a position, and on resuming only that of the innermost
block is used.
-/
namespace Verif.Spec
open Verif.Model

/-- the remembered position of every block (outermost first) but the innermost blanked -/
def blankOuter : List Label → List Label
  | [] => []
  | [l] => [l]
  | l :: ls => { l with ip := 0 } :: blankOuter ls

/-- the checkpoint with every position that is never read blanked; everything else — registers, their offsets, locals, result
registers, memory, globals, functions, block structure, the position in every function — as it is -/
def Snapshot.read (s : Snapshot) : Snapshot :=
  { s with frames := s.frames.map fun f => { f with labels := blankOuter f.labels } }

end Verif.Spec
