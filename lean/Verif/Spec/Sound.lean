import Verif.Model.Migrate
import Verif.Spec.Branch
/-
What a checkpoint file must satisfy for its contents to be meaningful for a program, said of the bytes alone: nothing is assumed
about where they come from.
-/
namespace Verif.Spec
open Verif.Model

/-- Position `pc` of a body is one control never gets to: a `nop`, which the preprocessor only leaves in code it found dead, or an
`end` directly behind such code or behind an instruction that never continues. -/
def DeadSpot (body : List Instr) (pc : Nat) : Prop :=
  body[pc]? = some .nop ∨
  (∃ a b, body[pc]? = some (.fin a b)) ∧ ∃ x i, pc = x + 1 ∧ body[x]? = some i ∧
    (match i with | .br _ _ _ _ | .brTable _ _ _ _ | .ret _ | .unreachable | .nop => True | _ => False)

/-- where a saved frame continues: the position its innermost label holds -/
def savedPc (f : FrameData) : Nat := (f.labels.getLast?.map (·.ip)).getD 0

/-- A saved frame belongs to a function with type `t`, code `code` and registers `W`: it has the function's locals, continues at a
position of the body control can be at, with the labels of the blocks around it, and names only registers of the function. -/
structure FrameSound (t : FuncType) (code : Code) (W : Cls → Nat) (f : FrameData) : Prop where
  locals : f.locals.length = t.params.length + (code.locals.map (·.1)).sum
  pc : savedPc f ≤ code.body.length
  labels : LabelsAt code.body (savedPc f) f.labels.reverse
  live : ¬ DeadSpot code.body (savedPc f)
  results : ∀ r ∈ f.resultRegs, r.idx < W r.cls
  ret : ∀ r ∈ f.retRegs, r.idx < W r.cls

/-- The saved frames, oldest first, each with its function index and register offsets, fit the program: their windows follow one
another without gaps from `base` to `top`. -/
def FramesSound (P : Prog) : Offsets → List FrameData → List Nat → List Offsets → Offsets → Prop
  | base, [], [], [], top => base = top
  | base, f :: fs, g :: gs, o :: os, top => o = base ∧ ∃ t code W, P.funcs[g]? = some (.runtime t code) ∧ code.alloc = some W ∧
      FrameSound t code W f ∧ FramesSound P (fun c => base c + W c) fs gs os top
  | _, _, _, _, _ => False

/-- A snapshot that makes sense for `P`.  Nothing is said about the values of registers, locals and globals, or about memory. -/
structure Sound (P : Prog) (s : Snapshot) : Prop where
  frames : FramesSound P (fun _ => 0) s.frames s.funcs s.offsets (fun c => (s.regs c).length)
  cached : s.cached = (s.offsets.getLast?).getD (fun _ => 0)

end Verif.Spec
