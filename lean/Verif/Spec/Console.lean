import Verif.Model.Console
import Verif.Spec.Session
/-
What the user reads off the interpreter's messages about checkpoints.
-/
namespace Verif.Spec
open Verif.Model (Line Snapshot Inst Lz Stacks FrameData)

/-- the line saying that a checkpoint has been written -/
def checkpointDone : Line := (.out, "Checkpoint successful.".toList)

/-- the line saying that a checkpoint has been restored -/
def restoreDone : Line := (.out, "Restore successful (state applied to module). Returning Stacks.".toList)

/-- the lines `ls` give the sizes of the five parts of a checkpoint, and of the whole -/
structure ShowsSizes (ls : List Line) (regs frames memory globals funcs total : Nat) : Prop where
  regs : (.out, ("  reg_file:           " ++ toString regs ++ " bytes").toList) ∈ ls
  frames : ∃ detail, (.out, ("  frames:             " ++ toString frames ++ " bytes (").toList ++ detail) ∈ ls
  memory : ∃ detail, (.out, ("  memory_data:        " ++ toString memory ++ " bytes (raw ").toList ++ detail) ∈ ls
  globals : (.out, ("  global_values:      " ++ toString globals ++ " bytes").toList) ∈ ls
  funcs : (.out, ("  frame_func_indices: " ++ toString funcs ++ " bytes").toList) ∈ ls
  total : (.out, ("  total encoded:      " ++ toString total ++ " bytes").toList) ∈ ls

/-- the saved state `s` is what the instance `j` and the stacks `st` now hold -/
structure TakenOver (lz : Lz) (s : Snapshot) (st : Stacks) (j : Inst) : Prop where
  registers : st.rf.regs = s.regs
  frames : st.frames.reverse.map (fun f => (⟨f.locals, f.n, f.labels.reverse, f.resultRegs, f.retRegs⟩ : FrameData)) = s.frames
  memory : match j.mem with
    | some mem => lz.decompress s.memory = some mem.data
    | none => s.memory = []
  globals : j.globals.map (·.value) = s.globals

/-- what running the command as this process prints (`Model/Console`): `path`: the argument of `--restore` as it stands and as
`{:?}` shows it; `stats`, `trace`: the flags -/
def Process.console {S : Model.Wasi} (R : Model.Ref → List Char) (X : Model.Err → List Char) (path : List Char × List Char) (stats trace : Bool)
    (T : Model.FloatText) (lz : Lz) (H : Model.FloatHost) (p : Process) (file : Model.WFile) (o : Model.Options) (world : S.W) : Option (List Line) :=
  Model.console R X path stats trace T lz (Props.envOf H p.atomics p.trig) p.D p.fuel file { o with cr := p.cr } world p.io

end Verif.Spec
