import Verif.Model.Command
import Verif.Props.EndToEnd
/-
A user's session: one process of the command after the other, each stopped by a checkpoint and followed by one that restores
the file it left, until one comes to an end.
-/
namespace Verif.Spec
open Verif.Model Verif.Props

/-- Everything that may differ from process to process: platform and dispatcher it was built for, when the checkpoint trigger
is raised, whether `--cr` is given, what was in `./checkpoint.bin` before and what the file system does when it is written
(and how long we watch). -/
structure Process where
  atomics : Bool
  trig : Nat → Bool
  D : Env → Dispatcher
  built : Build D
  cr : Bool
  old : Option (List Byte)
  io : Io
  fuel : Nat

/-- what running the command as this process does -/
def Process.run {S : Wasi} (T : FloatText) (lz : Lz) (H : FloatHost) (p : Process) (file : WFile) (o : Options) (world : S.W) :
    Option (Res (Left S)) :=
  command T lz (envOf H p.atomics p.trig) p.D p.fuel file { o with cr := p.cr } world p.old p.io

/-- What the user sees of a finished process: what it printed, and — if it ended with values — memory, globals, tables, data
segments and the outside world. -/
def seen {S : Wasi} : Res (Left S) → Res (Report × Option (Store × S.W))
  | .ok l => .ok (l.report, l.state.map fun p => (storeOf p.1, p.2))
  | .trap e => .trap e
  | .panic => .panic
  | .ub => .ub

/-- what is reported of an execution that ended with an error: the error, or nothing but the exit code if the program asked for
the end of the process -/
def failureReport : Err → Report
  | .processExit c => .exited c
  | e => .runFailed e

/-- the process came to an end on its own: it neither stopped for a checkpoint nor failed to write one -/
def Finished {S : Wasi} (r : Res (Left S)) : Prop :=
  ∀ l, r = .ok l → l.report ≠ .checkpointed ∧ l.report ≠ .runFailed .serializationError ∧ l.report ≠ .runFailed .checkpointSaveError

/-- A session: processes that stop for a checkpoint, each followed by one that restores its checkpoint file (below 4 GiB) with
the outside world as it was left, and finally one that comes to an end with `r`. -/
inductive Session {S : Wasi} (T : FloatText) (lz : Lz) (H : FloatHost) (file : WFile) : Options → S.W → Res (Left S) → Prop
  | last {o : Options} {world : S.W} {r : Res (Left S)} (p : Process) (h : p.run T lz H file o world = some r) (hr : Finished r) :
      Session T lz H file o world r
  | move {o : Options} {world : S.W} {r : Res (Left S)} (p : Process) {l : Left S} {b : List Byte} {i : Inst} {w : S.W}
      (h : p.run T lz H file o world = some (.ok l)) (hl : l.report = .checkpointed) (hb : l.ckpt = some b)
      (hs : l.state = some (i, w)) (hlen : b.length < 2 ^ 32)
      (next : Session T lz H file { o with restore := some (some b) } w r) : Session T lz H file o world r

end Verif.Spec
