import Verif.Model.Dispatch
/-
The life of a checkpoint request outside the interpreter loop: the trigger file, the monitor thread of the atomics build
(migration.rs:55-75, runtime.rs:207-219) and the poll of the other build (migration.rs:105-139, passthrough.rs:156-176), with
the user and any number of processes, one after the other, in one directory.  Every shared access is a step of its own, so
that a list of events is one interleaving of user, monitor thread and interpreter.
-/
namespace Verif.Model

/-- where the monitor thread is (migration.rs:62-69): `exists()`, the relaxed `store(true)`, `remove_file` -/
inductive MonPc
  | poll | store | remove
  deriving DecidableEq

/-- where the interpreter is: between two looks at the trigger; after a file check that answered yes, before `remove_file`
(migration.rs:129-130, other build only); after `poll_checkpoint` returned true, writing the checkpoint (runtime.rs:234-255) -/
inductive IntPc
  | run | remove | stopping
  deriving DecidableEq

/-- A process.  `pending`: the monitor's relaxed store is done; `flag`: it is visible to the interpreter
(`CHECKPOINT_TRIGGERED`, migration.rs:55).  `mon = none`: no monitor thread (runtime.rs:207-219 starts it in the atomics build
if checkpointing is enabled). -/
structure Proc where
  atomics : Bool
  enable : Bool
  mon : Option MonPc
  pending : Bool
  flag : Bool
  int : IntPc
  deriving DecidableEq

/-- the directory and what runs in it: does `./checkpoint.trigger` (migration.rs:56) exist, and is a process running -/
structure Sys where
  file : Bool
  proc : Option Proc
  deriving DecidableEq

/-- `touch checkpoint.trigger`, `rm checkpoint.trigger`, starting a process, a step of the monitor, the store becoming visible, a
look of the interpreter (one call of `poll_checkpoint` that gets as far as looking), its `remove_file` (which may fail: the
result is ignored), the end of the process after the checkpoint, its end without a checkpoint, its sudden death -/
inductive Ev
  | create | delete
  | start (atomics enable : Bool)
  | monitor | flush
  | look | unlink (ok : Bool)
  | checkpointed | finish | kill
  deriving DecidableEq

/-- a fresh process (migration.rs:55: the flag is down; runtime.rs:207-219: the monitor) -/
def Proc.fresh (atomics enable : Bool) : Proc :=
  ⟨atomics, enable, if atomics && enable then some .poll else none, false, false, .run⟩

/-- migration.rs:62-69, one step of the monitor thread; `sleep` is the freedom of the schedule.  `remove_file` is taken to
succeed if the file exists. -/
def monitorStep (file : Bool) (p : Proc) : Option (Bool × Proc) :=
  match p.mon with
  | none => none
  | some .poll => some (file, if file then { p with mon := some .store } else p)
  | some .store => some (file, { p with mon := some .remove, pending := true })
  | some .remove => some (false, { p with mon := some .poll })

/-- migration.rs:97-136, one look: the flag, or the file -/
def lookStep (file : Bool) (p : Proc) : Option Proc :=
  if p.enable = true ∧ p.int = .run then
    some (if p.atomics then (if p.flag then { p with int := .stopping } else p)
      else (if file then { p with int := .remove } else p))
  else none

/-- one event; `none`: it cannot happen now -/
def Sys.next (s : Sys) : Ev → Option Sys
  | .create => some { s with file := true }
  | .delete => some { s with file := false }
  | .start a e => match s.proc with
    | none => some { s with proc := some (.fresh a e) }
    | some _ => none
  | .monitor => s.proc.bind fun p => (monitorStep s.file p).map fun r => ⟨r.1, some r.2⟩
  | .flush => s.proc.bind fun p => if p.pending then some { s with proc := some { p with flag := true } } else none
  | .look => s.proc.bind fun p => (lookStep s.file p).map fun p' => { s with proc := some p' }
  | .unlink ok => s.proc.bind fun p =>
    if p.int = .remove then some ⟨s.file && !ok, some { p with int := .stopping }⟩ else none
  | .checkpointed => s.proc.bind fun p => if p.int = .stopping then some { s with proc := none } else none
  | .finish => s.proc.bind fun p => if p.int = .run then some { s with proc := none } else none
  | .kill => s.proc.map fun _ => { s with proc := none }

/-- a history -/
def Sys.after (s : Sys) : List Ev → Option Sys
  | [] => some s
  | e :: es => (s.next e).bind fun s => s.after es

end Verif.Model
