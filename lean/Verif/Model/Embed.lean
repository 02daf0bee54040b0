import Verif.Model.Left
import Verif.Model.Module
/-
An embedder's calls on one instance, one after the other, as in the repository's own tests: `load_instance` once, then
`call_function` any number of times.
-/
namespace Verif.Model

/-- one call: the export, the arguments, and `Runtime::new`'s `enable_checkpoint` -/
structure Request where
  name : String
  args : List Val
  ckpt : Bool

/-- what `Runtime::run` returns (runtime.rs:205-427): values, or the error (a checkpoint is `Err(CheckpointRequested)`, :412) -/
def endValues {S : Wasi} : Res (End S) → Res (List Val)
  | .ok (.done vs _) => .ok vs
  | .ok (.ckpt _) => .trap .checkpointRequested
  | .trap e => .trap e
  | .panic => .panic
  | .ub => .ub

/-- tests/block.rs:19-27 `call_function`: `get_export_func` (execution/module.rs:234-245), `Runtime::new` (runtime.rs:48-84),
`run`; each `?` returns the error.  With what instance (shared by `Rc`) and outside world are afterwards; `none`: still running. -/
def Loaded.call {S : Wasi} (L : Loaded) (E : Env) (D : DispatcherL) (fuel : Nat) (inst : Inst) (world : S.W) (r : Request) :
    Option (Res (List Val) × Inst × S.W) :=
  match L.exportFunc r.name with
  | .ok f =>
    match Machine.new (S := S) L.prog inst world f r.args with
    | .ok m => (m.runL E D r.ckpt fuel).map fun x => (endValues x.1, x.2)
    | .trap e => some (.trap e, inst, world)
    | .panic => some (.panic, inst, world)
    | .ub => some (.ub, inst, world)
  | .trap e => some (.trap e, inst, world)
  | .panic => some (.panic, inst, world)
  | .ub => some (.ub, inst, world)

/-- Calls made one after the other on one instance.  A panic ends the process, and with it the calls. -/
inductive Loaded.Answers {S : Wasi} (L : Loaded) (E : Env) (D : DispatcherL) :
    Inst → S.W → List Request → List (Res (List Val)) → Inst → S.W → Prop
  | nil {i w} : L.Answers E D i w [] [] i w
  | next {n i w r rs o i1 w1 os i2 w2} (h : L.call E D n i w r = some (o, i1, w1)) (ha : o ≠ .panic ∧ o ≠ .ub)
      (hs : L.Answers E D i1 w1 rs os i2 w2) : L.Answers E D i w (r :: rs) (o :: os) i2 w2
  | dies {n i w r rs o i1 w1} (h : L.call E D n i w r = some (o, i1, w1)) (ha : o = .panic ∨ o = .ub) :
      L.Answers E D i w (r :: rs) [o] i1 w1

end Verif.Model
