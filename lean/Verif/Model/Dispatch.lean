import Verif.Model.VM
/-
Model of the two dispatchers (dispatch_loop.rs, dispatch_tco.rs + the `advance!` macro of handlers.rs) and of
`poll_checkpoint` (migration.rs).
-/
namespace Verif.Model

/-- What is fixed while a module runs: choice of NaNs, program, build flags and the environment's answers to the
successive checks for the trigger file (or, on the atomics build, the successive loads of the flag). -/
structure Env where
  H : FloatHost
  P : Prog
  /-- `target_feature = "atomics"` build -/
  atomics : Bool
  /-- `module.wasi_impl.is_some()` -/
  hasWasi : Bool
  /-- answer of the `k`-th look at the trigger (file existence / atomic flag) since the process started -/
  trig : Nat → Bool

/-- Dispatcher state: the `VmState`, its checkpoint fields, and how many looks at the trigger have happened. -/
structure DState where
  vm : VM
  enable : Bool
  counter : BitVec 32
  looks : Nat

/-- migration.rs:97-136 `poll_checkpoint` / `do_poll_checkpoint`, 139 `CHECKPOINT_POLL_MASK` -/
def poll (E : Env) (d : DState) : Bool × DState :=
  if !d.enable then (false, d)
  else if E.atomics then (E.trig d.looks, { d with looks := d.looks + 1 })
  else
    let d := { d with counter := d.counter + 1 }
    if d.counter &&& 0x3FF#32 ≠ 0 then (false, d)
    else if E.hasWasi then (E.trig d.looks, { d with looks := d.looks + 1 })
    else (false, d)

/-- how a dispatcher call ends: `Outcome::Halt`, `Outcome::Yield`, or `Outcome::Trap` with `CheckpointRequested`
(other traps are `Res.trap`) -/
inductive Final
  | halt (d : DState)
  | yield (y : Yield) (d : DState)
  | ckpt (d : DState)

/-- dispatch_loop.rs:20-52 `execute_instructions`, `fuel` iterations at most (`none`: still running). -/
def loopRun (E : Env) (code : List Instr) : Nat → DState → Option (Res Final)
  | 0, _ => none
  | fuel + 1, d =>
    match poll E d with
    | (true, d) => some (.ok (.ckpt d))
    | (false, d) =>
      match code[d.vm.pc]? with
      | none =>
        -- `pc >= instrs_len`
        match d.vm.labels with
        | l :: rest@(_ :: _) =>
          if l.returnIp ≤ d.vm.pc ∧ l.isLoop = false then some (.ok (.halt d))
          else loopRun E code fuel { d with vm := { d.vm with
                  labels := rest, pc := if l.isLoop then d.vm.pc + 1 else l.returnIp } }
        | _ => some (.ok (.halt d))
      | some i =>
        match step E.H E.P code.length d.vm i with
        | .ok (.cont vm) => loopRun E code fuel { d with vm := vm }
        | .ok (.yield y vm) => some (.ok (.yield y { d with vm := vm }))
        | .trap e => some (.trap e)
        | .panic => some .panic
        | .ub => some .ub

/-- The tail-call chain: the handler at `pc`, then `advance!` (handlers.rs:299-309) = `next_handler` (344-352): poll,
then `checkpoint_trap` or `handlers[pc]`.  The handler array is the body's handlers followed by `halt`
(parser.rs:1235-1242); reading past that is undefined. -/
def tcoChain (E : Env) (code : List Instr) : Nat → DState → Option (Res Final)
  | 0, _ => none
  | fuel + 1, d =>
    match code[d.vm.pc]? with
    | none => if d.vm.pc = code.length then some (.ok (.halt d)) else some .ub
    | some i =>
      match step E.H E.P code.length d.vm i with
      | .ok (.cont vm) =>
        match poll E { d with vm := vm } with
        | (true, d) => some (.ok (.ckpt d))
        | (false, d) => tcoChain E code fuel d
      | .ok (.yield y vm) => some (.ok (.yield y { d with vm := vm }))
      | .trap e => some (.trap e)
      | .panic => some .panic
      | .ub => some .ub

/-- dispatch_tco.rs:22-32 `execute_instructions` -/
def tcoRun (E : Env) (code : List Instr) (fuel : Nat) (d : DState) : Option (Res Final) :=
  match poll E d with
  | (true, d) => some (.ok (.ckpt d))
  | (false, d) =>
    if code.length ≤ d.vm.pc then some (.ok (.halt d)) else tcoChain E code fuel d

end Verif.Model
