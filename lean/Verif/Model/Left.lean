import Verif.Model.Runtime
/-
What a call leaves behind when it ends with an error.  `ModuleInst` is shared (`Rc`) between the embedder and the runs on
it, and memory, globals, tables and data segments are changed in place, so an embedder that gets `Err` from `Runtime::run`
and calls again finds everything done until then.  The functions here are those of Dispatch.lean and Runtime.lean, returning
besides the result the state in which it was reached; `runL_fst` says that the results are the same.  No instruction that ends
with an error changes anything before it does; after a panic the process is gone, and the state given here is the one before the
instruction (execution/table.rs:58-63 `fill` may have written some elements by then, which nobody can see).
-/
namespace Verif.Model

/-- dispatch_loop.rs:20-52, with the `VmState` at its end -/
def loopRunL (E : Env) (code : List Instr) : Nat → DState → Option (Res Final × VM)
  | 0, _ => none
  | fuel + 1, d =>
    match poll E d with
    | (true, d) => some (.ok (.ckpt d), d.vm)
    | (false, d) =>
      match code[d.vm.pc]? with
      | none =>
        match d.vm.labels with
        | l :: rest@(_ :: _) =>
          if l.returnIp ≤ d.vm.pc ∧ l.isLoop = false then some (.ok (.halt d), d.vm)
          else loopRunL E code fuel { d with vm := { d.vm with
                  labels := rest, pc := if l.isLoop then d.vm.pc + 1 else l.returnIp } }
        | _ => some (.ok (.halt d), d.vm)
      | some i =>
        match step E.H E.P code.length d.vm i with
        | .ok (.cont vm) => loopRunL E code fuel { d with vm := vm }
        | .ok (.yield y vm) => some (.ok (.yield y { d with vm := vm }), vm)
        | .trap e => some (.trap e, d.vm)
        | .panic => some (.panic, d.vm)
        | .ub => some (.ub, d.vm)

/-- the tail-call chain (handlers.rs:299-352), with the `VmState` at its end -/
def tcoChainL (E : Env) (code : List Instr) : Nat → DState → Option (Res Final × VM)
  | 0, _ => none
  | fuel + 1, d =>
    match code[d.vm.pc]? with
    | none => if d.vm.pc = code.length then some (.ok (.halt d), d.vm) else some (.ub, d.vm)
    | some i =>
      match step E.H E.P code.length d.vm i with
      | .ok (.cont vm) =>
        match poll E { d with vm := vm } with
        | (true, d) => some (.ok (.ckpt d), d.vm)
        | (false, d) => tcoChainL E code fuel d
      | .ok (.yield y vm) => some (.ok (.yield y { d with vm := vm }), vm)
      | .trap e => some (.trap e, d.vm)
      | .panic => some (.panic, d.vm)
      | .ub => some (.ub, d.vm)

/-- dispatch_tco.rs:22-32, with the `VmState` at its end -/
def tcoRunL (E : Env) (code : List Instr) (fuel : Nat) (d : DState) : Option (Res Final × VM) :=
  match poll E d with
  | (true, d) => some (.ok (.ckpt d), d.vm)
  | (false, d) =>
    if code.length ≤ d.vm.pc then some (.ok (.halt d), d.vm) else tcoChainL E code fuel d

/-- runtime.rs:273-297, 430-447: instance and world after a WASI call, whether or not it succeeds.  The host's own traps
(`proc_exit`) come before any effect of the call. -/
def Machine.wasiLeft {S : Wasi} (hasWasi : Bool) (m : Machine S) (id : Nat) (params : List Val) : Inst × S.W :=
  match hasWasi, m.inst.mem with
  | true, some mem =>
    match S.call id params mem m.world with
    | .ok r => ({ m.inst with mem := some r.2.1 }, r.2.2)
    | _ => (m.inst, m.world)
  | _, _ => (m.inst, m.world)

/-- runtime.rs:187-203, 234-424: instance and world after the reaction to the end of a dispatcher call -/
def Machine.reactLeft {S : Wasi} (E : Env) (m : Machine S) (f : Frame) : Final → Inst × S.W
  | .ckpt d => (d.vm.inst, m.world)
  | .halt d => (d.vm.inst, m.world)
  | .yield (.wasi id ps _) d => (m.leave f d).wasiLeft E.hasWasi id ps
  | .yield _ d => (d.vm.inst, m.world)

/-- a dispatcher with the `VmState` at its end -/
abbrev DispatcherL := Nat → List Instr → DState → Option (Res Final × VM)

/-- one round of the `run` loop (runtime.rs:227-426) with instance and world at its end -/
def Machine.roundL {S : Wasi} (E : Env) (D : DispatcherL) (enable : Bool) (fuel : Nat) (m : Machine S) :
    Option (Res (Round S) × Inst × S.W) :=
  match m.frames with
  | [] => some (.ok (.done [] m), m.inst, m.world)
  | f :: _ =>
    match D fuel (E.P.body f.func) (m.enter f) with
    | none => none
    | some (.ok fin, _) => some (m.react E enable f fin, m.reactLeft E f fin)
    | some (.trap e, vm) => some (.trap e, vm.inst, m.world)
    | some (.panic, vm) => some (.panic, vm.inst, m.world)
    | some (.ub, vm) => some (.ub, vm.inst, m.world)

/-- the loop of `Runtime::run` (runtime.rs:227-426) with instance and world at its end -/
def Machine.runLoopL {S : Wasi} (E : Env) (D : DispatcherL) (enable : Bool) (fuel : Nat) :
    Nat → Machine S → Option (Res (End S) × Inst × S.W)
  | 0, _ => none
  | k + 1, m =>
    match m.roundL E D enable fuel with
    | none => none
    | some (.ok (.running m'), _) => m'.runLoopL E D enable fuel k
    | some (.ok (.done vs m'), l) => some (.ok (.done vs m'), l)
    | some (.ok (.ckpt m'), l) => some (.ok (.ckpt m'), l)
    | some (.trap e, l) => some (.trap e, l)
    | some (.panic, l) => some (.panic, l)
    | some (.ub, l) => some (.ub, l)

/-- runtime.rs:205-427 `Runtime::run` with instance and world at its end -/
def Machine.runL {S : Wasi} (E : Env) (D : DispatcherL) (enable : Bool) (fuel : Nat) (m : Machine S) :
    Option (Res (End S) × Inst × S.W) :=
  { m with frames := setFirstEnable enable m.frames }.runLoopL E D enable fuel fuel

/-- loop dispatcher with the argument order of `DispatcherL` -/
def loopDL (E : Env) : DispatcherL := fun n c d => loopRunL E c n d
/-- tail-call dispatcher -/
def tcoDL (E : Env) : DispatcherL := fun n c d => tcoRunL E c n d

end Verif.Model
