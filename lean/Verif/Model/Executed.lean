import Verif.Model.Runtime
/-
Which instructions are executed: the dispatchers and the loop of `Runtime::run` once more, noting the position of every instruction
whose handler is called, in order.  Same recursion as `loopRun`, `tcoChain`, `tcoRun` (Model/Dispatch.lean) and `Machine.round`,
`Machine.runLoop`, `Machine.run` (Model/Runtime.lean), whose results they do not change.
-/
namespace Verif.Model

/-- dispatch_loop.rs:20-52 `execute_instructions`: positions of the instructions executed (line 40: `handlers[pc]` called) -/
def loopPcs (E : Env) (code : List Instr) : Nat → DState → List Nat
  | 0, _ => []
  | fuel + 1, d =>
    match poll E d with
    | (true, _) => []
    | (false, d) =>
      match code[d.vm.pc]? with
      | none =>
        match d.vm.labels with
        | l :: rest@(_ :: _) =>
          if l.returnIp ≤ d.vm.pc ∧ l.isLoop = false then []
          else loopPcs E code fuel { d with vm := { d.vm with
                  labels := rest, pc := if l.isLoop then d.vm.pc + 1 else l.returnIp } }
        | _ => []
      | some i =>
        d.vm.pc :: (match step E.H E.P code.length d.vm i with
          | .ok (.cont vm) => loopPcs E code fuel { d with vm := vm }
          | _ => [])

/-- handlers.rs:299-309 and 344-352: positions of the handlers called in the tail-call chain -/
def chainPcs (E : Env) (code : List Instr) : Nat → DState → List Nat
  | 0, _ => []
  | fuel + 1, d =>
    match code[d.vm.pc]? with
    | none => []
    | some i =>
      d.vm.pc :: (match step E.H E.P code.length d.vm i with
        | .ok (.cont vm) =>
          match poll E { d with vm := vm } with
          | (true, _) => []
          | (false, d) => chainPcs E code fuel d
        | _ => [])

/-- dispatch_tco.rs:22-32 `execute_instructions` -/
def tcoPcs (E : Env) (code : List Instr) (fuel : Nat) (d : DState) : List Nat :=
  match poll E d with
  | (true, _) => []
  | (false, d) => if code.length ≤ d.vm.pc then [] else chainPcs E code fuel d

/-- the positions a dispatcher executes, by fuel, body and state -/
abbrev Tracer := Nat → List Instr → DState → List Nat

/-- runtime.rs:227-231, one turn: function and position of the instructions executed -/
def Machine.roundPcs {S : Wasi} (E : Env) (T : Tracer) (fuel : Nat) (m : Machine S) : List (Nat × Nat) :=
  match m.frames with
  | [] => []
  | f :: _ => (T fuel (E.P.body f.func) (m.enter f)).map fun pc => (f.func, pc)

/-- runtime.rs:227-426, the loop -/
def Machine.runLoopPcs {S : Wasi} (E : Env) (D : Dispatcher) (T : Tracer) (enable : Bool) (fuel : Nat) : Nat → Machine S → List (Nat × Nat)
  | 0, _ => []
  | k + 1, m => m.roundPcs E T fuel ++
    match m.round E D enable fuel with
    | some (.ok (.running m')) => m'.runLoopPcs E D T enable fuel k
    | _ => []

/-- runtime.rs:205-427 `Runtime::run` -/
def Machine.runPcs {S : Wasi} (E : Env) (D : Dispatcher) (T : Tracer) (enable : Bool) (fuel : Nat) (m : Machine S) : List (Nat × Nat) :=
  ({ m with frames := setFirstEnable enable m.frames } : Machine S).runLoopPcs E D T enable fuel fuel

end Verif.Model
