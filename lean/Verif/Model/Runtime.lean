import Verif.Model.Dispatch
/-
Model of src/execution/runtime.rs: `Runtime::new`, `execute_frame`, `run`, and of state.rs `VMState::new`.
-/
namespace Verif.Model

/-- state.rs:221-243 `FrameStack` + `Frame`.  `func` is the index of the running function (the Rust frame holds the
function's `Rc` body / handlers and the checkpoint code finds the index by pointer identity, migration.rs:187-206). -/
structure Frame where
  func : Nat
  locals : List Val
  n : Nat
  labels : List Label
  enable : Bool
  resultRegs : List Reg
  retRegs : List Reg
  memPtr : Option Nat

/-- What WASI calls see and change besides memory 0. -/
structure Wasi where
  W : Type
  /-- `call_wasi_function` (runtime.rs:430-1037) when a WASI implementation and a memory are present: `none` is
  `Err(WasiError)`; the memory is written in place, never resized. -/
  call : Nat → List Val → Mem → W → Res (Option (Option Val) × Mem × W)

/-- `Runtime` + `ModuleInst` state: register file, frames (running frame first), instance, outside world, and the
number of looks at the checkpoint trigger so far. -/
structure Machine (S : Wasi) where
  rf : RegFile
  frames : List Frame
  inst : Inst
  world : S.W
  looks : Nat

/-- `Val` zero of a class -/
def Cls.zeroVal (c : Cls) : Val := ⟨c, c.zero⟩

/-- expansion of the declared locals (state.rs:161-172: every class has a default) -/
def declLocals (ls : List (Nat × Cls)) : List Val := ls.flatMap fun p => List.replicate p.1 p.2.zeroVal

/-- `Val::default_value` (runtime.rs:1041-1050) over the declared locals: `todo!()` for references -/
def callLocals (ls : List (Nat × Cls)) : Res (List Val) :=
  if ls.any (fun p => decide (p.2 = .ref) && decide (0 < p.1)) then .panic else .ok (declLocals ls)

/-- `if let Some(alloc) = reg_allocation { save_offsets }` -/
def enterRegs (rf : RegFile) : Option (Cls → Nat) → RegFile
  | some a => rf.saveOffsets a
  | none => rf

/-- `primary_mem.map(data_ptr)` -/
def Inst.ptr (i : Inst) : Option Nat := i.mem.map fun _ => i.memGen

/-- state.rs:182-203, runtime.rs:333-355: a fresh frame -/
def newFrame (inst : Inst) (f : Nat) (t : FuncType) (locals : List Val) (enable : Bool) : Frame :=
  { func := f, locals := locals, n := t.results.length, labels := [⟨false, 0, 0⟩], enable := enable,
    resultRegs := [], retRegs := [], memPtr := inst.ptr }

/-- state.rs:148-212 `VMState::new` + runtime.rs:48-84 `Runtime::new` (only the count of parameters is checked) -/
def Machine.new {S : Wasi} (P : Prog) (inst : Inst) (world : S.W) (f : Nat) (params : List Val) : Res (Machine S) :=
  match P.funcs[f]? with
  | some (.runtime t code) =>
    if params.length ≠ t.params.length then .trap .invalidParameterCount
    else .ok { rf := enterRegs RegFile.empty code.alloc
               frames := [newFrame inst f t (params ++ declLocals code.locals) false]
               inst := inst, world := world, looks := 0 }
  | _ => .trap .executionFailed   -- `UnimplementedHostFunction`

/-- body of the function a frame is running -/
def Prog.body (P : Prog) (f : Nat) : List Instr :=
  match P.funcs[f]? with
  | some (.runtime _ code) => code.body
  | _ => []

/-- runtime.rs:130-173: the `VmState` built from the running frame.  The poll counter starts at 0 every time. -/
def Machine.enter {S : Wasi} (m : Machine S) (f : Frame) : DState :=
  { vm := { rf := m.rf, locals := f.locals, pc := (f.labels.head?.map (·.ip)).getD 0, labels := f.labels,
            retRegs := f.retRegs, memPtr := f.memPtr, inst := m.inst }
    enable := f.enable, counter := 0, looks := m.looks }

/-- runtime.rs:177-185: write back; the current label remembers the pc -/
def Machine.leave {S : Wasi} (m : Machine S) (f : Frame) (d : DState) : Machine S :=
  { m with
    rf := d.vm.rf
    frames := { f with
      locals := d.vm.locals
      labels := match d.vm.labels with | [] => [] | l :: ls => { l with ip := d.vm.pc } :: ls
      retRegs := d.vm.retRegs
      memPtr := d.vm.memPtr } :: m.frames.tail
    inst := d.vm.inst
    looks := d.looks }

/-- what one round of the `run` loop leads to -/
inductive Round (S : Wasi)
  | running (m : Machine S)
  | done (vals : List Val) (m : Machine S)
  | ckpt (m : Machine S)

/-- zip of registers and values, `set_val` each (runtime.rs:360-365, 412-419) -/
def RegFile.setVals (r : RegFile) : List Reg → List Val → Res RegFile
  | x :: xs, v :: vs => do
    let r' ← r.setVal x v
    r'.setVals xs vs
  | _, _ => .ok r

/-- runtime.rs:377-421: the running frame (first) returns -/
def Machine.doReturn {S : Wasi} (m : Machine S) : Res (Round S) :=
  match m.frames with
  | [] => .panic
  | f :: rest =>
    match rest with
    | [] => do
      let vs ← m.rf.getVals (f.retRegs.take f.n)
      pure (.done vs { m with rf := m.rf.restoreOffsets, frames := [] })
    | caller :: rest' => do
      let vs ← m.rf.getVals f.retRegs
      let rf ← m.rf.restoreOffsets.setVals caller.resultRegs vs
      pure (.running { m with
        rf := rf
        frames := { caller with memPtr := m.inst.ptr, resultRegs := [] } :: rest' })

/-- runtime.rs:298-356, 370-374: a call of function `f`; `enable` is the runtime's `enable_checkpoint` -/
def Machine.doInvoke {S : Wasi} (P : Prog) (enable : Bool) (m : Machine S) (f : Nat) (params : List Val)
    (results : List Reg) : Res (Round S) :=
  match P.funcs[f]? with
  | some (.runtime t code) => do
    let ls ← callLocals code.locals
    let callers := match m.frames with
      | c :: cs => { c with resultRegs := results } :: cs
      | [] => []
    pure (.running { m with
      rf := enterRegs m.rf code.alloc
      frames := newFrame m.inst f t (params ++ ls) enable :: callers })
  | some (.wasi _ _) => .trap .executionFailed
  | none => .panic

/-- runtime.rs:273-297, 430-447: a WASI call -/
def Machine.doWasi {S : Wasi} (hasWasi : Bool) (m : Machine S) (id : Nat) (params : List Val) (result : Option Reg) :
    Res (Round S) :=
  match hasWasi, m.inst.mem with
  | true, some mem => do
    let r ← S.call id params mem m.world
    let m' : Machine S := { m with inst := { m.inst with mem := some r.2.1 }, world := r.2.2 }
    match r.1 with
    | none => .trap .executionFailed
    | some res =>
      match result, res with
      | some reg, some v => do
        let rf ← m'.rf.setVal reg v
        pure (.running { m' with rf := rf })
      | _, _ => pure (.running m')
  | _, _ => .trap .executionFailed

/-- runtime.rs:187-203, 234-424: react to the end of a dispatcher call on the running frame -/
def Machine.react {S : Wasi} (E : Env) (enable : Bool) (m : Machine S) (f : Frame) : Final → Res (Round S)
  | .ckpt d => .ok (.ckpt (m.leave f d))
  | .halt d => (m.leave f d).doReturn
  | .yield .ret d => (m.leave f d).doReturn
  | .yield (.invoke g ps rs) d => (m.leave f d).doInvoke E.P enable g ps rs
  | .yield (.wasi id ps r) d => (m.leave f d).doWasi E.hasWasi id ps r

/-- a dispatcher: fuel, body, state -/
abbrev Dispatcher := Nat → List Instr → DState → Option (Res Final)

/-- one round of the `run` loop with a given dispatcher (runtime.rs:227-426) -/
def Machine.round {S : Wasi} (E : Env) (D : Dispatcher) (enable : Bool) (fuel : Nat) (m : Machine S) :
    Option (Res (Round S)) :=
  match m.frames with
  | [] => some (.ok (.done [] m))
  | f :: _ =>
    match D fuel (E.P.body f.func) (m.enter f) with
    | none => none
    | some r => some (r >>= m.react E enable f)

/-- how `run` ends: `Ok(values)` or `Err(CheckpointRequested)` with the state to save -/
inductive End (S : Wasi)
  | done (vals : List Val) (m : Machine S)
  | ckpt (m : Machine S)

/-- the loop of `Runtime::run` (runtime.rs:227-426): `fuel` bounds both the number of rounds and each dispatcher call -/
def Machine.runLoop {S : Wasi} (E : Env) (D : Dispatcher) (enable : Bool) (fuel : Nat) :
    Nat → Machine S → Option (Res (End S))
  | 0, _ => none
  | k + 1, m =>
    match m.round E D enable fuel with
    | none => none
    | some (.ok (.running m')) => m'.runLoop E D enable fuel k
    | some (.ok (.done vs m')) => some (.ok (.done vs m'))
    | some (.ok (.ckpt m')) => some (.ok (.ckpt m'))
    | some (.trap e) => some (.trap e)
    | some .panic => some .panic
    | some .ub => some .ub

/-- runtime.rs:222-225: `first_mut()` is the oldest frame -/
def setFirstEnable (enable : Bool) : List Frame → List Frame
  | [] => []
  | [f] => [{ f with enable := enable }]
  | f :: fs => f :: setFirstEnable enable fs

/-- runtime.rs:205-427 `Runtime::run` (the checkpoint monitor thread of the atomics build is the `trig` oracle of `Env`) -/
def Machine.run {S : Wasi} (E : Env) (D : Dispatcher) (enable : Bool) (fuel : Nat) (m : Machine S) :
    Option (Res (End S)) :=
  { m with frames := setFirstEnable enable m.frames }.runLoop E D enable fuel fuel

/-- loop dispatcher with the argument order of `Dispatcher` -/
def loopD (E : Env) : Dispatcher := fun n c d => loopRun E c n d
/-- tail-call dispatcher -/
def tcoD (E : Env) : Dispatcher := fun n c d => tcoRun E c n d

end Verif.Model
