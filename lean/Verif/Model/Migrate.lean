import Verif.Model.Bincode
/-
Model of src/execution/migration.rs `checkpoint` and `restore`, and of runtime.rs `Runtime::new_restored`.
Linear memory 0 is the only memory of the model (the code saves no other).
-/
namespace Verif.Model

/-- lz4_flex `compress_prepend_size` / `decompress_size_prepended` (not in the repository); the only assumption is that
decompressing what was compressed gives it back -/
structure Lz where
  compress : List Byte → List Byte
  decompress : List Byte → Option (List Byte)
  inv : ∀ x, decompress (compress x) = some x

/-- state.rs:221-243: the serialised fields of a frame; labels oldest first -/
def Frame.data (f : Frame) : FrameData :=
  { locals := f.locals, n := f.n, labels := f.labels.reverse, resultRegs := f.resultRegs, retRegs := f.retRegs }

/-- migration.rs:187-206: the function whose body the frame runs; `label_stack[0]` and `expect` panic otherwise -/
def Frame.index (P : Prog) (f : Frame) : Res Nat :=
  match f.labels, P.funcs[f.func]? with
  | _ :: _, some (.runtime _ _) => .ok f.func
  | _, _ => .panic

/-- the indices of all frames, in order -/
def indices (P : Prog) : List Frame → Res (List Nat)
  | [] => .ok []
  | f :: fs => do
    let i ← f.index P
    let is ← indices P fs
    pure (i :: is)

/-- migration.rs:171-178: the compressed content of memory 0 -/
def Inst.image (lz : Lz) (i : Inst) : List Byte :=
  match i.mem with
  | some mem => lz.compress mem.data
  | none => []

/-- migration.rs:169-217: the state to be saved -/
def Machine.snapshot {S : Wasi} (lz : Lz) (P : Prog) (m : Machine S) : Res Snapshot := do
  let funcs ← indices P m.frames.reverse
  pure { regs := m.rf.regs
         offsets := m.rf.frames.reverse
         cached := m.rf.cached
         frames := m.frames.reverse.map Frame.data
         memory := m.inst.image lz
         globals := m.inst.globals.map (·.value)
         funcs := funcs }

/-- what the file system does during `File::create` + `write_all`: works; `create` fails; or the write stops (error or
crash of the process) after `k` bytes of the new, truncated file -/
inductive Io
  | fine
  | createFails
  | stopsAfter (k : Nat)

/-- migration.rs:262-275: serialise, create (truncating) and write.  Second component: the content of the checkpoint
file afterwards, `old` being its content before. -/
def saveFile (s : Snapshot) (old : Option (List Byte)) (io : Io) : Res Unit × Option (List Byte) :=
  match encode s with
  | none => (.trap .serializationError, old)
  | some b =>
    match io with
    | .fine => (.ok (), some b)
    | .createFails => (.trap .checkpointSaveError, old)
    | .stopsAfter k => (.trap .checkpointSaveError, some (b.take k))

/-- migration.rs:160-277 `checkpoint` -/
def Machine.checkpoint {S : Wasi} (lz : Lz) (P : Prog) (m : Machine S) (old : Option (List Byte)) (io : Io) :
    Res Unit × Option (List Byte) :=
  match m.snapshot lz P with
  | .ok s => saveFile s old io
  | .trap e => (.trap e, old)
  | .panic => (.panic, old)
  | .ub => (.ub, old)

/-- migration.rs:299-309: `set_data` on memory 0 (a new allocation) -/
def restoreMem (lz : Lz) (i : Inst) (z : List Byte) : Option Inst :=
  match i.mem with
  | none => some i
  | some mem =>
    match lz.decompress z with
    | none => none
    | some data => some { i with mem := some { mem with data := data }, memGen := i.memGen + 1 }

/-- migration.rs:312-315: one `set` after the other, stopping at the first error (`false`) -/
def restoreGlobals : List Global → List Val → List Global × Bool
  | g :: gs, v :: vs =>
    if g.value.ty = v.ty then
      let r := restoreGlobals gs vs
      ({ g with value := v } :: r.1, r.2)
    else (g :: gs, false)
  | gs, _ => (gs, true)

/-- migration.rs:312-323: only if the numbers agree -/
def restoreGlobals? (gs : List Global) (vs : List Val) : List Global × Bool :=
  if gs.length = vs.length then restoreGlobals gs vs else (gs, true)

/-- migration.rs:326-352: frames (oldest first) zipped with function indices; `func_addrs[idx]` panics outside (`none`).
`enable_checkpoint` is a skipped field: `false`.  A frame beyond the zip keeps an empty body. -/
def restoreFrames (P : Prog) (i : Inst) : List FrameData → List Nat → Option (List Frame)
  | [], _ => some []
  | f :: fs, [] => do
    let rest ← restoreFrames P i fs []
    some ({ func := P.funcs.length, locals := f.locals, n := f.n, labels := f.labels.reverse, enable := false,
            resultRegs := f.resultRegs, retRegs := f.retRegs, memPtr := none } :: rest)
  | f :: fs, k :: ks =>
    if k < P.funcs.length then do
      let rest ← restoreFrames P i fs ks
      some ({ func := k, locals := f.locals, n := f.n, labels := f.labels.reverse, enable := false,
              resultRegs := f.resultRegs, retRegs := f.retRegs, memPtr := i.ptr } :: rest)
    else none

/-- state.rs:139-143 `VMState`, as returned by `restore` -/
structure Stacks where
  rf : RegFile
  frames : List Frame

/-- migration.rs:294-355 once the file has been deserialised -/
def restoreState (lz : Lz) (P : Prog) (i : Inst) (s : Snapshot) : Res Stacks × Inst :=
  match restoreMem lz i s.memory with
  | none => (.trap .deserializationError, i)
  | some i1 =>
    let r := restoreGlobals? i1.globals s.globals
    let i2 := { i1 with globals := r.1 }
    if r.2 then
      match restoreFrames P i2 s.frames s.funcs with
      | none => (.panic, i2)
      | some fs => (.ok { rf := { regs := s.regs, frames := s.offsets.reverse, cached := s.cached }
                          frames := fs.reverse }, i2)
    else (.trap .instructionFailed, i2)

/-- migration.rs:280-355 `restore`.  Second component: the instance afterwards. -/
def restore (lz : Lz) (P : Prog) (i : Inst) (file : Option (List Byte)) : Res Stacks × Inst :=
  match file with
  | none => (.trap .checkpointLoadError, i)
  | some b =>
    match decode b with
    | none => (.trap .deserializationError, i)
    | some (s, _) => restoreState lz P i s

/-- runtime.rs:91-124 `Runtime::new_restored` in a new process -/
def Stacks.resume {S : Wasi} (st : Stacks) (i : Inst) (w : S.W) : Machine S :=
  { rf := st.rf, frames := st.frames, inst := i, world := w, looks := 0 }

end Verif.Model
