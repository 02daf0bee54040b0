import Verif.Model.Show
import Verif.Model.Command
/-
Everything the interpreter itself prints in the course of one run of the command: the lines of src/main.rs, of
`Runtime::run` (src/execution/runtime.rs) and of `checkpoint` / `restore` (src/execution/migration.rs).  Not modelled: what
the guest prints through WASI, the line about a failed WASI call (runtime.rs:288-291), panic messages, the lines of
the `stats` and `trace` builds (`Model/StatsText`, `Model/Stats` have those).
-/
namespace Verif.Model

/-- a line on one of the two streams -/
abbrev Line := Stream × List Char

/-- a decimal number between two texts (`{}` of a `usize`) -/
def numLine (a : String) (n : Nat) (b : List Char) : List Char := a.toList ++ (Nat.toDigits 10 n ++ b)

/-- `bincode::serialize(..).map(|v| v.len()).unwrap_or(0)` (migration.rs:220-246) -/
def byteCount (e : Option (List Byte)) : Nat := (e.map (·.length)).getD 0

/-- `bincode::serialize(&state.stacks.reg_file)` (migration.rs:220; fields regs.rs:57-68) -/
def encodeRegs (s : Snapshot) : Option (List Byte) :=
  cat [putVec (putCarrier .i32) (s.regs .i32), putVec (putCarrier .i64) (s.regs .i64),
    putVec (putCarrier .f32) (s.regs .f32), putVec (putCarrier .f64) (s.regs .f64),
    putVec (putCarrier .ref) (s.regs .ref), putVec (putCarrier .v128) (s.regs .v128),
    putVec putOffsets s.offsets, putOffsets s.cached]

/-- migration.rs:219-259: the sizes of the components; `raw` is the size of memory 0 -/
def sizeLines (s : Snapshot) (raw : Nat) : List Line :=
  [(.out, "Checkpoint component sizes:".toList),
   (.out, numLine "  reg_file:           " (byteCount (encodeRegs s)) " bytes".toList),
   (.out, numLine "  frames:             " (byteCount (putVec putFrame s.frames)) (numLine " bytes (" s.frames.length
      (numLine " frames, " (s.frames.map (·.labels.length)).sum (numLine " labels, " (s.frames.map (·.locals.length)).sum
        " locals total)".toList)))),
   (.out, numLine "  memory_data:        " (byteCount (putVec putByte s.memory)) (numLine " bytes (raw " raw
      " bytes, LZ4 compressed)".toList)),
   (.out, numLine "  global_values:      " (byteCount (putVec putVal s.globals)) " bytes".toList),
   (.out, numLine "  frame_func_indices: " (byteCount (putVec (putU 4) s.funcs)) " bytes".toList)]

/-- migration.rs:168-272: the lines of `checkpoint`, whose path is `./checkpoint.bin` (runtime.rs:237) -/
def Machine.checkpointLines {S : Wasi} (lz : Lz) (P : Prog) (m : Machine S) (io : Io) : List Line :=
  (.out, "Checkpointing state to \"./checkpoint.bin\"...".toList) ::
  match m.snapshot lz P with
  | .ok s =>
    sizeLines s (match m.inst.mem with | some mem => mem.data.length | none => 0) ++
    match encode s with
    | none => []
    | some b =>
      (.out, numLine "  total encoded:      " b.length " bytes".toList) ::
      match io with
      | .fine => [(.out, "Checkpoint successful.".toList)]
      | _ => []
  | _ => []

/-- runtime.rs:235-256: the checkpoint as handled by `Runtime::run`; the texts of errors are given by `X` -/
def Machine.handlingLines {S : Wasi} (X : Err → List Char) (lz : Lz) (P : Prog) (m : Machine S) (io : Io) : List Line :=
  (.out, "Runtime handling checkpoint request...".toList) :: (m.checkpointLines lz P io ++
  match (m.checkpoint lz P none io).1 with
  | .ok () => [(.out, "Checkpoint successful (Runtime).".toList)]
  | .trap e => [(.err, "Checkpoint failed during runtime handling: ".toList ++ X e)]
  | _ => [])

/-- migration.rs:299-305: memory 0.  The second component: has it gone on after this? -/
def memoryLines (lz : Lz) (i : Inst) (z : List Byte) : List Line × Bool :=
  match i.mem with
  | some _ =>
    match lz.decompress z with
    | some _ => ([(.out, "Memory state restored into module instance.".toList)], true)
    | none => ([], false)
  | none =>
    if z = [] then ([], true)
    else ([(.err, "Warning: Checkpoint contains memory data, but module has no memory instance.".toList)], true)

/-- migration.rs:308-319: the globals -/
def globalLines (i : Inst) (vs : List Val) : List Line × Bool :=
  if i.globals.length = vs.length then
    if (restoreGlobals i.globals vs).2 then ([(.out, "Global state restored into module instance.".toList)], true) else ([], false)
  else ([(.err, numLine "Warning: Mismatch in global variable count between module (" i.globals.length
    (numLine ") and checkpoint (" vs.length "). Globals not restored.".toList))], true)

/-- migration.rs:298-349, once the file has been deserialised -/
def restoreStateLines (lz : Lz) (P : Prog) (i : Inst) (s : Snapshot) : List Line :=
  (memoryLines lz i s.memory).1 ++
  if (memoryLines lz i s.memory).2 then
    (globalLines i s.globals).1 ++
    if (globalLines i s.globals).2 then
      match restoreFrames P i s.frames s.funcs with
      | none => []
      | some _ => [(.out, "Frame module references and processed instructions restored.".toList),
          (.out, "Restore successful (state applied to module). Returning Stacks.".toList)]
    else []
  else []

/-- migration.rs:278-350 `restore`; `q` is the path as `{:?}` shows it -/
def restoreLines (q : List Char) (lz : Lz) (P : Prog) (i : Inst) (file : Option (List Byte)) : List Line :=
  (.out, "Restoring state from ".toList ++ (q ++ "...".toList)) ::
  match file.bind decode with
  | none => []
  | some (s, _) => restoreStateLines lz P i s

/-- what of a finished run is told by its last line (`Report.line`), with the line the standard library adds when `main`
returns an error (main.rs:179; for the missing function that line is the only one) -/
def Report.lines (R : Ref → List Char) (X : Err → List Char) : Report → List Line
  | .restoreFailed e => [(.err, "Failed to restore state: ".toList ++ X e), (.err, "Error: Restore failed: ".toList ++ X e)]
  | r => (r.line R X).toList

/-- main.rs:135-146: flags of features that are not compiled in -/
def warningLines (stats trace : Bool) : List Line :=
  (if stats then
    [(.err, "Warning: --stats flag is ignored because the 'stats' feature is not enabled.".toList),
     (.err, "         Rebuild with: cargo build --features stats".toList)] else []) ++
  (if trace then
    [(.err, "Warning: --trace flag is ignored because the 'trace' feature is not enabled.".toList),
     (.err, "         Rebuild with: cargo build --features trace".toList)] else [])

/-- runtime.rs:205-427 and main.rs:194, 211: the lines of a run, then (main.rs:221-236) its result.  `none`: still running. -/
def Machine.console {S : Wasi} (R : Ref → List Char) (X : Err → List Char) (lz : Lz) (E : Env) (D : Dispatcher) (enable : Bool)
    (fuel : Nat) (io : Io) (m : Machine S) : Option (List Line) :=
  match m.run E D enable fuel with
  | none => none
  | some r => some ((match r with
      | .ok (.ckpt m') => m'.handlingLines X lz E.P io
      | _ => []) ++
    match m.process lz E D enable fuel none io with
    | some (.ok l) => l.report.lines R X
    | _ => [])

/-- main.rs:172-197: restoring, then running -/
def restoredConsole {S : Wasi} (R : Ref → List Char) (X : Err → List Char) (path : List Char × List Char) (lz : Lz) (E : Env)
    (D : Dispatcher) (enable : Bool) (fuel : Nat) (i : Inst) (saved : Option (List Byte)) (world : S.W) (io : Io) :
    Option (List Line) :=
  Option.map (fun ls : List Line =>
      (.out, "Restoring from checkpoint: ".toList ++ path.1) :: (restoreLines path.2 lz E.P i saved ++ ls))
    (match restore lz E.P i saved with
    | (.ok st, i') =>
      Option.map (fun ls : List Line =>
          (.out, "State restored into module instance. Stacks obtained.".toList) ::
          (.out, "Runtime reconstructed. Resuming execution...".toList) :: ls)
        ((st.resume (S := S) i' world).console R X lz E D enable fuel io)
    | (.trap e, _) => some (Report.lines R X (.restoreFailed e))
    | _ => some [])

/-- main.rs:131-219 `main`, as the user reads it.  `path`: the argument of `--restore` as it stands and as `{:?}` shows it.
`stats`, `trace`: are the flags given (to a build without these features).  `none`: still running. -/
def console {S : Wasi} (R : Ref → List Char) (X : Err → List Char) (path : List Char × List Char) (stats trace : Bool)
    (T : FloatText) (lz : Lz) (E : Prog → Bool → Env) (D : Env → Dispatcher) (fuel : Nat) (file : WFile)
    (o : Options) (world : S.W) (io : Io) : Option (List Line) :=
  Option.map (fun ls : List Line => warningLines stats trace ++ ls)
    (match loadFile file with
    | .ok L =>
      match o.restore with
      | some saved =>
        restoredConsole R X path lz (E L.prog L.hasWasi) (D (E L.prog L.hasWasi)) o.cr fuel L.inst saved world io
      | none =>
        match L.exportFunc o.invoke with
        | .ok f =>
          match parseParams T o.params with
          | .ok ps =>
            match Machine.new (S := S) L.prog L.inst world f ps with
            | .ok m => m.console R X lz (E L.prog L.hasWasi) (D (E L.prog L.hasWasi)) o.cr fuel io
            | .trap e => some (Report.lines R X (.initFailed e))
            | _ => some []
          | _ => some []
        | .trap _ => some (Report.lines R X .noFunction)
        | _ => some []
    | _ => some [])

end Verif.Model
