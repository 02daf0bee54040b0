import Verif.Props.ConsoleRun
/-
C75: transcripts of the example module.
-/
namespace Verif.Props.ConsoleEx
open Verif.Model Verif.Spec Verif.Lemmas SessionEx

/-- the transcript of a process run on a module's file, streams left out -/
def transcript (p : Process) (M : SMod) (o : Options) (w : Nat) : Option (List (List Char)) :=
  (p.console (S := wasi) (fun _ => []) (fun _ => []) ("c.bin".toList, "\"c.bin\"".toList) false false text lz Sample.host (some M.file) o w).map
    (·.map (·.2))

/-- the first process of the session: stopped for a checkpoint of 112 + 111 + 8 + 20 + 12 = 263 bytes -/
example : transcript (SessionEx.stopped 11) B opts 0 = some (["Runtime handling checkpoint request...",
    "Checkpointing state to \"./checkpoint.bin\"...", "Checkpoint component sizes:", "  reg_file:           112 bytes",
    "  frames:             111 bytes (1 frames, 3 labels, 1 locals total)",
    "  memory_data:        8 bytes (raw 0 bytes, LZ4 compressed)", "  global_values:      20 bytes",
    "  frame_func_indices: 12 bytes", "  total encoded:      263 bytes", "Checkpoint successful.",
    "Checkpoint successful (Runtime).", "Execution stopped for checkpoint."].map (·.toList)) := by decide +kernel

/-- the second one: restored, and running to the end -/
example : ((after (SessionEx.stopped 11) opts 0).bind fun (o, w) => transcript calm B o w) = some (["Restoring from checkpoint: c.bin",
    "Restoring state from \"c.bin\"...", "Memory state restored into module instance.",
    "Global state restored into module instance.", "Frame module references and processed instructions restored.",
    "Restore successful (state applied to module). Returning Stacks.", "State restored into module instance. Stacks obtained.",
    "Runtime reconstructed. Resuming execution...", "Result: Num(I32(11))"].map (·.toList)) := by decide +kernel

/-- a lossy restore: "Restore successful" is printed, and the program is run to its end (here: to another result than the 11 above),
although the saved globals were thrown away (C56); only a warning on the error stream says so -/
theorem lossy_restore_warns : ((after (SessionEx.stopped 11) opts 0).bind fun (o, w) => transcript calm ForeignEx.B2 o w) =
    some (["Restoring from checkpoint: c.bin", "Restoring state from \"c.bin\"...", "Memory state restored into module instance.",
    "Warning: Mismatch in global variable count between module (2) and checkpoint (1). Globals not restored.",
    "Frame module references and processed instructions restored.",
    "Restore successful (state applied to module). Returning Stacks.",
    "State restored into module instance. Stacks obtained.", "Runtime reconstructed. Resuming execution...",
    "Result: Num(I32(43))"].map (·.toList)) := by decide +kernel

/-- a file that is no checkpoint, and a disk that fills up while the checkpoint is written -/
example : transcript calm B { opts with restore := some (some [1, 2, 3]) } 0 = some (["Restoring from checkpoint: c.bin",
    "Restoring state from \"c.bin\"...", "Failed to restore state: ", "Error: Restore failed: "].map (·.toList)) := by decide +kernel
example : transcript { SessionEx.stopped 11 with io := .stopsAfter 100 } B opts 0 = some (["Runtime handling checkpoint request...",
    "Checkpointing state to \"./checkpoint.bin\"...", "Checkpoint component sizes:", "  reg_file:           112 bytes",
    "  frames:             111 bytes (1 frames, 3 labels, 1 locals total)",
    "  memory_data:        8 bytes (raw 0 bytes, LZ4 compressed)", "  global_values:      20 bytes",
    "  frame_func_indices: 12 bytes", "  total encoded:      263 bytes",
    "Checkpoint failed during runtime handling: ", "Execution Error: "].map (·.toList)) := by decide +kernel

end Verif.Props.ConsoleEx
