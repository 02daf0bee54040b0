import Verif.Spec.Accepts
import Verif.Spec.Asks
import Verif.Spec.Branch
import Verif.Spec.Cli
import Verif.Spec.Compiled
import Verif.Spec.Console
import Verif.Spec.Crash
import Verif.Spec.Effects
import Verif.Spec.Executed
import Verif.Spec.File
import Verif.Spec.FileParts
import Verif.Spec.Float
import Verif.Spec.FloatText
import Verif.Spec.Handlers
import Verif.Spec.History
import Verif.Spec.Ieee
import Verif.Spec.Link
import Verif.Spec.Mem
import Verif.Spec.Module
import Verif.Spec.Movable
import Verif.Spec.Moved
import Verif.Spec.Named
import Verif.Spec.Neutral
import Verif.Spec.Num
import Verif.Spec.Params
import Verif.Spec.Platforms
import Verif.Spec.Progress
import Verif.Spec.Safety
import Verif.Spec.Session
import Verif.Spec.Show
import Verif.Spec.Size
import Verif.Spec.Sound
import Verif.Spec.Source
import Verif.Spec.Start
import Verif.Spec.StatsText
import Verif.Spec.Steady
import Verif.Spec.Storage
import Verif.Spec.Subset
import Verif.Spec.Trace
import Verif.Spec.Untouched
import Verif.Spec.UntouchedMore
import Verif.Spec.Untyped
import Verif.Spec.ValueType
import Verif.Spec.Wasi
import Verif.Spec.WasiAbi
import Verif.Spec.WasiCalls
import Verif.Spec.WebAssembly
import Verif.Spec.Windows
import Verif.Model.Bincode
import Verif.Model.Cli
import Verif.Model.Command
import Verif.Model.Compile
import Verif.Model.Console
import Verif.Model.Dispatch
import Verif.Model.Embed
import Verif.Model.Errno
import Verif.Model.Executed
import Verif.Model.Float
import Verif.Model.FloatText
import Verif.Model.Handlers
import Verif.Model.IR
import Verif.Model.Ieee
import Verif.Model.Left
import Verif.Model.Link
import Verif.Model.Linked
import Verif.Model.Mem
import Verif.Model.Migrate
import Verif.Model.Module
import Verif.Model.Num
import Verif.Model.Passthrough
import Verif.Model.Regs
import Verif.Model.Runtime
import Verif.Model.Show
import Verif.Model.Stats
import Verif.Model.StatsText
import Verif.Model.Trigger
import Verif.Model.Types
import Verif.Model.VM
import Verif.Model.Wasi
import Verif.Model.WasiFn
import Verif.Lemmas.Accept
import Verif.Lemmas.Alarm
import Verif.Lemmas.AlarmRun
import Verif.Lemmas.AskRun
import Verif.Lemmas.Bincode
import Verif.Lemmas.CompDead
import Verif.Lemmas.CompExt
import Verif.Lemmas.CompFits
import Verif.Lemmas.CompFn
import Verif.Lemmas.CompLev
import Verif.Lemmas.CompLive
import Verif.Lemmas.CompNest
import Verif.Lemmas.CompOp
import Verif.Lemmas.CompPos
import Verif.Lemmas.CompRegs
import Verif.Lemmas.CompSeq
import Verif.Lemmas.CompStep
import Verif.Lemmas.CompSym
import Verif.Lemmas.CompWin
import Verif.Lemmas.CompWinFn
import Verif.Lemmas.CompWinSeq
import Verif.Lemmas.DeadCode
import Verif.Lemmas.DeadRaw
import Verif.Lemmas.DeadRun
import Verif.Lemmas.DeadShift
import Verif.Lemmas.DeadSim
import Verif.Lemmas.Exec
import Verif.Lemmas.ExecL
import Verif.Lemmas.File
import Verif.Lemmas.Float
import Verif.Lemmas.Flow
import Verif.Lemmas.Foreign
import Verif.Lemmas.Growth
import Verif.Lemmas.Handlers
import Verif.Lemmas.Ieee
import Verif.Lemmas.IeeeOps
import Verif.Lemmas.Keeps
import Verif.Lemmas.LeftRun
import Verif.Lemmas.Link
import Verif.Lemmas.Linked
import Verif.Lemmas.Mem
import Verif.Lemmas.Module
import Verif.Lemmas.ModuleOk
import Verif.Lemmas.Named
import Verif.Lemmas.NoCk
import Verif.Lemmas.Num
import Verif.Lemmas.Panics
import Verif.Lemmas.Pass
import Verif.Lemmas.Percent
import Verif.Lemmas.Regs
import Verif.Lemmas.Sim
import Verif.Lemmas.Sized
import Verif.Lemmas.Steady
import Verif.Lemmas.Sym
import Verif.Lemmas.SymCall
import Verif.Lemmas.SymFlow
import Verif.Lemmas.SymMain
import Verif.Lemmas.SymRel
import Verif.Lemmas.SymSim
import Verif.Lemmas.SymStep
import Verif.Lemmas.Tables
import Verif.Lemmas.Untyped
import Verif.Lemmas.VM
import Verif.Lemmas.WebComplete
import Verif.Lemmas.WebDet
import Verif.Lemmas.WebNum
import Verif.Lemmas.WebOp
import Verif.Lemmas.WebOpDet
import Verif.Lemmas.WebRun
import Verif.Lemmas.WinRun
import Verif.Lemmas.WinStep
import Verif.Props.Accept
import Verif.Props.Alloc
import Verif.Props.Asks
import Verif.Props.AsksEx
import Verif.Props.Branch
import Verif.Props.Calls
import Verif.Props.Canonical
import Verif.Props.Cli
import Verif.Props.CommandLine
import Verif.Props.CommandSafe
import Verif.Props.CommandSafeEx
import Verif.Props.CompileBugs
import Verif.Props.Compiled
import Verif.Props.Console
import Verif.Props.ConsoleEx
import Verif.Props.ConsoleRun
import Verif.Props.Constants
import Verif.Props.Correct
import Verif.Props.CorrectEx
import Verif.Props.Covered
import Verif.Props.Crash
import Verif.Props.CrashEx
import Verif.Props.Dead
import Verif.Props.Dispatch
import Verif.Props.Effects
import Verif.Props.EndToEnd
import Verif.Props.EndToEndEx
import Verif.Props.Errno
import Verif.Props.Executed
import Verif.Props.ExecutedEx
import Verif.Props.ExecutedRun
import Verif.Props.ExecutedTr
import Verif.Props.Exit
import Verif.Props.FileParts
import Verif.Props.Float
import Verif.Props.FloatText
import Verif.Props.Handlers
import Verif.Props.History
import Verif.Props.HistoryEx
import Verif.Props.Ieee
import Verif.Props.Link
import Verif.Props.Linked
import Verif.Props.LinkedEx
import Verif.Props.Loading
import Verif.Props.Machine
import Verif.Props.Mem
import Verif.Props.MemExact
import Verif.Props.Migrate
import Verif.Props.MigrateEx
import Verif.Props.Missing
import Verif.Props.Module
import Verif.Props.Moved
import Verif.Props.NaNFree
import Verif.Props.Nested
import Verif.Props.NoTrace
import Verif.Props.NoTraceEx
import Verif.Props.Num
import Verif.Props.OpInstr
import Verif.Props.Params
import Verif.Props.Pass
import Verif.Props.PassRun
import Verif.Props.Platforms
import Verif.Props.PlatformsEx
import Verif.Props.Programs
import Verif.Props.Progress
import Verif.Props.ProgressEx
import Verif.Props.Protocol
import Verif.Props.Quiet
import Verif.Props.QuietRun
import Verif.Props.Reach
import Verif.Props.ReachEx
import Verif.Props.ReachRun
import Verif.Props.Regs
import Verif.Props.Report
import Verif.Props.RequestTime
import Verif.Props.RequestTimeEx
import Verif.Props.Restore
import Verif.Props.Resume
import Verif.Props.ResumeClean
import Verif.Props.Safety
import Verif.Props.Sample
import Verif.Props.Session
import Verif.Props.SessionEx
import Verif.Props.SessionMain
import Verif.Props.Show
import Verif.Props.Size
import Verif.Props.Sound
import Verif.Props.SoundEx
import Verif.Props.Start
import Verif.Props.State
import Verif.Props.Stats
import Verif.Props.StatsText
import Verif.Props.Steady
import Verif.Props.Storage
import Verif.Props.StuckRefs
import Verif.Props.Ticks
import Verif.Props.Trace
import Verif.Props.Trigger
import Verif.Props.TriggerMain
import Verif.Props.TypedCells
import Verif.Props.Unsupported
import Verif.Props.Untouched
import Verif.Props.UntouchedAsks
import Verif.Props.UntouchedCrash
import Verif.Props.UntouchedCrashEx
import Verif.Props.UntouchedEx
import Verif.Props.UntouchedMore
import Verif.Props.UntouchedMoreEx
import Verif.Props.Untyped
import Verif.Props.Wasi
import Verif.Props.WasiAbi
import Verif.Props.WebAssembly
import Verif.Props.Wide
