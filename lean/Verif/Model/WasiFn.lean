import Verif.Model.VM
/-
The WASI functions the interpreter knows: names, types, and what `call_wasi_function` demands of its arguments.
-/
namespace Verif.Model

/-- structure/module.rs:113-160 `WasiFuncType` -/
inductive WasiFn
  | procExit | fdWrite | fdRead | randomGet | fdPrestatGet | fdPrestatDirName
  | fdClose | environGet | environSizesGet | argsGet | argsSizesGet | clockTimeGet
  | clockResGet | schedYield | fdFdstatGet | pathOpen | fdSeek | fdTell
  | fdSync | fdFilestatGet | fdReaddir | fdPread | fdDatasync | fdFdstatSetFlags
  | fdFilestatSetSize | fdPwrite | pathCreateDirectory | pathFilestatGet | pathFilestatSetTimes | pathReadlink
  | pathRemoveDirectory | pathUnlinkFile | pollOneoff | procRaise | fdAdvise | fdAllocate
  | fdFdstatSetRights | fdRenumber | fdFilestatSetTimes | pathLink | pathRename | pathSymlink
  | sockAccept | sockRecv | sockSend | sockShutdown
  deriving DecidableEq, Repr

/-- every function, in declaration order -/
def WasiFn.all : List WasiFn := [
  .procExit, .fdWrite, .fdRead, .randomGet, .fdPrestatGet, .fdPrestatDirName,
  .fdClose, .environGet, .environSizesGet, .argsGet, .argsSizesGet, .clockTimeGet,
  .clockResGet, .schedYield, .fdFdstatGet, .pathOpen, .fdSeek, .fdTell,
  .fdSync, .fdFilestatGet, .fdReaddir, .fdPread, .fdDatasync, .fdFdstatSetFlags,
  .fdFilestatSetSize, .fdPwrite, .pathCreateDirectory, .pathFilestatGet, .pathFilestatSetTimes, .pathReadlink,
  .pathRemoveDirectory, .pathUnlinkFile, .pollOneoff, .procRaise, .fdAdvise, .fdAllocate,
  .fdFdstatSetRights, .fdRenumber, .fdFilestatSetTimes, .pathLink, .pathRename, .pathSymlink,
  .sockAccept, .sockRecv, .sockSend, .sockShutdown]

/-- the number a function is identified by in `Instr.callWasi` and `FuncInst.wasi` (its discriminant) -/
def WasiFn.id (w : WasiFn) : Nat := w.ctorIdx

/-- parser.rs:654-706 `WASI_FUNCTION_MAP` -/
def wasiMap : List (String × WasiFn) := [
  ("proc_exit", .procExit),
  ("fd_write", .fdWrite),
  ("fd_read", .fdRead),
  ("random_get", .randomGet),
  ("fd_prestat_get", .fdPrestatGet),
  ("fd_prestat_dir_name", .fdPrestatDirName),
  ("fd_close", .fdClose),
  ("environ_get", .environGet),
  ("environ_sizes_get", .environSizesGet),
  ("args_get", .argsGet),
  ("args_sizes_get", .argsSizesGet),
  ("clock_time_get", .clockTimeGet),
  ("clock_res_get", .clockResGet),
  ("sched_yield", .schedYield),
  ("fd_fdstat_get", .fdFdstatGet),
  ("path_open", .pathOpen),
  ("fd_seek", .fdSeek),
  ("fd_tell", .fdTell),
  ("fd_sync", .fdSync),
  ("fd_filestat_get", .fdFilestatGet),
  ("fd_readdir", .fdReaddir),
  ("fd_pread", .fdPread),
  ("fd_datasync", .fdDatasync),
  ("fd_fdstat_set_flags", .fdFdstatSetFlags),
  ("fd_filestat_set_size", .fdFilestatSetSize),
  ("fd_pwrite", .fdPwrite),
  ("path_create_directory", .pathCreateDirectory),
  ("path_filestat_get", .pathFilestatGet),
  ("path_filestat_set_times", .pathFilestatSetTimes),
  ("path_readlink", .pathReadlink),
  ("path_remove_directory", .pathRemoveDirectory),
  ("path_unlink_file", .pathUnlinkFile),
  ("poll_oneoff", .pollOneoff),
  ("proc_raise", .procRaise),
  ("fd_advise", .fdAdvise),
  ("fd_allocate", .fdAllocate),
  ("fd_fdstat_set_rights", .fdFdstatSetRights),
  ("fd_renumber", .fdRenumber),
  ("fd_filestat_set_times", .fdFilestatSetTimes),
  ("path_link", .pathLink),
  ("path_rename", .pathRename),
  ("path_symlink", .pathSymlink),
  ("sock_accept", .sockAccept),
  ("sock_recv", .sockRecv),
  ("sock_send", .sockSend),
  ("sock_shutdown", .sockShutdown)]

/-- parser.rs:939-941 `parse_wasi_function` -/
def parseWasi (name : String) : Option WasiFn := (wasiMap.find? fun p => p.1 == name).map (·.2)

/-- structure/module.rs:164-548 `expected_func_type` / `to_func_type` -/
def WasiFn.type : WasiFn → FuncType
  | .procExit => ⟨[.i32], []⟩
  | .fdWrite => ⟨[.i32, .i32, .i32, .i32], [.i32]⟩
  | .fdRead => ⟨[.i32, .i32, .i32, .i32], [.i32]⟩
  | .randomGet => ⟨[.i32, .i32], [.i32]⟩
  | .fdPrestatGet => ⟨[.i32, .i32], [.i32]⟩
  | .fdPrestatDirName => ⟨[.i32, .i32, .i32], [.i32]⟩
  | .fdClose => ⟨[.i32], [.i32]⟩
  | .environGet => ⟨[.i32, .i32], [.i32]⟩
  | .environSizesGet => ⟨[.i32, .i32], [.i32]⟩
  | .argsGet => ⟨[.i32, .i32], [.i32]⟩
  | .argsSizesGet => ⟨[.i32, .i32], [.i32]⟩
  | .clockTimeGet => ⟨[.i32, .i64, .i32], [.i32]⟩
  | .clockResGet => ⟨[.i32, .i32], [.i32]⟩
  | .schedYield => ⟨[], [.i32]⟩
  | .fdFdstatGet => ⟨[.i32, .i32], [.i32]⟩
  | .pathOpen => ⟨[.i32, .i32, .i32, .i32, .i32, .i64, .i64, .i32, .i32], [.i32]⟩
  | .fdSeek => ⟨[.i32, .i64, .i32, .i32], [.i32]⟩
  | .fdTell => ⟨[.i32, .i32], [.i32]⟩
  | .fdSync => ⟨[.i32], [.i32]⟩
  | .fdFilestatGet => ⟨[.i32, .i32], [.i32]⟩
  | .fdReaddir => ⟨[.i32, .i32, .i32, .i64, .i32], [.i32]⟩
  | .fdPread => ⟨[.i32, .i32, .i32, .i64, .i32], [.i32]⟩
  | .fdDatasync => ⟨[.i32], [.i32]⟩
  | .fdFdstatSetFlags => ⟨[.i32, .i32], [.i32]⟩
  | .fdFilestatSetSize => ⟨[.i32, .i64], [.i32]⟩
  | .fdPwrite => ⟨[.i32, .i32, .i32, .i64, .i32], [.i32]⟩
  | .pathCreateDirectory => ⟨[.i32, .i32, .i32], [.i32]⟩
  | .pathFilestatGet => ⟨[.i32, .i32, .i32, .i32, .i32], [.i32]⟩
  | .pathFilestatSetTimes => ⟨[.i32, .i32, .i32, .i32, .i64, .i64, .i32], [.i32]⟩
  | .pathReadlink => ⟨[.i32, .i32, .i32, .i32, .i32, .i32], [.i32]⟩
  | .pathRemoveDirectory => ⟨[.i32, .i32, .i32], [.i32]⟩
  | .pathUnlinkFile => ⟨[.i32, .i32, .i32], [.i32]⟩
  | .pollOneoff => ⟨[.i32, .i32, .i32, .i32], [.i32]⟩
  | .procRaise => ⟨[.i32], [.i32]⟩
  | .fdAdvise => ⟨[.i32, .i64, .i64, .i32], [.i32]⟩
  | .fdAllocate => ⟨[.i32, .i64, .i64], [.i32]⟩
  | .fdFdstatSetRights => ⟨[.i32, .i64, .i64], [.i32]⟩
  | .fdRenumber => ⟨[.i32, .i32], [.i32]⟩
  | .fdFilestatSetTimes => ⟨[.i32, .i64, .i64, .i32], [.i32]⟩
  | .pathLink => ⟨[.i32, .i32, .i32, .i32, .i32, .i32, .i32], [.i32]⟩
  | .pathRename => ⟨[.i32, .i32, .i32, .i32, .i32, .i32], [.i32]⟩
  | .pathSymlink => ⟨[.i32, .i32, .i32, .i32, .i32], [.i32]⟩
  | .sockAccept => ⟨[.i32, .i32, .i32], [.i32]⟩
  | .sockRecv => ⟨[.i32, .i32, .i32, .i32, .i32, .i32], [.i32]⟩
  | .sockSend => ⟨[.i32, .i32, .i32, .i32, .i32], [.i32]⟩
  | .sockShutdown => ⟨[.i32, .i32], [.i32]⟩

/-- runtime.rs:447-1036: number of parameters and conversions (`to_i32` / `to_i64`) of each arm, in order; the arguments are
then passed on in the same order.  `none`: no arm (`Err(NoSys)`). -/
def WasiFn.wants : WasiFn → Option (List Cls)
  | .procExit => some [.i32]
  | .fdWrite => some [.i32, .i32, .i32, .i32]
  | .fdRead => some [.i32, .i32, .i32, .i32]
  | .randomGet => some [.i32, .i32]
  | .fdPrestatGet => some [.i32, .i32]
  | .fdPrestatDirName => some [.i32, .i32, .i32]
  | .fdClose => some [.i32]
  | .environGet => some [.i32, .i32]
  | .environSizesGet => some [.i32, .i32]
  | .argsGet => some [.i32, .i32]
  | .argsSizesGet => some [.i32, .i32]
  | .clockTimeGet => some [.i32, .i64, .i32]
  | .clockResGet => some [.i32, .i32]
  | .schedYield => some []
  | .fdFdstatGet => some [.i32, .i32]
  | .pathOpen => some [.i32, .i32, .i32, .i32, .i32, .i64, .i64, .i32, .i32]
  | .fdSeek => some [.i32, .i64, .i32, .i32]
  | .fdTell => some [.i32, .i32]
  | .fdSync => some [.i32]
  | .fdFilestatGet => some [.i32, .i32]
  | .fdReaddir => some [.i32, .i32, .i32, .i64, .i32]
  | .fdPread => some [.i32, .i32, .i32, .i64, .i32]
  | .fdDatasync => some [.i32]
  | .fdFdstatSetFlags => some [.i32, .i32]
  | .fdFilestatSetSize => some [.i32, .i64]
  | .fdPwrite => some [.i32, .i32, .i32, .i64, .i32]
  | .pathCreateDirectory => some [.i32, .i32, .i32]
  | .pathFilestatGet => some [.i32, .i32, .i32, .i32, .i32]
  | .pathFilestatSetTimes => some [.i32, .i32, .i32, .i32, .i64, .i64, .i32]
  | .pathReadlink => some [.i32, .i32, .i32, .i32, .i32, .i32]
  | .pathRemoveDirectory => some [.i32, .i32, .i32]
  | .pathUnlinkFile => some [.i32, .i32, .i32]
  | .pollOneoff => some [.i32, .i32, .i32, .i32]
  | .procRaise => none
  | .fdAdvise => some [.i32, .i64, .i64, .i32]
  | .fdAllocate => some [.i32, .i64, .i64]
  | .fdFdstatSetRights => some [.i32, .i64, .i64]
  | .fdRenumber => some [.i32, .i32]
  | .fdFilestatSetTimes => some [.i32, .i64, .i64, .i32]
  | .pathLink => some [.i32, .i32, .i32, .i32, .i32, .i32, .i32]
  | .pathRename => some [.i32, .i32, .i32, .i32, .i32, .i32]
  | .pathSymlink => some [.i32, .i32, .i32, .i32, .i32]
  | .sockAccept => some [.i32, .i32, .i32]
  | .sockRecv => some [.i32, .i32, .i32, .i32, .i32, .i32]
  | .sockSend => some [.i32, .i32, .i32, .i32, .i32]
  | .sockShutdown => some [.i32, .i32]

end Verif.Model
