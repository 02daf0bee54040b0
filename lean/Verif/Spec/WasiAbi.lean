import Verif.Model.VM
/-
The functions of `wasi_snapshot_preview1` as its interface definition (the `.witx` file) declares them: the types of the
parameters and of what they return beside the error number.  Written down from the definition, not from the code.
-/
namespace Verif.Spec
open Verif.Model

/-- the types that occur in the interface -/
inductive WitTy
  /-- `fd`, `u8`, `u16`, `u32`, `size`, flag sets and enumerations of at most 32 bits -/
  | word
  /-- `filesize`, `filedelta`, `timestamp`, `rights`, `dircookie`, … -/
  | long
  /-- a pointer -/
  | ptr
  /-- a string or an array: pointer and length -/
  | slice
  deriving DecidableEq

/-- a function: parameters, and the number of values it returns through pointers when it succeeds -/
structure WitFn where
  params : List WitTy
  outs : Nat
  /-- `proc_exit` does not return and has no error number -/
  errno : Bool := true
  deriving DecidableEq

/-- lowering of a parameter to WebAssembly types -/
def WitTy.lower : WitTy → List Cls
  | .word => [.i32]
  | .long => [.i64]
  | .ptr => [.i32]
  | .slice => [.i32, .i32]

/-- lowering of a function: returned values become pointer parameters, the error number is the result -/
def WitFn.lower (f : WitFn) : FuncType :=
  ⟨f.params.flatMap WitTy.lower ++ List.replicate f.outs .i32, if f.errno then [.i32] else []⟩

/-- preview 1, in the order of the definition -/
def preview1 : List (String × WitFn) := [
  ("args_get", ⟨[.ptr, .ptr], 0, true⟩),
  ("args_sizes_get", ⟨[], 2, true⟩),
  ("environ_get", ⟨[.ptr, .ptr], 0, true⟩),
  ("environ_sizes_get", ⟨[], 2, true⟩),
  ("clock_res_get", ⟨[.word], 1, true⟩),                                       -- id
  ("clock_time_get", ⟨[.word, .long], 1, true⟩),                               -- id, precision
  ("fd_advise", ⟨[.word, .long, .long, .word], 0, true⟩),                      -- fd, offset, len, advice
  ("fd_allocate", ⟨[.word, .long, .long], 0, true⟩),                           -- fd, offset, len
  ("fd_close", ⟨[.word], 0, true⟩),
  ("fd_datasync", ⟨[.word], 0, true⟩),
  ("fd_fdstat_get", ⟨[.word], 1, true⟩),
  ("fd_fdstat_set_flags", ⟨[.word, .word], 0, true⟩),
  ("fd_fdstat_set_rights", ⟨[.word, .long, .long], 0, true⟩),
  ("fd_filestat_get", ⟨[.word], 1, true⟩),
  ("fd_filestat_set_size", ⟨[.word, .long], 0, true⟩),
  ("fd_filestat_set_times", ⟨[.word, .long, .long, .word], 0, true⟩),          -- fd, atim, mtim, fst_flags
  ("fd_pread", ⟨[.word, .slice, .long], 1, true⟩),                             -- fd, iovs, offset
  ("fd_prestat_get", ⟨[.word], 1, true⟩),
  ("fd_prestat_dir_name", ⟨[.word, .slice], 0, true⟩),
  ("fd_pwrite", ⟨[.word, .slice, .long], 1, true⟩),
  ("fd_read", ⟨[.word, .slice], 1, true⟩),
  ("fd_readdir", ⟨[.word, .slice, .long], 1, true⟩),                           -- fd, buf, cookie
  ("fd_renumber", ⟨[.word, .word], 0, true⟩),
  ("fd_seek", ⟨[.word, .long, .word], 1, true⟩),                               -- fd, offset, whence
  ("fd_sync", ⟨[.word], 0, true⟩),
  ("fd_tell", ⟨[.word], 1, true⟩),
  ("fd_write", ⟨[.word, .slice], 1, true⟩),
  ("path_create_directory", ⟨[.word, .slice], 0, true⟩),
  ("path_filestat_get", ⟨[.word, .word, .slice], 1, true⟩),                    -- fd, flags, path
  ("path_filestat_set_times", ⟨[.word, .word, .slice, .long, .long, .word], 0, true⟩),
  ("path_link", ⟨[.word, .word, .slice, .word, .slice], 0, true⟩),
  ("path_open", ⟨[.word, .word, .slice, .word, .long, .long, .word], 1, true⟩),
  ("path_readlink", ⟨[.word, .slice, .slice], 1, true⟩),
  ("path_remove_directory", ⟨[.word, .slice], 0, true⟩),
  ("path_rename", ⟨[.word, .slice, .word, .slice], 0, true⟩),
  ("path_symlink", ⟨[.slice, .word, .slice], 0, true⟩),
  ("path_unlink_file", ⟨[.word, .slice], 0, true⟩),
  ("poll_oneoff", ⟨[.ptr, .ptr, .word], 1, true⟩),                             -- in, out, nsubscriptions
  ("proc_exit", ⟨[.word], 0, false⟩),
  ("proc_raise", ⟨[.word], 0, true⟩),
  ("sched_yield", ⟨[], 0, true⟩),
  ("random_get", ⟨[.slice], 0, true⟩),
  ("sock_accept", ⟨[.word, .word], 1, true⟩),
  ("sock_recv", ⟨[.word, .slice, .word], 2, true⟩),                            -- fd, ri_data, ri_flags
  ("sock_send", ⟨[.word, .slice, .word], 1, true⟩),
  ("sock_shutdown", ⟨[.word, .word], 0, true⟩)]

end Verif.Spec
