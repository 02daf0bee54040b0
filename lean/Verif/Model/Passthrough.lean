import Verif.Model.Wasi
import Verif.Model.WasiFn
import Verif.Model.Runtime
/-
Model of src/wasi/passthrough.rs (every method) and of `call_wasi_function` (runtime.rs:430-1037).
The interpreter hands each call on to the `__wasi_*` function of its own host.  That host is a parameter: it sees the arguments
below and answers with an error number and the bytes it puts into the places it was given.
-/
namespace Verif.Model
open Verif.Spec (WasiErr)

/-- what the host sees behind one argument of a native `__wasi_*` call (passthrough.rs:22-138); the length of an iovec array or
of a buffer goes with its pointer -/
inductive NArg
  /-- a number -/
  | num (v : Nat)
  /-- pointer to a NUL-terminated string: the bytes before the first NUL -/
  | str (s : List Byte)
  /-- iovec array whose buffers the host reads -/
  | rd (bufs : List (List Byte))
  /-- iovec array whose buffers the host fills: their lengths -/
  | wr (caps : List Nat)
  /-- pointer to bytes the host reads -/
  | inp (bs : List Byte)
  /-- pointer to a buffer of that length, which the host fills -/
  | out (cap : Nat)
  /-- pointer to a result of that size -/
  | ret (size : Nat)
  deriving DecidableEq

/-- what a native call leaves behind: error number and the bytes written at each place it may write, in the order of the
arguments (from the start of the place on) -/
structure Answer where
  errno : BitVec 16
  outs : List (List Byte)

/-- the host of the interpreter (passthrough.rs:22-138) -/
structure Native where
  W : Type
  call : WasiFn → List NArg → W → Answer × W
  /-- `__wasi_environ_sizes_get`: error number, count, size -/
  envSizes : W → BitVec 16 × BitVec 32 × BitVec 32
  /-- `__wasi_environ_get`: error number, the pointers (offsets into the buffer; `none` is NULL), the buffer -/
  envGet : W → BitVec 16 × List (Option Nat) × List Byte

/-- `WasiResult<i32>`, with the memory and the world afterwards -/
abbrev PRes (H : Native) := Res (Except WasiErr (BitVec 32) × Mem × H.W)

/-- raw writes of the host through a pointer into guest memory -/
def IoVec.fill (d : List Byte) : IoVec → List Byte → Res (List Byte)
  | .null, _ => .ok d
  | .buf p _, bs => writeAt d p.toNat bs

/-- the host fills the places in order -/
def fillAll (d : List Byte) : List IoVec → List (List Byte) → Res (List Byte)
  | v :: vs, b :: bs => do
    let d' ← v.fill d b
    fillAll d' vs bs
  | _, _ => .ok d

/-- buffer length of a native iovec -/
def IoVec.cap : IoVec → Nat
  | .null => 0
  | .buf _ l => l.toNat

/-- a local variable of `n` bytes, initially 0, after the host wrote `bs` into it -/
def localVar (n : Nat) (bs : List Byte) : List Byte := (bs ++ List.replicate n 0).take n

/-- passthrough.rs:564-568 and likewise: `from_raw_parts(base + ptr, len).to_vec()`, a NUL appended; the host reads up to the
first NUL -/
def pathArg (d : List Byte) (p l : BitVec 32) : Res NArg := do
  let bs ← readAt d p.toNat l.toNat
  pure (.str (bs.takeWhile (· ≠ 0)))

/-- passthrough.rs:262-288 (`fd_read`), 681-707 (`fd_pread`), 764-790 (`fd_pwrite`): the loop over the guest iovecs; the array
is read with checked indexing, the buffers are not checked -/
def gatherRaw (d : List Byte) (iovs : BitVec 32) : List Nat → List IoVec → Res (List IoVec)
  | [], acc => .ok acc
  | i :: is, acc =>
    let off := iovs + BitVec.ofNat 32 i * 8#32
    if d.length < off.toNat + 8 then .panic
    else
      let bufPtr := BitVec.ofNat 32 (fromLE ((d.drop off.toNat).take 4))
      let bufLen := BitVec.ofNat 32 (fromLE ((d.drop (off.toNat + 4)).take 4))
      if bufLen = 0 then gatherRaw d iovs is (acc ++ [.null])
      else gatherRaw d iovs is (acc ++ [.buf bufPtr bufLen])

section
variable (H : Native)

/-- the common end of most methods: the host gets pointers into guest memory and its error number is returned -/
def nativeCall (m : Mem) (w : H.W) (fn : WasiFn) (args : List NArg) (ptrs : List IoVec) : PRes H := do
  let d ← fillAll m.data ptrs (H.call fn args w).1.outs
  pure (.ok ((H.call fn args w).1.errno.setWidth 32), { m with data := d }, (H.call fn args w).2)

/-- `if wasi_errno == 0 { store the local variable at ptr }` -/
def storeResult (m : Mem) (a : Answer) (ptr : BitVec 32) (size k : Nat) : Res Mem :=
  if a.errno = 0 then m.storeBytes ptr (localVar size (a.outs.getD k [])) else .ok m

/-- the last result goes to a local variable first and is copied to `ptr` if the call succeeded -/
def nativeCallLocal (m : Mem) (w : H.W) (fn : WasiFn) (args : List NArg) (ptrs : List IoVec) (size : Nat) (ptr : BitVec 32) : PRes H := do
  let d ← fillAll m.data ptrs (H.call fn (args ++ [.ret size]) w).1.outs
  let m' ← storeResult { m with data := d } (H.call fn (args ++ [.ret size]) w).1 ptr size ptrs.length
  pure (.ok ((H.call fn (args ++ [.ret size]) w).1.errno.setWidth 32), m', (H.call fn (args ++ [.ret size]) w).2)

/-- the host as `fd_write` sees it -/
def writeHost (w : H.W) (fd : BitVec 32) (bufs : List (List Byte)) : BitVec 16 × BitVec 32 :=
  ((H.call .fdWrite [.num fd.toNat, .rd bufs, .ret 4] w).1.errno,
   BitVec.ofNat 32 (fromLE (localVar 4 ((H.call .fdWrite [.num fd.toNat, .rd bufs, .ret 4] w).1.outs.getD 0 []))))

/-- the world after `fd_write` -/
def writeWorld (w : H.W) (fd : BitVec 32) : Option (List (List Byte)) → H.W
  | some bufs => (H.call .fdWrite [.num fd.toNat, .rd bufs, .ret 4] w).2
  | none => w

/-- passthrough.rs:178-248 `fd_write` -/
def pFdWrite (m : Mem) (w : H.W) (fd iovs n nwritten : BitVec 32) : PRes H := do
  let o ← fdWrite (writeHost H w fd) m iovs n nwritten
  pure (o.ret, o.mem, writeWorld H w fd o.host)

/-- passthrough.rs:250-302 `fd_read` -/
def pFdRead (m : Mem) (w : H.W) (fd iovs n nread : BitVec 32) : PRes H :=
  if 2 ^ 31 ≤ n.toNat * 8 then .panic
  else do
    let vs ← gatherRaw m.data iovs (List.range n.toNat) []
    nativeCallLocal H m w .fdRead [.num fd.toNat, .wr (vs.map IoVec.cap)] vs 4 nread

/-- passthrough.rs:667-730 `fd_pread` -/
def pFdPread (m : Mem) (w : H.W) (fd iovs n : BitVec 32) (offset : BitVec 64) (nread : BitVec 32) : PRes H :=
  if 2 ^ 31 ≤ n.toNat * 8 then .panic
  else do
    let vs ← gatherRaw m.data iovs (List.range n.toNat) []
    nativeCallLocal H m w .fdPread [.num fd.toNat, .wr (vs.map IoVec.cap), .num offset.toNat] vs 4 nread

/-- passthrough.rs:750-813 `fd_pwrite` -/
def pFdPwrite (m : Mem) (w : H.W) (fd iovs n : BitVec 32) (offset : BitVec 64) (nwritten : BitVec 32) : PRes H :=
  if 2 ^ 31 ≤ n.toNat * 8 then .panic
  else do
    let vs ← gatherRaw m.data iovs (List.range n.toNat) []
    let bs ← iovecBytes m.data vs
    nativeCallLocal H m w .fdPwrite [.num fd.toNat, .rd bs, .num offset.toNat] [] 4 nwritten

/-- passthrough.rs:311-323 `random_get` -/
def pRandomGet (m : Mem) (w : H.W) (buf len : BitVec 32) : PRes H :=
  if len = 0 then .ok (.ok 0, m, w) else nativeCall H m w .randomGet [.out len.toNat] [.buf buf len]

/-- passthrough.rs:355-366: the pointer array of `environ_get` -/
def environPtrs (bufPtr : BitVec 32) (offs : List (Option Nat)) : List Byte :=
  (offs.map fun o => match o with
    | some k => toLE 4 (bufPtr + BitVec.ofNat 32 k).toNat
    | none => toLE 4 0).flatten ++ toLE 4 0

/-- passthrough.rs:331-380 `environ_get` -/
def pEnvironGet (m : Mem) (w : H.W) (environ buf : BitVec 32) : PRes H :=
  if (H.envSizes w).1 ≠ 0 then .ok (.ok ((H.envSizes w).1.setWidth 32), m, w)
  else if (H.envGet w).1 ≠ 0 then .ok (.ok ((H.envGet w).1.setWidth 32), m, w)
  else do
    let m1 ← m.storeBytes environ (environPtrs buf (H.envGet w).2.1)
    let m2 ← m1.storeBytes buf (H.envGet w).2.2
    pure (.ok 0, m2, w)

/-- passthrough.rs:382-405 `environ_sizes_get` -/
def pEnvironSizesGet (m : Mem) (w : H.W) (countPtr sizePtr : BitVec 32) : PRes H :=
  if (H.envSizes w).1 ≠ 0 then .ok (.ok ((H.envSizes w).1.setWidth 32), m, w)
  else do
    let m1 ← m.storeU32 countPtr (H.envSizes w).2.1
    let m2 ← m1.storeU32 sizePtr (H.envSizes w).2.2
    pure (.ok 0, m2, w)

/-- passthrough.rs:407-437 `args_get` -/
def pArgsGet (argv : List (List Byte)) (m : Mem) (w : H.W) (argvPtr buf : BitVec 32) : PRes H := do
  let m' ← argsGet m argv argvPtr buf
  pure (.ok 0, m', w)

/-- passthrough.rs:439-460 `args_sizes_get` -/
def pArgsSizesGet (argv : List (List Byte)) (m : Mem) (w : H.W) (argcPtr sizePtr : BitVec 32) : PRes H := do
  let m' ← argsSizesGet m argv argcPtr sizePtr
  pure (.ok 0, m', w)

/-- passthrough.rs:462-482 `clock_time_get` -/
def pClockTimeGet (m : Mem) (w : H.W) (id : BitVec 32) (precision : BitVec 64) (time : BitVec 32) : PRes H :=
  nativeCallLocal H m w .clockTimeGet [.num id.toNat, .num precision.toNat] [] 8 time

/-- passthrough.rs:484-502 `clock_res_get` -/
def pClockResGet (m : Mem) (w : H.W) (id resolution : BitVec 32) : PRes H :=
  nativeCallLocal H m w .clockResGet [.num id.toNat] [] 8 resolution

/-- passthrough.rs:515-534 `fd_prestat_dir_name` -/
def pFdPrestatDirName (m : Mem) (w : H.W) (fd path len : BitVec 32) : PRes H :=
  nativeCall H m w .fdPrestatDirName [.num fd.toNat, .out len.toNat] [.buf path len]

/-- passthrough.rs:504-513 `fd_prestat_get` (8 bytes), 542-551 `fd_fdstat_get` (24), 615-623 `fd_tell` (8), 631-640
`fd_filestat_get` (64): the descriptor and a pointer to the result -/
def pFdResult (m : Mem) (w : H.W) (fn : WasiFn) (size : Nat) (fd ptr : BitVec 32) : PRes H :=
  nativeCall H m w fn [.num fd.toNat, .ret size] [.buf ptr (BitVec.ofNat 32 size)]

/-- passthrough.rs:553-590 `path_open` -/
def pPathOpen (m : Mem) (w : H.W) (fd dirflags path len oflags : BitVec 32) (base inheriting : BitVec 64)
    (fdflags opened : BitVec 32) : PRes H := do
  let s ← pathArg m.data path len
  nativeCall H m w .pathOpen [.num fd.toNat, .num dirflags.toNat, s, .num (oflags.setWidth 16).toNat, .num base.toNat,
    .num inheriting.toNat, .num (fdflags.setWidth 16).toNat, .ret 4] [.buf opened 4]

/-- passthrough.rs:592-613 `fd_seek` -/
def pFdSeek (m : Mem) (w : H.W) (fd : BitVec 32) (offset : BitVec 64) (whence newoffset : BitVec 32) : PRes H :=
  nativeCall H m w .fdSeek [.num fd.toNat, .num offset.toNat, .num whence.toNat, .ret 8] [.buf newoffset 8]

/-- passthrough.rs:642-665 `fd_readdir` -/
def pFdReaddir (m : Mem) (w : H.W) (fd buf len : BitVec 32) (cookie : BitVec 64) (used : BitVec 32) : PRes H :=
  nativeCall H m w .fdReaddir [.num fd.toNat, .out len.toNat, .num cookie.toNat, .ret 4] [.buf buf len, .buf used 4]

/-- passthrough.rs:815-835, 936-977: `path_create_directory`, `path_remove_directory`, `path_unlink_file` -/
def pPath (m : Mem) (w : H.W) (fn : WasiFn) (fd path len : BitVec 32) : PRes H := do
  let s ← pathArg m.data path len
  nativeCall H m w fn [.num fd.toNat, s] []

/-- passthrough.rs:837-866 `path_filestat_get` -/
def pPathFilestatGet (m : Mem) (w : H.W) (fd flags path len stat : BitVec 32) : PRes H := do
  let s ← pathArg m.data path len
  nativeCall H m w .pathFilestatGet [.num fd.toNat, .num flags.toNat, s, .ret 64] [.buf stat 64]

/-- passthrough.rs:868-901 `path_filestat_set_times` -/
def pPathFilestatSetTimes (m : Mem) (w : H.W) (fd flags path len : BitVec 32) (atim mtim : BitVec 64) (fst : BitVec 32) : PRes H := do
  let s ← pathArg m.data path len
  nativeCall H m w .pathFilestatSetTimes [.num fd.toNat, .num flags.toNat, s, .num atim.toNat, .num mtim.toNat, .num fst.toNat] []

/-- passthrough.rs:903-934 `path_readlink` -/
def pPathReadlink (m : Mem) (w : H.W) (fd path len buf bufLen used : BitVec 32) : PRes H := do
  let s ← pathArg m.data path len
  nativeCall H m w .pathReadlink [.num fd.toNat, s, .out bufLen.toNat, .ret 4] [.buf buf bufLen, .buf used 4]

/-- passthrough.rs:979-1000 `poll_oneoff`: the host reads `n` subscriptions of 48 bytes and fills `n` events of 32 bytes -/
def pPollOneoff (m : Mem) (w : H.W) (inPtr outPtr n nevents : BitVec 32) : PRes H := do
  let bs ← readAt m.data inPtr.toNat (48 * n.toNat)
  nativeCall H m w .pollOneoff [.inp bs, .out (32 * n.toNat), .num n.toNat, .ret 4]
    [.buf outPtr (BitVec.ofNat 32 (32 * n.toNat)), .buf nevents 4]

/-- passthrough.rs:325-329, 536-540, 625-629, 732-748, 1008-1063, 1260-1264: only numbers are passed (`sched_yield`, `fd_close`,
`fd_sync`, `fd_datasync`, `fd_fdstat_set_flags`, `fd_filestat_set_size`, `fd_allocate`, `fd_fdstat_set_rights`, `fd_renumber`,
`fd_filestat_set_times`, `sock_shutdown`; `fd_advise` casts its last argument to `u8`) -/
def pNums (m : Mem) (w : H.W) (fn : WasiFn) (ns : List Nat) : PRes H := nativeCall H m w fn (ns.map .num) []

/-- passthrough.rs:1065-1109 `path_link` -/
def pPathLink (m : Mem) (w : H.W) (oldFd oldFlags oldPath oldLen newFd newPath newLen : BitVec 32) : PRes H := do
  let s ← pathArg m.data oldPath oldLen
  let t ← pathArg m.data newPath newLen
  nativeCall H m w .pathLink [.num oldFd.toNat, .num oldFlags.toNat, s, .num newFd.toNat, t] []

/-- passthrough.rs:1111-1153 `path_rename` -/
def pPathRename (m : Mem) (w : H.W) (oldFd oldPath oldLen newFd newPath newLen : BitVec 32) : PRes H := do
  let s ← pathArg m.data oldPath oldLen
  let t ← pathArg m.data newPath newLen
  nativeCall H m w .pathRename [.num oldFd.toNat, s, .num newFd.toNat, t] []

/-- passthrough.rs:1155-1190 `path_symlink` -/
def pPathSymlink (m : Mem) (w : H.W) (oldPath oldLen fd newPath newLen : BitVec 32) : PRes H := do
  let s ← pathArg m.data oldPath oldLen
  let t ← pathArg m.data newPath newLen
  nativeCall H m w .pathSymlink [s, .num fd.toNat, t] []

/-- passthrough.rs:1192-1206 `sock_accept` -/
def pSockAccept (m : Mem) (w : H.W) (fd flags ptr : BitVec 32) : PRes H :=
  nativeCall H m w .sockAccept [.num fd.toNat, .num flags.toNat, .ret 4] [.buf ptr 4]

/-- passthrough.rs:1208-1258: the guest's iovec array is handed to the host as it is, so the *guest* addresses in it are taken
for addresses of the interpreter itself: undefined unless all buffers are empty -/
def guestIovs (d : List Byte) (iovs : BitVec 32) (n : Nat) : Res (List (Nat × Nat)) := do
  let bs ← readAt d iovs.toNat (8 * n)
  let vs := (List.range n).map fun i => (fromLE ((bs.drop (8 * i)).take 4), fromLE ((bs.drop (8 * i + 4)).take 4))
  if vs.all (fun v => v.2 == 0) then .ok vs else .ub

/-- passthrough.rs:1208-1233 `sock_recv` -/
def pSockRecv (m : Mem) (w : H.W) (fd iovs n flags datalen roflags : BitVec 32) : PRes H := do
  let vs ← guestIovs m.data iovs n.toNat
  nativeCall H m w .sockRecv [.num fd.toNat, .wr (vs.map fun _ => 0), .num flags.toNat, .ret 4, .ret 2]
    (vs.map (fun _ => .null) ++ [.buf datalen 4, .buf roflags 2])

/-- passthrough.rs:1235-1258 `sock_send` -/
def pSockSend (m : Mem) (w : H.W) (fd iovs n flags datalen : BitVec 32) : PRes H := do
  let vs ← guestIovs m.data iovs n.toNat
  nativeCall H m w .sockSend [.num fd.toNat, .rd (vs.map fun _ => []), .num flags.toNat, .ret 4] [.buf datalen 4]

end

/-- the number a parameter stands for -/
def _root_.Verif.Model.Val.num (v : Val) : Nat := v.cls.num v.v

/-- `params[i].to_i32()? as u32` -/
def par32 (ps : List Val) (i : Nat) : BitVec 32 := BitVec.ofNat 32 ((ps.map Val.num).getD i 0)

/-- `params[i].to_i64()? as u64` -/
def par64 (ps : List Val) (i : Nat) : BitVec 64 := BitVec.ofNat 64 ((ps.map Val.num).getD i 0)

/-- runtime.rs:448-1036: the arms of `call_wasi_function`, parameters already converted.  `proc_exit` does not return
(passthrough.rs:304-309): represented by the error `ProcessExit` with the code. -/
def passArm (H : Native) (argv : List (List Byte)) (fn : WasiFn) (ps : List Val) (m : Mem) (w : H.W) : PRes H :=
  let a := par32 ps
  let b := par64 ps
  match fn with
  | .fdWrite => pFdWrite H m w (a 0) (a 1) (a 2) (a 3)
  | .fdRead => pFdRead H m w (a 0) (a 1) (a 2) (a 3)
  | .procExit => .ok (.error (.processExit (a 0)), m, w)
  | .randomGet => pRandomGet H m w (a 0) (a 1)
  | .fdClose => pNums H m w .fdClose [(a 0).toNat]
  | .environGet => pEnvironGet H m w (a 0) (a 1)
  | .environSizesGet => pEnvironSizesGet H m w (a 0) (a 1)
  | .argsGet => pArgsGet H argv m w (a 0) (a 1)
  | .argsSizesGet => pArgsSizesGet H argv m w (a 0) (a 1)
  | .clockTimeGet => pClockTimeGet H m w (a 0) (b 1) (a 2)
  | .clockResGet => pClockResGet H m w (a 0) (a 1)
  | .fdPrestatGet => pFdResult H m w .fdPrestatGet 8 (a 0) (a 1)
  | .fdPrestatDirName => pFdPrestatDirName H m w (a 0) (a 1) (a 2)
  | .schedYield => pNums H m w .schedYield []
  | .fdFdstatGet => pFdResult H m w .fdFdstatGet 24 (a 0) (a 1)
  | .pathOpen => pPathOpen H m w (a 0) (a 1) (a 2) (a 3) (a 4) (b 5) (b 6) (a 7) (a 8)
  | .fdSeek => pFdSeek H m w (a 0) (b 1) (a 2) (a 3)
  | .fdTell => pFdResult H m w .fdTell 8 (a 0) (a 1)
  | .fdSync => pNums H m w .fdSync [(a 0).toNat]
  | .fdFilestatGet => pFdResult H m w .fdFilestatGet 64 (a 0) (a 1)
  | .fdReaddir => pFdReaddir H m w (a 0) (a 1) (a 2) (b 3) (a 4)
  | .fdPread => pFdPread H m w (a 0) (a 1) (a 2) (b 3) (a 4)
  | .fdDatasync => pNums H m w .fdDatasync [(a 0).toNat]
  | .fdFdstatSetFlags => pNums H m w .fdFdstatSetFlags [(a 0).toNat, (a 1).toNat]
  | .fdFilestatSetSize => pNums H m w .fdFilestatSetSize [(a 0).toNat, (b 1).toNat]
  | .fdPwrite => pFdPwrite H m w (a 0) (a 1) (a 2) (b 3) (a 4)
  | .pathCreateDirectory => pPath H m w .pathCreateDirectory (a 0) (a 1) (a 2)
  | .pathFilestatGet => pPathFilestatGet H m w (a 0) (a 1) (a 2) (a 3) (a 4)
  | .pathFilestatSetTimes => pPathFilestatSetTimes H m w (a 0) (a 1) (a 2) (a 3) (b 4) (b 5) (a 6)
  | .pathReadlink => pPathReadlink H m w (a 0) (a 1) (a 2) (a 3) (a 4) (a 5)
  | .pathRemoveDirectory => pPath H m w .pathRemoveDirectory (a 0) (a 1) (a 2)
  | .pathUnlinkFile => pPath H m w .pathUnlinkFile (a 0) (a 1) (a 2)
  | .pollOneoff => pPollOneoff H m w (a 0) (a 1) (a 2) (a 3)
  | .fdFilestatSetTimes => pNums H m w .fdFilestatSetTimes [(a 0).toNat, (b 1).toNat, (b 2).toNat, (a 3).toNat]
  | .pathLink => pPathLink H m w (a 0) (a 1) (a 2) (a 3) (a 4) (a 5) (a 6)
  | .pathRename => pPathRename H m w (a 0) (a 1) (a 2) (a 3) (a 4) (a 5)
  | .pathSymlink => pPathSymlink H m w (a 0) (a 1) (a 2) (a 3) (a 4)
  | .sockAccept => pSockAccept H m w (a 0) (a 1) (a 2)
  | .sockRecv => pSockRecv H m w (a 0) (a 1) (a 2) (a 3) (a 4) (a 5)
  | .sockSend => pSockSend H m w (a 0) (a 1) (a 2) (a 3) (a 4)
  | .sockShutdown => pNums H m w .sockShutdown [(a 0).toNat, (a 1).toNat]
  | .fdFdstatSetRights => pNums H m w .fdFdstatSetRights [(a 0).toNat, (b 1).toNat, (b 2).toNat]
  | .fdAdvise => pNums H m w .fdAdvise [(a 0).toNat, (b 1).toNat, (b 2).toNat, ((a 3).setWidth 8).toNat]
  | .fdAllocate => pNums H m w .fdAllocate [(a 0).toNat, (b 1).toNat, (b 2).toNat]
  | .fdRenumber => pNums H m w .fdRenumber [(a 0).toNat, (a 1).toNat]
  | .procRaise => .ok (.error .noSys, m, w)

/-- runtime.rs:430-1037 `call_wasi_function`: a wrong number of parameters or a parameter of the wrong type is `Inval`, a
function without an arm is `NoSys`. -/
def passCall (H : Native) (argv : List (List Byte)) (fn : WasiFn) (ps : List Val) (m : Mem) (w : H.W) : PRes H :=
  match fn.wants with
  | none => .ok (.error .noSys, m, w)
  | some cs => if ps.map (·.cls) = cs then passArm H argv fn ps m w else .ok (.error .inval, m, w)

/-- outcome of a WASI call for the run loop (runtime.rs:273-297): an error ends the run, a number becomes the `i32` result;
`proc_exit` ends the process on the spot (passthrough.rs:304-309), here an error nobody catches, with the exit code. -/
def passResult (H : Native) : Except WasiErr (BitVec 32) × Mem × H.W → Res (Option (Option Val) × Mem × H.W)
  | (.ok e, m, w) => .ok (some (some ⟨.i32, e⟩), m, w)
  | (.error (.processExit c), _, _) => .trap (.processExit c)
  | (.error _, m, w) => .ok (none, m, w)

/-- the WASI implementation of the interpreter (`PassthroughWasiImpl`, main.rs) over a host, with the guest's arguments -/
def passthrough (H : Native) (argv : List (List Byte)) : Wasi where
  W := H.W
  call id ps m w :=
    match WasiFn.all[id]? with
    | some fn => do
      let r ← passCall H argv fn ps m w
      passResult H r
    | none => .ok (none, m, w)

end Verif.Model
