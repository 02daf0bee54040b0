import Verif.Model.Mem
import Verif.Spec.Wasi
/-
Model of parts of src/wasi/passthrough.rs: `args_get`, `args_sizes_get`, `fd_write`.
`usize` is 32 bits, so address arithmetic wraps; the host's `__wasi_fd_write` is a parameter.
-/
namespace Verif.Model
open Verif.Spec (WasiErr)

/-- mem.rs:126-138 `store_bytes`: unchecked copy. -/
def Mem.storeBytes (m : Mem) (ptr : BitVec 32) (bs : List Byte) : Res Mem := do
  let d ← writeAt m.data ptr.toNat bs
  pure { m with data := d }

/-- mem.rs:66-71 `store::<u32>(0, ptr, v)`. -/
def Mem.storeU32 (m : Mem) (ptr : BitVec 32) (v : BitVec 32) : Res Mem :=
  m.storeBytes ptr (toLE 4 v.toNat)

/-- passthrough.rs:417-425: the loop building `ptr_data` and `argv_buf`. -/
def argsLoop (bufPtr : BitVec 32) : List (List Byte) → (ptrs buf : List Byte) → List Byte × List Byte
  | [], ptrs, buf => (ptrs, buf)
  | a :: as, ptrs, buf =>
    argsLoop bufPtr as (ptrs ++ toLE 4 (bufPtr + BitVec.ofNat 32 buf.length).toNat) (buf ++ a ++ [0])

/-- passthrough.rs:407-436 `args_get`: pointer array, then NULL, then the strings. -/
def argsGet (m : Mem) (argv : List (List Byte)) (argvPtr bufPtr : BitVec 32) : Res Mem :=
  let r := argsLoop bufPtr argv [] []
  do
    let m1 ← m.storeBytes argvPtr (r.1 ++ toLE 4 0)
    m1.storeBytes bufPtr r.2

/-- passthrough.rs:438-459 `args_sizes_get`. -/
def argsSizesGet (m : Mem) (argv : List (List Byte)) (argcPtr sizePtr : BitVec 32) : Res Mem := do
  let m1 ← m.storeU32 argcPtr (BitVec.ofNat 32 argv.length)
  m1.storeU32 sizePtr (BitVec.ofNat 32 ((argv.map (fun a => a.length + 1)).sum))

/-- one native iovec built by `fd_write` (`null` for an empty buffer) -/
inductive IoVec | null | buf (ptr len : BitVec 32)
  deriving DecidableEq

/-- passthrough.rs:190-229: the loop over the guest iovecs.  The first check wraps in 32 bits; the element reads are
checked slice indexing (panic), the buffer itself is only compared with the wrapped sum. -/
def gather (d : List Byte) (iovs : BitVec 32) : List Nat → List IoVec → Res (Except WasiErr (List IoVec))
  | [], acc => .ok (.ok acc)
  | i :: is, acc =>
    let off := iovs + BitVec.ofNat 32 i * 8#32
    if (BitVec.ofNat 32 d.length).toNat < (off + 8#32).toNat then .ok (.error .fault)
    else if d.length < off.toNat + 8 then .panic
    else
      let bufPtr := BitVec.ofNat 32 (fromLE ((d.drop off.toNat).take 4))
      let bufLen := BitVec.ofNat 32 (fromLE ((d.drop (off.toNat + 4)).take 4))
      if bufLen = 0 then gather d iovs is (acc ++ [.null])
      else if (BitVec.ofNat 32 d.length).toNat < (bufPtr + bufLen).toNat then .ok (.error .fault)
      else gather d iovs is (acc ++ [.buf bufPtr bufLen])

/-- what the host sees behind a native iovec: raw memory, undefined outside the guest memory -/
def IoVec.bytes (d : List Byte) : IoVec → Res (List Byte)
  | .null => .ok []
  | .buf p l => readAt d p.toNat l.toNat

def iovecBytes (d : List Byte) : List IoVec → Res (List (List Byte))
  | [] => .ok []
  | v :: vs => do
    let b ← v.bytes d
    let bs ← iovecBytes d vs
    pure (b :: bs)

/-- outcome of `fd_write`: return value, memory afterwards, buffers handed to the host (if it was called) -/
structure FdWriteOut where
  ret : Except WasiErr (BitVec 32)
  mem : Mem
  host : Option (List (List Byte))

/-- passthrough.rs:178-247 `fd_write`. `host` is `__wasi_fd_write` (errno, bytes written); `Vec::with_capacity` panics
above `isize::MAX` bytes. -/
def fdWrite (host : List (List Byte) → BitVec 16 × BitVec 32) (m : Mem) (iovs n nwrittenPtr : BitVec 32) :
    Res FdWriteOut :=
  if 2 ^ 31 ≤ n.toNat * 8 then .panic
  else do
    match ← gather m.data iovs (List.range n.toNat) [] with
    | .error e => .ok { ret := .error e, mem := m, host := none }
    | .ok vs =>
      let bs ← iovecBytes m.data vs
      let r := host bs
      if r.1 = 0 then
        let m' ← m.storeU32 nwrittenPtr r.2
        pure { ret := .ok (r.1.setWidth 32), mem := m', host := some bs }
      else pure { ret := .ok (r.1.setWidth 32), mem := m, host := some bs }

end Verif.Model
