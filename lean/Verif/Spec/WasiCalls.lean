import Verif.Model.Passthrough
import Verif.Spec.WasiAbi
/-
What a WASI preview 1 call means for the guest: which numbers, strings and buffers it hands to the host and which places in
guest memory the host may write.  Written from the interface definition (sizes of its records included), in terms of the bytes of
guest memory and unbounded addresses; not from the code.
-/
namespace Verif.Spec
open Verif.Model

/-- role of a group of consecutive parameters -/
inductive Role
  /-- a number of at most that many bits -/
  | num (bits : Nat)
  /-- pointer and length of a path -/
  | path
  /-- pointer and length of an array of buffers to be written out (`ciovec_array`) -/
  | data
  /-- pointer and length of an array of buffers to be filled (`iovec_array`) -/
  | bufs
  /-- pointer and length of a buffer to be filled -/
  | buf
  /-- subscriptions, events and their number (`poll_oneoff`): records of 48 and 32 bytes -/
  | poll
  /-- pointer to a result of that many bytes -/
  | ret (size : Nat)
  deriving DecidableEq

/-- how many WebAssembly parameters, of which type -/
def Role.lower : Role → List Cls
  | .num b => if b ≤ 32 then [.i32] else [.i64]
  | .path | .data | .bufs | .buf => [.i32, .i32]
  | .poll => [.i32, .i32, .i32]
  | .ret _ => [.i32]

/-- the parameters of the functions that act on the host (`filestat` 64 bytes, `fdstat` 24, `prestat` 8).  The other functions:
`args_get`, `args_sizes_get`, `environ_get`, `environ_sizes_get` write data known to the interpreter or asked of the host as a
whole, `proc_exit` does not return. -/
def roles : WasiFn → Option (List Role)
  | .procExit | .argsGet | .argsSizesGet | .environGet | .environSizesGet => none
  | .fdWrite => some [.num 32, .data, .ret 4]
  | .fdRead => some [.num 32, .bufs, .ret 4]
  | .randomGet => some [.buf]
  | .fdPrestatGet => some [.num 32, .ret 8]
  | .fdPrestatDirName => some [.num 32, .buf]
  | .fdClose => some [.num 32]
  | .clockTimeGet => some [.num 32, .num 64, .ret 8]
  | .clockResGet => some [.num 32, .ret 8]
  | .schedYield => some []
  | .fdFdstatGet => some [.num 32, .ret 24]
  | .pathOpen => some [.num 32, .num 32, .path, .num 16, .num 64, .num 64, .num 16, .ret 4]
  | .fdSeek => some [.num 32, .num 64, .num 8, .ret 8]
  | .fdTell => some [.num 32, .ret 8]
  | .fdSync => some [.num 32]
  | .fdFilestatGet => some [.num 32, .ret 64]
  | .fdReaddir => some [.num 32, .buf, .num 64, .ret 4]
  | .fdPread => some [.num 32, .bufs, .num 64, .ret 4]
  | .fdDatasync => some [.num 32]
  | .fdFdstatSetFlags => some [.num 32, .num 16]
  | .fdFilestatSetSize => some [.num 32, .num 64]
  | .fdPwrite => some [.num 32, .data, .num 64, .ret 4]
  | .pathCreateDirectory => some [.num 32, .path]
  | .pathFilestatGet => some [.num 32, .num 32, .path, .ret 64]
  | .pathFilestatSetTimes => some [.num 32, .num 32, .path, .num 64, .num 64, .num 16]
  | .pathReadlink => some [.num 32, .path, .buf, .ret 4]
  | .pathRemoveDirectory => some [.num 32, .path]
  | .pathUnlinkFile => some [.num 32, .path]
  | .pollOneoff => some [.poll, .ret 4]
  | .procRaise => some [.num 8]
  | .fdAdvise => some [.num 32, .num 64, .num 64, .num 8]
  | .fdAllocate => some [.num 32, .num 64, .num 64]
  | .fdFdstatSetRights => some [.num 32, .num 64, .num 64]
  | .fdRenumber => some [.num 32, .num 32]
  | .fdFilestatSetTimes => some [.num 32, .num 64, .num 64, .num 16]
  | .pathLink => some [.num 32, .num 32, .path, .num 32, .path]
  | .pathRename => some [.num 32, .path, .num 32, .path]
  | .pathSymlink => some [.path, .num 32, .path]
  | .sockAccept => some [.num 32, .num 16, .ret 4]
  | .sockRecv => some [.num 32, .bufs, .num 16, .ret 4, .ret 2]
  | .sockSend => some [.num 32, .data, .num 16, .ret 4]
  | .sockShutdown => some [.num 32, .num 8]

/-- the bytes of guest memory from `p` on -/
def bytesAt (d : List Byte) (p n : Nat) : List Byte := (d.drop p).take n

/-- the 32-bit little-endian number at `p` -/
def wordAt (d : List Byte) (p : Nat) : Nat := leValue (fun i => (d.getD i 0).toNat) p 4

/-- descriptor `i` of the array at `p`: the address of the buffer, then its length -/
def descPtr (d : List Byte) (p i : Nat) : Nat := wordAt d (p + 8 * i)
def descLen (d : List Byte) (p i : Nat) : Nat := wordAt d (p + 8 * i + 4)

/-- descriptor and buffer `i` lie in guest memory (an empty buffer lies anywhere) -/
def DescOk (d : List Byte) (p i : Nat) : Prop :=
  p + 8 * i + 8 ≤ d.length ∧ (descLen d p i = 0 ∨ descPtr d p i + descLen d p i ≤ d.length)

instance (d : List Byte) (p i : Nat) : Decidable (DescOk d p i) := by unfold DescOk; infer_instance

/-- What the guest asks: the arguments as the host is to see them, and the places in guest memory (address, length) it may write,
in the order of the parameters.  `none` if the request is not well-formed: a place outside guest memory, a path with a NUL byte
(no file has such a name), a number out of range. -/
def ask (d : List Byte) : List Role → List Nat → Option (List NArg × List (Nat × Nat))
  | [], [] => some ([], [])
  | .num b :: rs, n :: ns =>
    if n < 2 ^ b then (ask d rs ns).map fun q => (.num n :: q.1, q.2) else none
  | .path :: rs, p :: l :: ns =>
    if p + l ≤ d.length ∧ 0 ∉ bytesAt d p l then (ask d rs ns).map fun q => (.str (bytesAt d p l) :: q.1, q.2) else none
  | .data :: rs, p :: n :: ns =>
    if ∀ i ∈ List.range n, DescOk d p i then
      (ask d rs ns).map fun q => (.rd ((List.range n).map fun i => bytesAt d (descPtr d p i) (descLen d p i)) :: q.1, q.2)
    else none
  | .bufs :: rs, p :: n :: ns =>
    if ∀ i ∈ List.range n, DescOk d p i then
      (ask d rs ns).map fun q => (.wr ((List.range n).map (descLen d p)) :: q.1,
        ((List.range n).map fun i => (descPtr d p i, descLen d p i)) ++ q.2)
    else none
  | .buf :: rs, p :: l :: ns =>
    if p + l ≤ d.length then (ask d rs ns).map fun q => (.out l :: q.1, (p, l) :: q.2) else none
  | .poll :: rs, i :: o :: n :: ns =>
    if i + 48 * n ≤ d.length ∧ o + 32 * n ≤ d.length then
      (ask d rs ns).map fun q => (.inp (bytesAt d i (48 * n)) :: .out (32 * n) :: .num n :: q.1, (o, 32 * n) :: q.2)
    else none
  | .ret k :: rs, p :: ns =>
    if p + k ≤ d.length then (ask d rs ns).map fun q => (.ret k :: q.1, (p, k) :: q.2) else none
  | _, _ => none

/-- guest memory after the host put `b` at each place -/
def put (d : List Byte) : List (Nat × Nat) → List (List Byte) → List Byte
  | (p, _) :: rs, b :: bs => put (overwrite d p b) rs bs
  | _, _ => d

/-- where a native call may write, with the size, and whether it is a result (written as a whole, on success only) -/
def places : List NArg → List (Nat × Bool)
  | [] => []
  | .wr caps :: as => caps.map (·, false) ++ places as
  | .out c :: as => (c, false) :: places as
  | .ret k :: as => (k, true) :: places as
  | .num _ :: as => places as
  | .str _ :: as => places as
  | .rd _ :: as => places as
  | .inp _ :: as => places as

/-- an answer respects the places: one string of bytes per place, no longer than the place, results complete on success and
untouched on failure -/
def Fills (ok : Bool) : List (Nat × Bool) → List (List Byte) → Prop
  | [], [] => True
  | (c, r) :: ps, b :: bs => b.length ≤ c ∧ (r = true → b.length = if ok then c else 0) ∧ Fills ok ps bs
  | _, _ => False

/-- The host keeps to the interface: it writes only where it may, never more than fits. -/
structure Conforms (H : Native) : Prop where
  fills : ∀ fn args w, Fills (decide ((H.call fn args w).1.errno = 0)) (places args) (H.call fn args w).1.outs

/-- The environment of the host is the list of strings `env`, laid out as the interface says: each string terminated by NUL, one
pointer per string. -/
structure HasEnv (H : Native) (w : H.W) (env : List (List Byte)) : Prop where
  sizes : H.envSizes w = (0, BitVec.ofNat 32 env.length, BitVec.ofNat 32 ((env.map (fun a => a.length + 1)).sum))
  get : H.envGet w = (0, (List.range env.length).map (fun i => some (((env.take i).map (fun a => a.length + 1)).sum)),
    (env.map (· ++ [0])).flatten)

end Verif.Spec
