import Verif.Model.Types
import Verif.Spec.Mem
/-
Model of src/execution/mem.rs and of the load/store/bulk handlers of src/execution/handlers.rs.
`usize` is 32 bits (wasm32).  Reads and writes go through raw pointers with no bounds check: an access that is not
inside the memory vector is the outcome `Res.ub`.
-/
namespace Verif.Model
open Verif.Spec (LoadOp StoreOp)

/-- mem.rs:17-21 `MemInst`: contents and declared maximum (in pages).  The `min` field is never read again. -/
structure Mem where
  data : List Byte
  max : Option (BitVec 32)
  deriving DecidableEq

/-- mem.rs:25-41 `MemAddr::new`: `min * 65536` in u32 arithmetic (wraps in release builds). -/
def Mem.new (min : BitVec 32) (max : Option (BitVec 32)) : Mem :=
  { data := List.replicate (min * 65536#32).toNat 0, max := max }

/-- `(p as usize) + (offset as usize)` — 32-bit wrapping (handlers.rs:1292, 1340; mem.rs:55, 67).
The IR's `offset` is a u64 (ir.rs:141, 147) truncated by `as usize`. -/
def effAddr (p : BitVec 32) (offset : BitVec 64) : Nat := (p + offset.setWidth 32).toNat

/-- `read_unaligned` of `n` bytes at `mem_ptr + pos`. -/
def readAt (data : List Byte) (pos n : Nat) : Res (List Byte) :=
  if pos + n ≤ data.length then .ok ((data.drop pos).take n) else .ub

/-- overwrite `bs.length` bytes at `pos` -/
def overwrite (data : List Byte) (pos : Nat) (bs : List Byte) : List Byte :=
  data.take pos ++ bs ++ data.drop (pos + bs.length)

/-- `write_unaligned` at `mem_ptr + pos`. -/
def writeAt (data : List Byte) (pos : Nat) (bs : List Byte) : Res (List Byte) :=
  if pos + bs.length ≤ data.length then .ok (overwrite data pos bs) else .ub

/-- little-endian host (wasm32) in-memory representation of an integer of `8*n` bits -/
def toLE : (n : Nat) → Nat → List Byte
  | 0, _ => []
  | n + 1, v => BitVec.ofNat 8 v :: toLE n (v / 256)

/-- inverse of `toLE` -/
def fromLE : List Byte → Nat
  | [] => 0
  | b :: bs => b.toNat + 256 * fromLE bs

/-! The load handlers (handlers.rs:1306-1319) are named by `Spec.LoadOp`, the store handlers (1349-1357) by
`Spec.StoreOp`. -/

/-- bytes read (size of the macro parameter `$ty`) -/
def _root_.Verif.Spec.LoadOp.width : LoadOp → Nat
  | .i32 | .f32 | .i64_32s | .i64_32u => 4
  | .i64 | .f64 => 8
  | .i32_8s | .i32_8u | .i64_8s | .i64_8u => 1
  | .i32_16s | .i32_16u | .i64_16s | .i64_16u => 2

/-- bank of the destination (`$write`) -/
abbrev _root_.Verif.Spec.LoadOp.cls : LoadOp → Cls
  | .i32 | .i32_8s | .i32_8u | .i32_16s | .i32_16u => .i32
  | .f32 => .f32
  | .f64 => .f64
  | .i64 | .i64_8s | .i64_8u | .i64_16s | .i64_16u | .i64_32s | .i64_32u => .i64

/-- `$convert` applied to the bits read. handlers.rs:1306-1319 -/
def _root_.Verif.Spec.LoadOp.convert : (op : LoadOp) → Nat → op.cls.Carrier
  | .i32, v => BitVec.ofNat 32 v
  | .f32, v => BitVec.ofNat 32 v
  | .i64, v => BitVec.ofNat 64 v
  | .f64, v => BitVec.ofNat 64 v
  | .i32_8s, v => (BitVec.ofNat 8 v).signExtend 32
  | .i32_8u, v => (BitVec.ofNat 8 v).setWidth 32
  | .i32_16s, v => (BitVec.ofNat 16 v).signExtend 32
  | .i32_16u, v => (BitVec.ofNat 16 v).setWidth 32
  | .i64_8s, v => (BitVec.ofNat 8 v).signExtend 64
  | .i64_8u, v => (BitVec.ofNat 8 v).setWidth 64
  | .i64_16s, v => (BitVec.ofNat 16 v).signExtend 64
  | .i64_16u, v => (BitVec.ofNat 16 v).setWidth 64
  | .i64_32s, v => (BitVec.ofNat 32 v).signExtend 64
  | .i64_32u, v => (BitVec.ofNat 32 v).setWidth 64

/-- handlers.rs:1281-1304 `mem_load!`: read, convert. -/
def Mem.load (m : Mem) (op : LoadOp) (p : BitVec 32) (offset : BitVec 64) : Res op.cls.Carrier := do
  let bs ← readAt m.data (effAddr p offset) op.width
  pure (op.convert (fromLE bs))

/-- bytes written (size of `$store_ty`) -/
def _root_.Verif.Spec.StoreOp.width : StoreOp → Nat
  | .i32 | .f32 | .i64_32 => 4
  | .i64 | .f64 => 8
  | .i32_8 | .i64_8 => 1
  | .i32_16 | .i64_16 => 2

/-- bank the stored value is read from (`$read`) -/
abbrev _root_.Verif.Spec.StoreOp.cls : StoreOp → Cls
  | .i32 | .i32_8 | .i32_16 => .i32
  | .f32 => .f32
  | .f64 => .f64
  | .i64 | .i64_8 | .i64_16 | .i64_32 => .i64

/-- `$cast(v)`, handlers.rs:1349-1357: bits that get written -/
def _root_.Verif.Spec.StoreOp.cast : (op : StoreOp) → op.cls.Carrier → Nat
  | .i32, v => BitVec.toNat (w := 32) v
  | .f32, v => BitVec.toNat (w := 32) v
  | .i64, v => BitVec.toNat (w := 64) v
  | .f64, v => BitVec.toNat (w := 64) v
  | .i32_8, v => (BitVec.setWidth (w := 32) 8 v).toNat
  | .i32_16, v => (BitVec.setWidth (w := 32) 16 v).toNat
  | .i64_8, v => (BitVec.setWidth (w := 64) 8 v).toNat
  | .i64_16, v => (BitVec.setWidth (w := 64) 16 v).toNat
  | .i64_32, v => (BitVec.setWidth (w := 64) 32 v).toNat

/-- handlers.rs:1325-1347 `mem_store!`. -/
def Mem.store (m : Mem) (op : StoreOp) (p : BitVec 32) (offset : BitVec 64) (v : op.cls.Carrier) : Res Mem := do
  let d ← writeAt m.data (effAddr p offset) (toLE op.width (op.cast v))
  pure { m with data := d }

/-- mem.rs:82-88 `mem_size`: `(len / 65536) as i32`. -/
def Mem.size (m : Mem) : BitVec 32 := BitVec.ofNat 32 (m.data.length / 65536)

/-- `Vec::resize(n, 0)` -/
def resize (data : List Byte) (n : Nat) : List Byte :=
  data.take n ++ List.replicate (n - data.length) 0

/-- `if let Some(max) = max_pages { if new > max as i32 ..` (mem.rs:99-103), signed comparison -/
def overMax (max : Option (BitVec 32)) (new : BitVec 32) : Bool :=
  match max with
  | some mx => mx.slt new
  | none => false

/-- mem.rs:91-113 `mem_grow`: i32 arithmetic wraps, both comparisons are signed, `new as usize * 65536` wraps.
(Allocation failure inside `resize` is not modelled.) -/
def Mem.grow (m : Mem) (size : BitVec 32) : BitVec 32 × Mem :=
  let prev := m.size
  let new := prev + size
  if overMax m.max new then (BitVec.allOnes 32, m)
  else if (65536#32).slt new then (BitVec.allOnes 32, m)
  else (prev, { m with data := resize m.data (new * 65536#32).toNat })

/-- handlers.rs:1987-2014 `mem_grow` handler: `i32 → u32` conversion fails for negative deltas. -/
def Mem.growInstr (m : Mem) (delta : BitVec 32) : Res (BitVec 32 × Mem) :=
  if delta.msb then .trap .invalidParameterCount else .ok (m.grow delta)

/-- mem.rs:147-160 `memory_copy` (`ptr::copy`, i.e. memmove). A zero-length copy touches nothing, whatever the
positions. -/
def Mem.copy (m : Mem) (dest src len : BitVec 32) : Res Mem :=
  if len = 0 then .ok m
  else do
    let bs ← readAt m.data src.toNat len.toNat
    let d ← writeAt m.data dest.toNat bs
    pure { m with data := d }

/-- mem.rs:164-173 `memory_fill` with `val as u8` from the handler (handlers.rs:2083). -/
def Mem.fill (m : Mem) (dest val len : BitVec 32) : Res Mem :=
  if len = 0 then .ok m
  else do
    let d ← writeAt m.data dest.toNat (List.replicate len.toNat (val.setWidth 8))
    pure { m with data := d }

/-- mem.rs:44-49 `init`: bounds-checked slice (panics outside). `offset + init.len()` is 32-bit wrapping. -/
def Mem.init (m : Mem) (offset : Nat) (bs : List Byte) : Res Mem :=
  let e := (offset + bs.length) % 2 ^ 32
  if offset ≤ e ∧ e ≤ m.data.length then .ok { m with data := overwrite m.data offset bs } else .panic

/-- handlers.rs:2037-2067 `mem_init` after the data segment was found; `data_bytes[offset..offset+len]` is a checked
slice, skipped when `len == 0`. -/
def Mem.initInstr (m : Mem) (seg : List Byte) (dest offset len : BitVec 32) : Res Mem :=
  if len = 0 then .ok m
  else
    let e := (offset + len).toNat
    if offset.toNat ≤ e ∧ e ≤ seg.length then
      m.init dest.toNat ((seg.drop offset.toNat).take (e - offset.toNat))
    else .panic

end Verif.Model
