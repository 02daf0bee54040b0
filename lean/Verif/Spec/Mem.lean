import Verif.Spec.Num
/-
Specification of linear memory: a finite sequence of bytes addressed from 0.
Written from the WebAssembly core specification (§4.2.8, §4.6.9); does not refer to the model.
-/
namespace Verif.Spec

/-- load instructions (`i32_8s` is `i32.load8_s`, ...) -/
inductive LoadOp
  | i32 | i64 | f32 | f64 | i32_8s | i32_8u | i32_16s | i32_16u
  | i64_8s | i64_8u | i64_16s | i64_16u | i64_32s | i64_32u
  deriving DecidableEq, Repr

/-- store instructions (`i64_8` is `i64.store8`, ...) -/
inductive StoreOp
  | i32 | i64 | f32 | f64 | i32_8 | i32_16 | i64_8 | i64_16 | i64_32
  deriving DecidableEq, Repr

/-- (bits read, sign-extend?, bits of the result) of a load instruction -/
def LoadOp.shape : LoadOp → Nat × Bool × Nat
  | .i32 | .f32 => (32, false, 32)
  | .i64 | .f64 => (64, false, 64)
  | .i32_8s => (8, true, 32)
  | .i32_8u => (8, false, 32)
  | .i32_16s => (16, true, 32)
  | .i32_16u => (16, false, 32)
  | .i64_8s => (8, true, 64)
  | .i64_8u => (8, false, 64)
  | .i64_16s => (16, true, 64)
  | .i64_16u => (16, false, 64)
  | .i64_32s => (32, true, 64)
  | .i64_32u => (32, false, 64)

/-- bytes accessed by a load -/
def LoadOp.bytes (op : LoadOp) : Nat := op.shape.1 / 8

/-- result of a load whose bytes encode `raw` -/
def LoadOp.result (op : LoadOp) (raw : Nat) : Nat :=
  if op.shape.2.1 then unsigned op.shape.2.2 (signed op.shape.1 raw) else raw

/-- bits written by a store instruction (the value is wrapped to that many bits) -/
def StoreOp.bits : StoreOp → Nat
  | .i32 | .f32 | .i64_32 => 32
  | .i64 | .f64 => 64
  | .i32_8 | .i64_8 => 8
  | .i32_16 | .i64_16 => 16

/-- bytes accessed by a store -/
def StoreOp.bytes (op : StoreOp) : Nat := op.bits / 8

/-- the spec's `bytes_iN`: byte `k` of the little-endian encoding of a natural number -/
def leByte (v k : Nat) : Nat := v / 256 ^ k % 256

/-- the number encoded little-endian by `n` bytes of `mem` starting at `ea` (`get i` is byte `i` of memory) -/
def leValue (get : Nat → Nat) (ea : Nat) : Nat → Nat
  | 0 => 0
  | n + 1 => leValue get ea n + get (ea + n) * 256 ^ n

/-- `[ea, ea+n)` lies inside a memory of `size` bytes -/
def InBounds (size ea n : Nat) : Prop := ea + n ≤ size

/-- bytes per page -/
def pageSize : Nat := 65536

/-- What `memory.grow delta` may do to a memory of `pages` pages with declared maximum `max`:
the result value and the new page count. Growing must fail beyond the declared maximum or 65536 pages. -/
def growAllowed (max : Option Nat) (pages delta : Nat) : Prop :=
  pages + delta ≤ 65536 ∧ ∀ m, max = some m → pages + delta ≤ m

end Verif.Spec
