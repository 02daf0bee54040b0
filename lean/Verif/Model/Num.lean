import Verif.Spec.Num
import Verif.Model.Types
/-
Model of the integer handlers of src/execution/handlers.rs.
i32/i64 values are `BitVec 32` / `BitVec 64`; the i32 and i64 handler families are textually the same closures,
so one definition parameterised by the width `w` models both (`w = 32`: lines 412-505, `w = 64`: 567-670).
-/
namespace Verif.Model
open Verif.Spec (IBinOp IRelOp IUnOp)

/-! Rust's plain `/`, `%` and `wrapping_rem` on a zero divisor, and `/` on `MIN / -1`, abort the interpreter process:
modelled by `Res.panic` (handlers.rs:447-449, 614). -/

/-- `b as u32` for an i32/i64 shift count, then `wrapping_shl`'s mask to the width
(handlers.rs:418-425 for i32, 573-580 for i64; Rust masks the count with `BITS-1`, i.e. reduces it mod `w`). -/
def shiftCount {w : Nat} (b : BitVec w) : Nat := (b.setWidth 32).toNat % w

/-- handlers.rs:412-425 (i32 binary), 450-505 (i32 div/rem), 567-580 and 615-670 (i64). -/
def iBin {w : Nat} : IBinOp → BitVec w → BitVec w → Res (BitVec w)
  | .add, a, b => .ok (a + b)
  | .sub, a, b => .ok (a - b)
  | .mul, a, b => .ok (a * b)
  | .and, a, b => .ok (a &&& b)
  | .or, a, b => .ok (a ||| b)
  | .xor, a, b => .ok (a ^^^ b)
  | .shl, a, b => .ok (a <<< shiftCount b)
  | .shrS, a, b => .ok (a.sshiftRight (shiftCount b))
  | .shrU, a, b => .ok (a >>> shiftCount b)
  | .rotl, a, b => .ok (a.rotateLeft (shiftCount b))
  | .rotr, a, b => .ok (a.rotateRight (shiftCount b))
  -- `a / b` on i32: host i32.div_s traps on 0 and on MIN / -1
  | .divS, a, b => if b = 0 then .panic
                   else if a = BitVec.intMin w ∧ b = BitVec.allOnes w then .panic
                   else .ok (a.sdiv b)
  | .divU, a, b => if b = 0 then .panic else .ok (a.udiv b)
  -- `a.wrapping_rem(b)`: panics (abort) on 0, `MIN % -1 = 0`
  | .remS, a, b => if b = 0 then .panic
                   else if b = BitVec.allOnes w then .ok 0 else .ok (a.srem b)
  | .remU, a, b => if b = 0 then .panic else .ok (a.umod b)

/-- handlers.rs:428-437 (i32), 583-592 (i64): comparison closures, `bool as i32`. -/
def iRel {w : Nat} (op : IRelOp) (a b : BitVec w) : BitVec 32 :=
  let c : Bool := match op with
    | .eq => a == b
    | .ne => a != b
    | .ltS => a.slt b
    | .ltU => a.ult b
    | .leS => a.sle b
    | .leU => a.ule b
    | .gtS => b.slt a
    | .gtU => b.ult a
    | .geS => b.sle a
    | .geU => b.ule a
  (BitVec.ofBool c).setWidth 32

/-- Rust `leading_zeros`: scan from the most significant bit. -/
def leadingZeros {w : Nat} (a : BitVec w) : Nat := go w
where go : Nat → Nat
  | 0 => 0
  | k + 1 => if a.getLsbD k then 0 else 1 + go k

/-- Rust `trailing_zeros`: scan from the least significant bit. -/
def trailingZeros {w : Nat} (a : BitVec w) : Nat := go w 0
where go : Nat → Nat → Nat
  | 0, _ => 0
  | n + 1, k => if a.getLsbD k then 0 else 1 + go n (k + 1)

/-- Rust `count_ones`. -/
def countOnes {w : Nat} (a : BitVec w) : Nat := go w
where go : Nat → Nat
  | 0 => 0
  | k + 1 => (if a.getLsbD k then 1 else 0) + go k

/-- handlers.rs:440-445 (i32), 595-600 (i64).  `extend32S` exists only for i64 (line 600). -/
def iUn {w : Nat} : IUnOp → BitVec w → BitVec w
  | .clz, a => BitVec.ofNat w (leadingZeros a)
  | .ctz, a => BitVec.ofNat w (trailingZeros a)
  | .popcnt, a => BitVec.ofNat w (countOnes a)
  | .extend8S, a => (a.setWidth 8).signExtend w
  | .extend16S, a => (a.setWidth 16).signExtend w
  | .extend32S, a => (a.setWidth 32).signExtend w

/-- handlers.rs:443 (i32.eqz) and 603-612 (i64.eqz, result written to an i32 register). -/
def iEqz {w : Nat} (a : BitVec w) : BitVec 32 := (BitVec.ofBool (a == 0)).setWidth 32

/-- handlers.rs:911-916: `v as i64` on i32. -/
def extendI32S (v : BitVec 32) : BitVec 64 := v.signExtend 64
/-- handlers.rs:917-922: `(v as u32) as i64`. -/
def extendI32U (v : BitVec 32) : BitVec 64 := v.setWidth 64
/-- handlers.rs:923-924: `v as i32` on i64. -/
def wrapI64 (v : BitVec 64) : BitVec 32 := v.setWidth 32

end Verif.Model
