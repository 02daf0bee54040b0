import Verif.Model.Types
import Verif.Spec.Float
/-
Floating point handlers that do not round (src/execution/handlers.rs:672-1275).  Floats are bit patterns (`Nat` below
`2^width`).  Rust's `<`, `==`, `is_nan`, `is_sign_negative`, `min`, `abs`, `-`, `copysign` are written on bit patterns
(sign-magnitude comparison); `trunc` and the `as` casts are written on the decoded value.
-/
namespace Verif.Model
open Verif.Spec

/-- bits below the sign -/
def fMagBits (f : Fmt) (b : Nat) : Nat := b % 2 ^ (f.e + f.m)

/-- `is_nan`: magnitude bits above those of infinity -/
def fIsNan (f : Fmt) (b : Nat) : Bool := decide ((2 ^ f.e - 1) * 2 ^ f.m < fMagBits f b)

/-- `is_sign_negative` -/
def fNeg? (f : Fmt) (b : Nat) : Bool := decide (2 ^ (f.e + f.m) ≤ b)

/-- sign-magnitude integer whose order is the float order -/
def fKey (f : Fmt) (b : Nat) : Int := if fNeg? f b then -(fMagBits f b : Int) else (fMagBits f b : Int)

/-- Rust `a < b` -/
def fLt (f : Fmt) (a b : Nat) : Bool := !fIsNan f a && !fIsNan f b && decide (fKey f a < fKey f b)
/-- Rust `a == b` -/
def fEq (f : Fmt) (a b : Nat) : Bool := !fIsNan f a && !fIsNan f b && decide (fKey f a = fKey f b)

/-- handlers.rs:774-779 (f32_eq..f32_ge), 883-888 (f64): 0 or 1 -/
def fRel (op : FRelOp) (f : Fmt) (a b : Nat) : BitVec 32 :=
  let r := match op with
    | .eq => fEq f a b
    | .ne => !fEq f a b
    | .lt => fLt f a b
    | .gt => fLt f b a
    | .le => fLt f a b || fEq f a b
    | .ge => fLt f b a || fEq f a b
  if r then 1 else 0

/-- `fNN::NAN` -/
def fNanConst (f : Fmt) : Nat := (2 ^ f.e - 1) * 2 ^ f.m + 2 ^ (f.m - 1)
/-- `-0.0` -/
def fNegZero (f : Fmt) : Nat := 2 ^ (f.e + f.m)

/-- handlers.rs:736-748, 845-857: f32.min / f64.min -/
def fMin (f : Fmt) (a b : Nat) : Nat :=
  if fIsNan f a || fIsNan f b then fNanConst f
  else if fEq f a 0 && fEq f b 0 then
    if fNeg? f a || fNeg? f b then fNegZero f else 0
  else if fLt f a b then a else b

/-- handlers.rs:749-761, 858-870: f32.max / f64.max -/
def fMax (f : Fmt) (a b : Nat) : Nat :=
  if fIsNan f a || fIsNan f b then fNanConst f
  else if fEq f a 0 && fEq f b 0 then
    if !fNeg? f a || !fNeg? f b then 0 else fNegZero f
  else if fLt f a b then b else a

/-- handlers.rs:762, 871 `copysign` -/
def fCopysign (f : Fmt) (a b : Nat) : Nat := fMagBits f a + (if fNeg? f b then 2 ^ (f.e + f.m) else 0)
/-- handlers.rs:765, 874 `abs` -/
def fAbs (f : Fmt) (a : Nat) : Nat := fMagBits f a
/-- handlers.rs:766, 875 `neg` -/
def fNegate (f : Fmt) (a : Nat) : Nat := if fNeg? f a then a - 2 ^ (f.e + f.m) else a + 2 ^ (f.e + f.m)

/-! ### values -/

/-- `n as fNN` for a non-negative integer: round to `m+1` significant bits, ties to even -/
def rne (p n : Nat) : Nat :=
  if n < 2 ^ p then n
  else
    let s := n.log2 + 1 - p
    let q := n / 2 ^ s
    let r := n % 2 ^ s
    (if 2 * r < 2 ^ s then q else if 2 ^ s < 2 * r then q + 1 else if q % 2 = 0 then q else q + 1) * 2 ^ s

/-- the float value of an integer constant written `C as fNN` -/
def intAsFloat (f : Fmt) (n : Int) : FVal :=
  .fin ((if n < 0 then -(rne (f.m + 1) n.natAbs : Int) else (rne (f.m + 1) n.natAbs : Int)) * 2 ^ f.fracBits)

/-- Rust `<` on decoded values -/
def vLt : FVal → FVal → Bool
  | .fin x, .fin y => decide (x < y)
  | .inf true, .fin _ => true
  | .fin _, .inf false => true
  | .inf true, .inf false => true
  | _, _ => false
/-- Rust `<=` -/
def vLe (a b : FVal) : Bool := vLt a b || (decide (a = b) && decide (a ≠ .nan))

/-- `v.trunc()` -/
def vTrunc (f : Fmt) : FVal → FVal
  | .fin x => .fin (x.tdiv (2 ^ f.fracBits) * 2 ^ f.fracBits)
  | v => v

/-- Rust `t as iNN/uNN`: NaN to 0, saturating at the bounds, truncating -/
def vCast (f : Fmt) (lo hi : Int) : FVal → Int
  | .nan => 0
  | .inf true => lo
  | .inf false => hi
  | .fin x => max lo (min hi (x.tdiv (2 ^ f.fracBits)))

/-- upper-bound test of the trapping conversions: `t > MAX` for the four i32 instances of `conv_trap!`
(handlers.rs:1136-1198), `t >= MAX` for the i64 functions (1201-1275) -/
def truncTooBig (op : TruncOp) (t mx : FVal) : Bool :=
  if op.shape.1 = 32 then vLt mx t else vLe mx t

/-- `iNN::MIN/MAX`, `uNN::MAX` (the lower constant of the unsigned forms is the literal 0.0) -/
def intMin (w : Nat) (signed : Bool) : Int := if signed then -2 ^ (w - 1) else 0
def intMax (w : Nat) (signed : Bool) : Int := if signed then 2 ^ (w - 1) - 1 else 2 ^ w - 1

/-- handlers.rs:1136-1275: trapping truncations -/
def truncTrap (op : TruncOp) (b : Nat) : Res Int :=
  let f := op.shape.2.2
  let w := op.shape.1
  let sg := op.shape.2.1
  let v := f.val b
  if v = .nan then .trap .invalidConversionToInt
  else
    let t := vTrunc f v
    if vLt t (intAsFloat f (intMin w sg)) || truncTooBig op t (intAsFloat f (intMax w sg)) then .trap .integerOverflow
    else .ok (vCast f (intMin w sg) (intMax w sg) t)

/-- handlers.rs:928-1046: saturating truncations -/
def truncSat (op : TruncOp) (b : Nat) : Int :=
  let f := op.shape.2.2
  let w := op.shape.1
  let sg := op.shape.2.1
  let v := f.val b
  if sg then
    if v = .nan then 0
    else if vLe v (intAsFloat f (intMin w sg)) then intMin w sg
    else if vLe (intAsFloat f (intMax w sg)) v then intMax w sg
    else vCast f (intMin w sg) (intMax w sg) (vTrunc f v)
  else
    if decide (v = .nan) || vLe v (.fin 0) then 0
    else if vLe (intAsFloat f (intMax w sg)) v then intMax w sg
    else vCast f (intMin w sg) (intMax w sg) (vTrunc f v)

/-- handlers.rs:1103-1133 reinterpretations: the bit pattern moves to the other bank unchanged -/
def reinterpI32F32 (v : Cls.Carrier .f32) : Cls.Carrier .i32 := BitVec.ofNat 32 (Cls.num .f32 v)
def reinterpF32I32 (v : Cls.Carrier .i32) : Cls.Carrier .f32 := BitVec.ofNat 32 (Cls.num .i32 v)
def reinterpI64F64 (v : Cls.Carrier .f64) : Cls.Carrier .i64 := BitVec.ofNat 64 (Cls.num .f64 v)
def reinterpF64I64 (v : Cls.Carrier .i64) : Cls.Carrier .f64 := BitVec.ofNat 64 (Cls.num .i64 v)

end Verif.Model
