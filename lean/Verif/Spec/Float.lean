/-
IEEE-754 binary formats as sets of bit patterns with exact values, and the WebAssembly operations on them that do not
round.  A finite value is represented exactly by an integer multiple of the smallest positive subnormal:
value = `scaled / 2^fracBits`.
-/
namespace Verif.Spec

/-- a binary interchange format: exponent and mantissa widths -/
structure Fmt where
  e : Nat
  m : Nat

def f32 : Fmt := ⟨8, 23⟩
def f64 : Fmt := ⟨11, 52⟩

namespace Fmt
/-- total width -/
def width (f : Fmt) : Nat := 1 + f.e + f.m
/-- `value = scaled / 2^fracBits` (149 for f32, 1074 for f64) -/
def fracBits (f : Fmt) : Nat := 2 ^ (f.e - 1) - 1 + f.m - 1
/-- the fields of a bit pattern -/
def sign (f : Fmt) (b : Nat) : Bool := b / 2 ^ (f.e + f.m) % 2 == 1
def expo (f : Fmt) (b : Nat) : Nat := b / 2 ^ f.m % 2 ^ f.e
def mant (f : Fmt) (b : Nat) : Nat := b % 2 ^ f.m
/-- magnitude of the value, times `2^fracBits` -/
def mag (f : Fmt) (b : Nat) : Nat :=
  if f.expo b = 0 then f.mant b else (2 ^ f.m + f.mant b) * 2 ^ (f.expo b - 1)
end Fmt

/-- the mathematical value of a float: not a number, an infinity, or the exact number `x / 2^fracBits` -/
inductive FVal | nan | inf (neg : Bool) | fin (x : Int)
  deriving DecidableEq, Repr

/-- value of a bit pattern -/
def Fmt.val (f : Fmt) (b : Nat) : FVal :=
  if f.expo b = 2 ^ f.e - 1 then
    if f.mant b = 0 then .inf (f.sign b) else .nan
  else .fin (if f.sign b then -(f.mag b : Int) else (f.mag b : Int))

/-- numeric `<` on values; false if either is NaN -/
def FVal.Lt : FVal → FVal → Prop
  | .nan, _ => False
  | _, .nan => False
  | .inf true, .inf true => False
  | .inf true, _ => True
  | .inf false, _ => False
  | .fin _, .inf neg => neg = false
  | .fin x, .fin y => x < y

/-- numeric equality; false if either is NaN, and `-0 = +0` because both are the number 0 -/
def FVal.Eq (a b : FVal) : Prop := a = b ∧ a ≠ .nan

/-- comparison instructions -/
inductive FRelOp | eq | ne | lt | gt | le | ge
  deriving DecidableEq, Repr

/-- WebAssembly's `feq … fge` -/
def frelop : FRelOp → FVal → FVal → Prop
  | .eq, a, b => a.Eq b
  | .ne, a, b => ¬ a.Eq b
  | .lt, a, b => a.Lt b
  | .gt, a, b => b.Lt a
  | .le, a, b => a.Lt b ∨ a.Eq b
  | .ge, a, b => b.Lt a ∨ a.Eq b

/-- order used by fmin/fmax on non-NaN patterns: numeric, with `-0` below `+0` -/
def Fmt.LeZ (f : Fmt) (a b : Nat) : Prop :=
  (f.val a).Lt (f.val b) ∨ (f.val a = f.val b ∧ (f.sign a = true ∨ f.sign b = false))

/-- a canonical NaN: only the top mantissa bit set -/
def Fmt.CanonicalNaN (f : Fmt) (b : Nat) : Prop :=
  f.expo b = 2 ^ f.e - 1 ∧ f.mant b = 2 ^ (f.m - 1) ∧ b < 2 ^ f.width

/-- same exponent and mantissa -/
def Fmt.SameMagnitude (f : Fmt) (a b : Nat) : Prop := f.expo a = f.expo b ∧ f.mant a = f.mant b

/-- the spec of fmin/fmax: a canonical NaN if an operand is NaN, otherwise the least/greatest operand in the order that
puts `-0` below `+0` -/
def IsFMin (f : Fmt) (a b r : Nat) : Prop :=
  if f.val a = .nan ∨ f.val b = .nan then f.CanonicalNaN r
  else (r = a ∨ r = b) ∧ f.LeZ r a ∧ f.LeZ r b
def IsFMax (f : Fmt) (a b r : Nat) : Prop :=
  if f.val a = .nan ∨ f.val b = .nan then f.CanonicalNaN r
  else (r = a ∨ r = b) ∧ f.LeZ a r ∧ f.LeZ b r

/-! Float to integer truncation -/

/-- destination width, signedness, source format of `iNN.trunc_fMM_sx` -/
inductive TruncOp | i32_f32_s | i32_f32_u | i32_f64_s | i32_f64_u | i64_f32_s | i64_f32_u | i64_f64_s | i64_f64_u
  deriving DecidableEq, Repr

def TruncOp.shape : TruncOp → Nat × Bool × Fmt
  | .i32_f32_s => (32, true, f32)
  | .i32_f32_u => (32, false, f32)
  | .i32_f64_s => (32, true, f64)
  | .i32_f64_u => (32, false, f64)
  | .i64_f32_s => (64, true, f32)
  | .i64_f32_u => (64, false, f32)
  | .i64_f64_s => (64, true, f64)
  | .i64_f64_u => (64, false, f64)

/-- smallest and largest integer of the destination type -/
def TruncOp.lo (op : TruncOp) : Int := if op.shape.2.1 then -2 ^ (op.shape.1 - 1) else 0
def TruncOp.hi (op : TruncOp) : Int := if op.shape.2.1 then 2 ^ (op.shape.1 - 1) - 1 else 2 ^ op.shape.1 - 1

/-- integer part (towards zero) of the number `x / 2^fracBits` -/
def Fmt.intPart (f : Fmt) (x : Int) : Int := x.tdiv (2 ^ f.fracBits)

/-- `trunc_sx`: the truncated value if it exists in the destination type -/
def TruncOp.result (op : TruncOp) (b : Nat) : Option Int :=
  match op.shape.2.2.val b with
  | .fin x =>
    let t := op.shape.2.2.intPart x
    if op.lo ≤ t ∧ t ≤ op.hi then some t else none
  | _ => none

/-- `trunc_sat_sx` -/
def TruncOp.satResult (op : TruncOp) (b : Nat) : Int :=
  match op.shape.2.2.val b with
  | .nan => 0
  | .inf true => op.lo
  | .inf false => op.hi
  | .fin x =>
    let t := op.shape.2.2.intPart x
    if t < op.lo then op.lo else if op.hi < t then op.hi else t

end Verif.Spec
