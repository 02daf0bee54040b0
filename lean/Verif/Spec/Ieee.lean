import Verif.Spec.Float
/-
The floating point operations that round: what IEEE 754 (and WebAssembly, section 4.3.3) demands of them, for round to
nearest, ties to even.  A finite value is an integer multiple of the smallest positive subnormal (`Spec.Float`); exact
results are compared with such multiples, so no real numbers are needed.
-/
namespace Verif.Spec

/-- WebAssembly's `limit_N` = 2^(2^(expon(N)-1)), the power of two just above all finite values, in units of the smallest
subnormal.  Rounding treats the infinities as if they had these values. -/
def Fmt.limit (f : Fmt) : Nat := 2 ^ 2 ^ (f.e - 1) * 2 ^ f.fracBits

/-- the candidates of rounding: all finite values, and the limits in place of the infinities -/
def Fmt.candidate (f : Fmt) (b : Nat) : Option Int :=
  match f.val b with
  | .nan => none
  | .inf true => some (-f.limit)
  | .inf false => some f.limit
  | .fin x => some x

/-- `b` is the exact value `num / den` (`≠ 0`, in units of the smallest subnormal) rounded to nearest, ties to even: no
candidate is closer, if another is as close then the mantissa is even, and the sign is that of the exact value. -/
structure Nearest (f : Fmt) (num : Int) (den : Nat) (b : Nat) : Prop where
  range : b < 2 ^ f.width
  nearest : ∃ v, f.candidate b = some v ∧ ∀ b' v', b' < 2 ^ f.width → f.candidate b' = some v' →
    (v * den - num).natAbs ≤ (v' * den - num).natAbs ∧
    (v' ≠ v → (v' * den - num).natAbs = (v * den - num).natAbs → b % 2 = 0)
  sign : f.sign b = decide (num < 0)

/-- `b` is the square root of `n` (in units of the smallest subnormal), rounded to nearest, ties to even.  The value `v` of
`b` is at most as far from the root as another non-negative candidate `v'` iff the root is on the near side of the middle of
the two, i.e. iff `2 * root` is on the near side of `v + v'`. -/
structure NearestRoot (f : Fmt) (n : Nat) (b : Nat) : Prop where
  range : b < 2 ^ f.width
  nearest : ∃ v, f.candidate b = some v ∧ 0 ≤ v ∧ ∀ b' v', b' < 2 ^ f.width → f.candidate b' = some v' → 0 ≤ v' → v' ≠ v →
    (v < v' → 4 * n ≤ (v + v') * (v + v')) ∧ (v' < v → (v + v') * (v + v') ≤ 4 * n) ∧
    ((v + v') * (v + v') = 4 * n → b % 2 = 0)
  sign : f.sign b = false

/-- a zero of given sign -/
def Fmt.IsZero (f : Fmt) (neg : Bool) (r : Nat) : Prop := r < 2 ^ f.width ∧ f.val r = .fin 0 ∧ f.sign r = neg
/-- an infinity of given sign -/
def Fmt.IsInf (f : Fmt) (neg : Bool) (r : Nat) : Prop := r < 2 ^ f.width ∧ f.val r = .inf neg
/-- some NaN; which one is left open -/
def Fmt.IsNaN (f : Fmt) (r : Nat) : Prop := r < 2 ^ f.width ∧ f.val r = .nan

/-- rounding arithmetic -/
inductive FArith | add | sub | mul | div
  deriving DecidableEq, Repr
/-- rounding unary operations -/
inductive FRound | ceil | floor | trunc | nearest | sqrt
  deriving DecidableEq, Repr

/-- `r` is the result of the operation on `a` and `b` -/
def Arith (f : Fmt) (op : FArith) (a b r : Nat) : Prop :=
  match op, f.val a, f.val b with
  | _, .nan, _ => f.IsNaN r
  | _, _, .nan => f.IsNaN r
  | .add, .inf s, .inf t => if s = t then f.IsInf s r else f.IsNaN r
  | .add, .inf s, .fin _ => f.IsInf s r
  | .add, .fin _, .inf t => f.IsInf t r
  | .add, .fin x, .fin y => if x + y = 0 then f.IsZero (f.sign a && f.sign b) r else Nearest f (x + y) 1 r
  | .sub, .inf s, .inf t => if s = t then f.IsNaN r else f.IsInf s r
  | .sub, .inf s, .fin _ => f.IsInf s r
  | .sub, .fin _, .inf t => f.IsInf (!t) r
  | .sub, .fin x, .fin y => if x - y = 0 then f.IsZero (f.sign a && !f.sign b) r else Nearest f (x - y) 1 r
  | .mul, .inf s, .inf t => f.IsInf (s ^^ t) r
  | .mul, .inf s, .fin y => if y = 0 then f.IsNaN r else f.IsInf (s ^^ f.sign b) r
  | .mul, .fin x, .inf t => if x = 0 then f.IsNaN r else f.IsInf (f.sign a ^^ t) r
  | .mul, .fin x, .fin y =>
    if x * y = 0 then f.IsZero (f.sign a ^^ f.sign b) r else Nearest f (x * y) (2 ^ f.fracBits) r
  | .div, .inf _, .inf _ => f.IsNaN r
  | .div, .inf s, .fin _ => f.IsInf (s ^^ f.sign b) r
  | .div, .fin _, .inf t => f.IsZero (f.sign a ^^ t) r
  | .div, .fin x, .fin y =>
    if y = 0 then if x = 0 then f.IsNaN r else f.IsInf (f.sign a ^^ f.sign b) r
    else if x = 0 then f.IsZero (f.sign a ^^ f.sign b) r
    else Nearest f (if y < 0 then -(x * 2 ^ f.fracBits) else x * 2 ^ f.fracBits) y.natAbs r

/-- the integer `i` (times `2^fracBits`) is `x` rounded to an integer in the given direction -/
def Integral (f : Fmt) (op : FRound) (x i : Int) : Prop :=
  let u : Int := 2 ^ f.fracBits
  match op with
  | .floor => i * u ≤ x ∧ x < (i + 1) * u
  | .ceil => (i - 1) * u < x ∧ x ≤ i * u
  | .trunc => if 0 ≤ x then i * u ≤ x ∧ x < (i + 1) * u else (i - 1) * u < x ∧ x ≤ i * u
  | .nearest => 2 * (x - i * u) ≤ u ∧ -u ≤ 2 * (x - i * u) ∧ (2 * (x - i * u) = u ∨ 2 * (x - i * u) = -u → i % 2 = 0)
  | .sqrt => False

/-- `r` is the result of the operation on `a` -/
def Rounded (f : Fmt) (op : FRound) (a r : Nat) : Prop :=
  match op, f.val a with
  | _, .nan => f.IsNaN r
  | .sqrt, .inf s => if s then f.IsNaN r else f.IsInf false r
  | .sqrt, .fin x =>
    if x = 0 then r = a else if x < 0 then f.IsNaN r else NearestRoot f (x.natAbs * 2 ^ f.fracBits) r
  | _, .inf s => f.IsInf s r
  | op, .fin x => ∃ i, Integral f op x i ∧ r < 2 ^ f.width ∧ f.val r = .fin (i * 2 ^ f.fracBits) ∧ f.sign r = f.sign a

/-- `r` is the integer `n` as a float -/
def FromInt (f : Fmt) (n : Int) (r : Nat) : Prop :=
  if n = 0 then f.IsZero false r else Nearest f (n * 2 ^ f.fracBits) 1 r

/-- `r` in format `g` is `a` of format `f` (`demote`, `promote`) -/
def FromFloat (f g : Fmt) (a r : Nat) : Prop :=
  match f.val a with
  | .nan => g.IsNaN r
  | .inf s => g.IsInf s r
  | .fin x => if x = 0 then g.IsZero (f.sign a) r else Nearest g (x * 2 ^ g.fracBits) (2 ^ f.fracBits) r

end Verif.Spec
