import Verif.Model.Float
import Verif.Spec.Ieee
/-
The floating point handlers that round.  The code is Rust's `+ - * /`, `sqrt`, `ceil`, `floor`, `trunc`,
`round_ties_even` and `as` (src/execution/handlers.rs:730-733, 767-771, 839-842, 876-880, 1049-1110), which round to nearest
with ties to even; here they are computed on the decoded values.  Which NaN an operation produces is left open by Rust and
WebAssembly; it is a parameter (`nan`) of the functions that may produce one.
-/
namespace Verif.Model
open Verif.Spec

/-- bit pattern of the infinity -/
def infBits (f : Fmt) : Nat := (2 ^ f.e - 1) * 2 ^ f.m

/-- put the sign in -/
def withSign (f : Fmt) (neg : Bool) (k : Nat) : Nat := if neg then 2 ^ (f.e + f.m) + k else k

/-- Round a positive number to `m+1` significant bits (fewer among the subnormals), ties to even.  `q` is its integral part,
`cmp t` compares `t / 2` with it.  Adding one to the bit pattern carries over into the exponent. -/
def roundCut (f : Fmt) (q : Nat) (cmp : Nat → Ordering) : Nat :=
  let s := q.log2 - f.m
  let k := s * 2 ^ f.m + q / 2 ^ s
  let k' := match cmp (2 * (q / 2 ^ s * 2 ^ s) + 2 ^ s) with
    | .lt => k + 1
    | .eq => k + k % 2
    | .gt => k
  min k' (infBits f)

/-- round `n / d` -/
def roundRat (f : Fmt) (n d : Nat) : Nat := roundCut f (n / d) fun t => compare (t * d) (2 * n)

/-- integral part of the square root, of a number with at most `2 * fuel` bits -/
def isqrtUpTo : Nat → Nat → Nat
  | 0, _ => 0
  | fuel + 1, n =>
    let r := 2 * isqrtUpTo fuel (n / 4)
    if (r + 1) * (r + 1) ≤ n then r + 1 else r

/-- integral part of the square root -/
def isqrt (n : Nat) : Nat := isqrtUpTo (n.log2 + 1) n

/-- round the square root of `n` -/
def roundRoot (f : Fmt) (n : Nat) : Nat := roundCut f (isqrt n) fun t => compare (t * t) (4 * n)

/-- round the number `n / d`, which is not 0 -/
def roundInt (f : Fmt) (n : Int) (d : Nat) : Nat := withSign f (decide (n < 0)) (roundRat f n.natAbs d)

/-- the IEEE 754 addition, subtraction, multiplication and division behind `+ - * /` (handlers.rs:730-733, 839-842) -/
def fArith (f : Fmt) (nan : Nat) (op : FArith) (a b : Nat) : Nat :=
  match op, f.val a, f.val b with
  | _, .nan, _ => nan
  | _, _, .nan => nan
  | .add, .inf s, .inf t => if s = t then a else nan
  | .add, .inf _, .fin _ => a
  | .add, .fin _, .inf _ => b
  | .add, .fin x, .fin y => if x + y = 0 then withSign f (fNeg? f a && fNeg? f b) 0 else roundInt f (x + y) 1
  | .sub, .inf s, .inf t => if s = t then nan else a
  | .sub, .inf _, .fin _ => a
  | .sub, .fin _, .inf t => withSign f (!t) (infBits f)
  | .sub, .fin x, .fin y => if x - y = 0 then withSign f (fNeg? f a && !fNeg? f b) 0 else roundInt f (x - y) 1
  | .mul, .inf s, .inf t => withSign f (s ^^ t) (infBits f)
  | .mul, .inf s, .fin y => if y = 0 then nan else withSign f (s ^^ fNeg? f b) (infBits f)
  | .mul, .fin x, .inf t => if x = 0 then nan else withSign f (fNeg? f a ^^ t) (infBits f)
  | .mul, .fin x, .fin y =>
    if x * y = 0 then withSign f (fNeg? f a ^^ fNeg? f b) 0 else roundInt f (x * y) (2 ^ f.fracBits)
  | .div, .inf _, .inf _ => nan
  | .div, .inf s, .fin _ => withSign f (s ^^ fNeg? f b) (infBits f)
  | .div, .fin _, .inf t => withSign f (fNeg? f a ^^ t) 0
  | .div, .fin x, .fin y =>
    if y = 0 then if x = 0 then nan else withSign f (fNeg? f a ^^ fNeg? f b) (infBits f)
    else withSign f (fNeg? f a ^^ fNeg? f b) (if x = 0 then 0 else roundRat f (x.natAbs * 2 ^ f.fracBits) y.natAbs)

/-- `x / u` rounded to an integer: `floor`, `ceil`, `trunc`, `round_ties_even` (`/` rounds down, `u` is positive) -/
def integral (op : FRound) (x u : Int) : Int :=
  match op with
  | .floor => x / u
  | .ceil => -(-x / u)
  | .trunc => if 0 ≤ x then x / u else -(-x / u)
  | .nearest =>
    let i := x / u
    let r := 2 * (x - i * u)
    if r < u then i else if u < r then i + 1 else if i % 2 = 0 then i else i + 1
  | .sqrt => 0

/-- `ceil`, `floor`, `trunc`, `round_ties_even`, `sqrt` (handlers.rs:767-771, 876-880); the result has the sign of the operand -/
def fRounded (f : Fmt) (nan : Nat) (op : FRound) (a : Nat) : Nat :=
  match op, f.val a with
  | _, .nan => nan
  | .sqrt, .inf s => if s then nan else a
  | .sqrt, .fin x => if x = 0 then a else if x < 0 then nan else roundRoot f (x.natAbs * 2 ^ f.fracBits)
  | _, .inf _ => a
  | op, .fin x => withSign f (fNeg? f a) (roundRat f ((integral op x (2 ^ f.fracBits)).natAbs * 2 ^ f.fracBits) 1)

/-- `n as fNN` for an integer (handlers.rs:1049-1096) -/
def fFromInt (f : Fmt) (n : Int) : Nat := if n = 0 then 0 else roundInt f (n * 2 ^ f.fracBits) 1

/-- `x as fNN` for a float of another format (handlers.rs:1099-1110) -/
def fFromFloat (f g : Fmt) (nan : Nat) (a : Nat) : Nat :=
  match f.val a with
  | .nan => nan
  | .inf s => withSign g s (infBits g)
  | .fin x => withSign g (fNeg? f a) (if x = 0 then 0 else roundRat g (x.natAbs * 2 ^ g.fracBits) (2 ^ f.fracBits))

end Verif.Model
