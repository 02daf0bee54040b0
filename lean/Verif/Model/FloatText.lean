import Verif.Model.Command
/-
`str::parse::<f32>` and `::<f64>` of Rust's standard library, which `parse_params` uses (main.rs:113-124), by their
documentation: the accepted grammar, and the nearest float.  (The library gives up counting in exponents beyond 2^16 and
digits beyond 768; its documentation, and the model, do not.)
-/
namespace Verif.Model
open Verif.Spec

/-- value of decimal digits -/
def digitsVal (ds : List Char) : Nat := ds.foldl (fun a c => 10 * a + (c.toNat - 48)) 0

/-- decimal digit -/
def isDig (c : Char) : Bool := 48 ≤ c.toNat && c.toNat ≤ 57

/-- `parse_scientific` and end of the text: sign, at least one digit, nothing else -/
def parseExp : List Char → Option Int
  | [] => none
  | c :: cs =>
    let (neg, ds) := if c = '-' then (true, cs) else if c = '+' then (false, cs) else (false, c :: cs)
    if ds.isEmpty || !ds.all isDig then none
    else some (if neg then -(digitsVal ds : Int) else digitsVal ds)

/-- `parse_number`, the digits behind a point, and what follows -/
def fraction : List Char → List Char × List Char
  | '.' :: r => (r.takeWhile isDig, r.dropWhile isDig)
  | r => ([], r)

/-- `parse_number`, the end: an exponent or nothing; `n` is the number of all digits, `k` of them behind the point -/
def scaled (n k : Nat) : List Char → Option (Nat × Int)
  | [] => some (n, -(k : Int))
  | c :: r => if c = 'e' || c = 'E' then (parseExp r).map fun x => (n, x - (k : Int)) else none

/-- `parse_number`: digits, perhaps a point and digits, perhaps an exponent -/
def parseNumber (t : List Char) : Option (Nat × Int) :=
  let ip := t.takeWhile isDig
  let p := fraction (t.dropWhile isDig)
  if ip.isEmpty && p.1.isEmpty then none else scaled (digitsVal (ip ++ p.1)) p.1.length p.2

/-- `± n * 10^x` rounded -/
def decToFloat (f : Fmt) (neg : Bool) (n : Nat) (x : Int) : Nat :=
  if n = 0 then withSign f neg 0
  else withSign f neg (roundRat f (n * 2 ^ f.fracBits * 10 ^ x.toNat) (10 ^ (-x).toNat))

/-- `dec2flt` behind the sign: a number, or (`parse_inf_nan`) `inf`, `infinity`, `nan` ignoring case -/
def parseUnsigned (f : Fmt) (neg : Bool) (t : List Char) : Option Nat :=
  match parseNumber t with
  | some (n, x) => some (decToFloat f neg n x)
  | none =>
    let l := t.map Char.toLower
    if l = ['i', 'n', 'f'] || l = ['i', 'n', 'f', 'i', 'n', 'i', 't', 'y'] then some (withSign f neg (infBits f))
    else if l = ['n', 'a', 'n'] then some (withSign f neg (fNanConst f))
    else none

/-- `str::parse::<fNN>` -/
def parseFloat (f : Fmt) : List Char → Option Nat
  | [] => none
  | c :: cs =>
    if c = '-' then parseUnsigned f true cs
    else if c = '+' then parseUnsigned f false cs
    else parseUnsigned f false (c :: cs)

/-- main.rs:113-124: the two parsers behind `F32(..)` and `F64(..)` -/
def rustFloat : FloatText :=
  { f32 := fun t => (parseFloat Spec.f32 t).map (BitVec.ofNat 32)
    f64 := fun t => (parseFloat Spec.f64 t).map (BitVec.ofNat 64) }

end Verif.Model
