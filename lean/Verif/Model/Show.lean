import Verif.Model.FloatText
/-
What the command prints about the end of a run: `handle_result` (main.rs:221-236) and the messages around it, with the texts
`{:?}` gives for values.  `derive(Debug)` prints a variant as `Name(content)`; integers are printed in decimal; floats by the
standard library's `float_to_general_debug`: the shortest decimal that reads back (Grisu / Dragon, `flt2dec::strategy`), in
positional notation with at least one digit behind the point, or with an exponent if it is at least 1e16 or below 1e-4.
-/
namespace Verif.Model
open Verif.Spec

/-- `{:?}` of an integer -/
def showInt (n : Int) : List Char := (if n < 0 then ['-'] else []) ++ Nat.toDigits 10 n.natAbs

/-- `flt2dec::strategy::dragon::format_shortest`, one position: `mag / 2^fracBits` cut off at `10^e`, or that plus one, if it
reads back as `k`; if both do, the nearer one (the larger one in a tie) -/
def digitsAt (f : Fmt) (k mag : Nat) (e : Int) : Option Nat :=
  let s := 2 ^ f.fracBits * 10 ^ e.toNat
  let n := mag * 10 ^ (-e).toNat
  let d := n / s
  let down := decide (decToFloat f false d e = k)
  let up := decide (decToFloat f false (d + 1) e = k)
  if up && (!down || decide (s ≤ 2 * (n % s))) then some (d + 1) else if down then some d else none

/-- `dragon::format_shortest`: the first position at which that succeeds -/
def shortest (f : Fmt) (k mag : Nat) : Nat → Int → Option (Nat × Int)
  | 0, _ => none
  | fuel + 1, e =>
    match digitsAt f k mag e with
    | some d => some (d, e)
    | none => shortest f k mag fuel (e - 1)

/-- `flt2dec::digits_to_dec_str` with `frac_digits = 1`: the digits of `d * 10^e` -/
def positional (ds : List Char) (e : Int) : List Char :=
  if 0 ≤ e then ds ++ List.replicate e.toNat '0' ++ ['.', '0']
  else if (-e).toNat < ds.length then ds.take (ds.length - (-e).toNat) ++ '.' :: ds.drop (ds.length - (-e).toNat)
  else '0' :: '.' :: List.replicate ((-e).toNat - ds.length) '0' ++ ds

/-- `flt2dec::digits_to_exp_str` -/
def exponential (ds : List Char) (e : Int) : List Char :=
  ds.take 1 ++ (if ds.length = 1 then [] else '.' :: ds.drop 1) ++ 'e' :: showInt (e + ds.length - 1)

/-- a finite positive float, bit pattern `k` -/
def showPos (f : Fmt) (k : Nat) : List Char :=
  let mag := f.mag k
  let top := (Nat.toDigits 10 (mag / 2 ^ f.fracBits)).length
  match shortest f k mag (top + f.fracBits + 1) top with
  | none => []
  | some (d, e) =>
    if decToFloat f false 1 16 ≤ k ∨ k < decToFloat f false 1 (-4) then exponential (Nat.toDigits 10 d) e
    else positional (Nat.toDigits 10 d) e

/-- `{:?}` of a float (`float_to_general_debug`, `flt2dec::to_shortest_str` / `to_shortest_exp_str`): no sign on a NaN -/
def showFloat (f : Fmt) (b : Nat) : List Char :=
  match f.val b with
  | .nan => ['N', 'a', 'N']
  | .inf neg => (if neg then ['-'] else []) ++ ['i', 'n', 'f']
  | .fin x => (if f.sign b then ['-'] else []) ++ if x = 0 then ['0', '.', '0'] else showPos f (b % 2 ^ (f.e + f.m))

/-- `derive(Debug)` on a variant with one field (`Formatter::debug_tuple`) -/
def debugTuple (name : List Char) (t : List Char) : List Char := name ++ '(' :: t ++ [')']

/-- `{:?}` of a value (value.rs:12-17, 61-67, 96-99, 102-112).  What is printed for a function (func.rs:34-72: its type and its
whole code) or an external reference is given by `R`. -/
def Val.text (R : Ref → List Char) : Val → List Char
  | ⟨.i32, x⟩ => debugTuple ['N', 'u', 'm'] (debugTuple ['I', '3', '2'] (showInt (BitVec.toInt (n := 32) x)))
  | ⟨.i64, x⟩ => debugTuple ['N', 'u', 'm'] (debugTuple ['I', '6', '4'] (showInt (BitVec.toInt (n := 64) x)))
  | ⟨.f32, x⟩ => debugTuple ['N', 'u', 'm'] (debugTuple ['F', '3', '2'] (showFloat f32 (BitVec.toNat (w := 32) x)))
  | ⟨.f64, x⟩ => debugTuple ['N', 'u', 'm'] (debugTuple ['F', '6', '4'] (showFloat f64 (BitVec.toNat (w := 64) x)))
  | ⟨.v128, x⟩ => debugTuple ['V', 'e', 'c', '_'] (debugTuple ['V', '1', '2', '8'] (showInt (BitVec.toInt (n := 128) x)))
  | ⟨.ref, r⟩ => debugTuple ['R', 'e', 'f'] (match r with | .null => ['R', 'e', 'f', 'N', 'u', 'l', 'l'] | r => R r)

/-- the stream a line goes to -/
inductive Stream | out | err
  deriving DecidableEq

/-- The line that tells the end of the run (main.rs:174-178, 211, 221-236; `main` returning `Err` is printed by the standard
library as `Error: ..`).  The texts of the errors are given by `X`. -/
def Report.line (R : Ref → List Char) (X : Err → List Char) : Report → Option (Stream × List Char)
  | .result (some v) => some (.out, "Result: ".toList ++ v.text R)
  | .result none => none
  | .checkpointed => some (.out, "Execution stopped for checkpoint.".toList)
  | .runFailed e => some (.err, "Execution Error: ".toList ++ X e)
  | .initFailed e => some (.err, "Runtime initialization failed: ".toList ++ X e)
  | .restoreFailed e => some (.err, "Failed to restore state: ".toList ++ X e)
  | .noFunction => some (.err, "Error: Export Function is not Found".toList)
  | .exited _ => none

end Verif.Model
