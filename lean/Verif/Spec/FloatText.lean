import Verif.Spec.Params
import Verif.Spec.Ieee
/-
What a floating point number in a `--params` entry means: decimal notation with an optional fraction and exponent, `inf`,
`infinity` and `nan` (in any case), each with an optional sign — the grammar in the documentation of `f32::from_str`.
-/
namespace Verif.Spec
open Verif.Model (Val Cls)

/-- the exponent part: nothing, or `e`/`E` and an integer -/
inductive Exponent : List Char → Int → Prop
  | none : Exponent [] 0
  | some {c t x} (hc : c = 'e' ∨ c = 'E') (h : Denotes t x) : Exponent (c :: t) x

/-- an unsigned decimal number denotes `n * 10^x`: `123`, `12.3`, `12.`, `.5`, each perhaps with an exponent -/
inductive Decimal : List Char → Nat → Int → Prop
  | whole {ip ex x} (hi : IsDigits ip) (hx : Exponent ex x) : Decimal (ip ++ ex) (decimal ip) x
  | point {ip fp ex x} (hi : ∀ c ∈ ip, c.isDigit = true) (hf : ∀ c ∈ fp, c.isDigit = true) (hne : ip ++ fp ≠ [])
      (hx : Exponent ex x) : Decimal (ip ++ '.' :: fp ++ ex) (decimal (ip ++ fp)) (x - fp.length)

/-- `r` is `± n * 10^x` correctly rounded -/
def Fmt.IsDecimal (f : Fmt) (neg : Bool) (n : Nat) (x : Int) (r : Nat) : Prop :=
  if n = 0 then f.IsZero neg r
  else
    let z : Int := if neg then -(n * 2 ^ f.fracBits) else n * 2 ^ f.fracBits
    Nearest f (z * 10 ^ x.toNat) (10 ^ (-x).toNat) r

/-- the same letters, upper or lower case -/
def SameWord (t w : List Char) : Prop := t.map Char.toLower = w

/-- an unsigned text and the float of the given sign it denotes -/
inductive Unsigned (f : Fmt) (neg : Bool) : List Char → Nat → Prop
  | number {t n x r} (h : Decimal t n x) (hr : f.IsDecimal neg n x r) : Unsigned f neg t r
  | inf {t r} (h : SameWord t ['i', 'n', 'f'] ∨ SameWord t ['i', 'n', 'f', 'i', 'n', 'i', 't', 'y']) (hr : f.IsInf neg r) :
      Unsigned f neg t r
  | nan {t r} (h : SameWord t ['n', 'a', 'n']) (hr : f.IsNaN r) (hs : f.sign r = neg) (hm : f.mant r = 2 ^ (f.m - 1)) :
      Unsigned f neg t r

/-- the float a text denotes -/
inductive FloatDenotes (f : Fmt) : List Char → Nat → Prop
  | plain {t r} (h : Unsigned f false t r) : FloatDenotes f t r
  | plus {t r} (h : Unsigned f false t r) : FloatDenotes f ('+' :: t) r
  | minus {t r} (h : Unsigned f true t r) : FloatDenotes f ('-' :: t) r

/-- what the text of an entry of a type means -/
inductive Meant : Cls → List Char → Val → Prop
  | i32 {t n} (h : Denotes t n) (lo : -2 ^ 31 ≤ n) (hi : n < 2 ^ 31) : Meant .i32 t ⟨.i32, BitVec.ofInt 32 n⟩
  | i64 {t n} (h : Denotes t n) (lo : -2 ^ 63 ≤ n) (hi : n < 2 ^ 63) : Meant .i64 t ⟨.i64, BitVec.ofInt 64 n⟩
  | f32 {t} {x : BitVec 32} (h : FloatDenotes Spec.f32 t x.toNat) : Meant .f32 t ⟨.f32, x⟩
  | f64 {t} {x : BitVec 64} (h : FloatDenotes Spec.f64 t x.toNat) : Meant .f64 t ⟨.f64, x⟩

/-- an entry `TYPE(text)` with the value it stands for; the text has no newline and none of the letters `I`, `F` -/
inductive TypedEntry : List Char → Val → Prop
  | mk {c n t v} (hn : typeName c = some n) (hm : Meant c t v) (ht : ∀ x ∈ t, x ≠ '\n' ∧ x ≠ 'I' ∧ x ≠ 'F') :
      TypedEntry (n ++ '(' :: t ++ [')']) v

end Verif.Spec
