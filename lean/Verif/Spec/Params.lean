import Verif.Model.Types
/-
What the text of a `--params` entry means: decimal numbers, positional notation, and entries `TYPE(text)`.
-/
namespace Verif.Spec
open Verif.Model (Val Cls)

/-- positional value of decimal digits -/
def decimal : List Char → Nat
  | [] => 0
  | c :: cs => (c.toNat - '0'.toNat) * 10 ^ cs.length + decimal cs

/-- one or more decimal digits -/
def IsDigits (ds : List Char) : Prop := ds ≠ [] ∧ ∀ c ∈ ds, c.isDigit = true

/-- the integer a text denotes -/
inductive Denotes : List Char → Int → Prop
  | plain {ds} (h : IsDigits ds) : Denotes ds (decimal ds)
  | plus {ds} (h : IsDigits ds) : Denotes ('+' :: ds) (decimal ds)
  | minus {ds} (h : IsDigits ds) : Denotes ('-' :: ds) (-(decimal ds : Int))

/-- how numbers are read: the floating point texts are whatever the two given functions accept -/
inductive Meaning (f32 : List Char → Option (BitVec 32)) (f64 : List Char → Option (BitVec 64)) : Cls → List Char → Val → Prop
  | i32 {t n} (h : Denotes t n) (lo : -2 ^ 31 ≤ n) (hi : n < 2 ^ 31) : Meaning f32 f64 .i32 t ⟨.i32, BitVec.ofInt 32 n⟩
  | i64 {t n} (h : Denotes t n) (lo : -2 ^ 63 ≤ n) (hi : n < 2 ^ 63) : Meaning f32 f64 .i64 t ⟨.i64, BitVec.ofInt 64 n⟩
  | f32 {t x} (h : f32 t = some x) : Meaning f32 f64 .f32 t ⟨.f32, x⟩
  | f64 {t x} (h : f64 t = some x) : Meaning f32 f64 .f64 t ⟨.f64, x⟩

/-- the name of a type in an entry -/
def typeName : Cls → Option (List Char)
  | .i32 => some ['I', '3', '2']
  | .i64 => some ['I', '6', '4']
  | .f32 => some ['F', '3', '2']
  | .f64 => some ['F', '6', '4']
  | _ => none

/-- an entry `TYPE(text)` with the value it stands for.  The text contains no newline and none of the letters `I`, `F`
(numbers, `inf` and `nan` do not). -/
inductive Entry (f32 : List Char → Option (BitVec 32)) (f64 : List Char → Option (BitVec 64)) : List Char → Val → Prop
  | mk {c n t v} (hn : typeName c = some n) (hm : Meaning f32 f64 c t v) (ht : ∀ x ∈ t, x ≠ '\n' ∧ x ≠ 'I' ∧ x ≠ 'F') :
      Entry f32 f64 (n ++ '(' :: t ++ [')']) v

/-- does `n` occur in `p` -/
def Occurs (n p : List Char) : Prop := ∃ a b, p = a ++ n ++ b

/-- element by element -/
inductive Each {α β : Type} (R : α → β → Prop) : List α → List β → Prop
  | nil : Each R [] []
  | cons {a b as bs} (h : R a b) (t : Each R as bs) : Each R (a :: as) (b :: bs)

end Verif.Spec
