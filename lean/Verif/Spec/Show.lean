import Verif.Spec.FloatText
/-
Which results have a number to print.
-/
namespace Verif.Spec
open Verif.Model (Val Cls)

/-- an integer, or a float that is not a NaN -/
inductive IsNumber : Val → Prop
  | i32 (x : BitVec 32) : IsNumber ⟨.i32, x⟩
  | i64 (x : BitVec 64) : IsNumber ⟨.i64, x⟩
  | f32 {x : BitVec 32} (h : Spec.f32.val x.toNat ≠ .nan) : IsNumber ⟨.f32, x⟩
  | f64 {x : BitVec 64} (h : Spec.f64.val x.toNat ≠ .nan) : IsNumber ⟨.f64, x⟩

/-- `text` is how the value `v` is printed: `Num(I32(-5))`, `Num(F64(0.1))`: inside `Num( )` stands an entry as `--params` takes
it, naming the type and denoting exactly `v` -/
def Tells (text : List Char) (v : Val) : Prop := ∃ e, text = ['N', 'u', 'm', '('] ++ e ++ [')'] ∧ TypedEntry e v

end Verif.Spec
