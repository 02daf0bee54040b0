import Verif.Model.Types
/-
C35, small separate specification: the WebAssembly value types, and the type of a value.
The null reference carries no type of its own; `fits` says which types it may be used at.
-/
namespace Verif.Spec
open Verif.Model

/-- WebAssembly 2.0 value types -/
inductive WasmType | i32 | i64 | f32 | f64 | v128 | funcref | externref
  deriving DecidableEq, Repr

/-- `v` is a value of the type -/
inductive HasType : Val → WasmType → Prop
  | i32 (n : BitVec 32) : HasType ⟨.i32, n⟩ .i32
  | i64 (n : BitVec 64) : HasType ⟨.i64, n⟩ .i64
  | f32 (n : BitVec 32) : HasType ⟨.f32, n⟩ .f32
  | f64 (n : BitVec 64) : HasType ⟨.f64, n⟩ .f64
  | v128 (n : BitVec 128) : HasType ⟨.v128, n⟩ .v128
  | nullFunc : HasType ⟨.ref, Ref.null⟩ .funcref
  | nullExtern : HasType ⟨.ref, Ref.null⟩ .externref
  | func (a : Nat) : HasType ⟨.ref, Ref.func a⟩ .funcref
  | extern (a : Nat) : HasType ⟨.ref, Ref.extern a⟩ .externref

/-- the value is the null reference -/
def IsNull (v : Val) : Prop := v = ⟨.ref, Ref.null⟩

end Verif.Spec
