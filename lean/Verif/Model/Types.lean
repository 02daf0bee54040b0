/-
Values, references and outcomes.  Models src/execution/value.rs and src/error.rs (the errors used at run time).
-/
namespace Verif.Model

/-- `RuntimeError` (src/error.rs): only the constructors the modelled code can produce; `processExit` is `proc_exit`, which does
not return (wasi/passthrough.rs:304-309). -/
inductive Err
  | invalidConversionToInt | integerOverflow | memoryNotFound | invalidParameterCount
  | invalidDataSegmentIndex | checkpointRequested | instructionFailed | tableNotFound
  | indirectCallTypeMismatch | unreachable | invalidHandlerIndex | invalidOperand
  | executionFailed | linkError | instantiateFailed | exportNotFound
  | serializationError | deserializationError | checkpointSaveError | checkpointLoadError
  | invalidCheckpointData | checkpointRestored | globalIndexOutOfBounds
  | typeMismatch | invalidConstantExpression
  | processExit (code : BitVec 32)
  deriving DecidableEq, Repr

/-- Outcome of running a piece of the interpreter.
`trap`  a `RuntimeError` is reported;
`panic` the process aborts in a controlled way (Rust panic with `panic = "abort"`, or a trap of the host Wasm engine);
`ub`    the interpreter itself leaves defined behaviour (raw pointer / `unwrap_unchecked` outside its contract). -/
inductive Res (α : Type)
  | ok (v : α)
  | trap (e : Err)
  | panic
  | ub
  deriving DecidableEq, Repr

namespace Res
/-- sequencing of outcomes (Rust `?` / early return) -/
def bind {α β : Type} : Res α → (α → Res β) → Res β
  | .ok v, f => f v
  | .trap e, _ => .trap e
  | .panic, _ => .panic
  | .ub, _ => .ub

instance : Monad Res where
  pure := .ok
  bind := bind

@[simp] theorem bind_ok {α β : Type} (v : α) (f : α → Res β) : (Res.ok v >>= f) = f v := rfl
@[simp] theorem bind_trap {α β : Type} (e : Err) (f : α → Res β) : (Res.trap e >>= f) = Res.trap e := rfl
@[simp] theorem bind_panic {α β : Type} (f : α → Res β) : ((Res.panic : Res α) >>= f) = Res.panic := rfl
@[simp] theorem bind_ub {α β : Type} (f : α → Res β) : ((Res.ub : Res α) >>= f) = Res.ub := rfl
@[simp] theorem pure_eq {α : Type} (v : α) : (pure v : Res α) = Res.ok v := rfl
end Res

/-- a byte of linear memory -/
abbrev Byte := BitVec 8

/-- The six value types / register banks (structure/types.rs `ValueType`, regs.rs:12-35 `Reg`). -/
inductive Cls | i32 | i64 | f32 | f64 | ref | v128
  deriving DecidableEq, Repr

/-- value.rs:103-112 `Ref`.  Function / extern addresses are reference counted handles in Rust; modelled by a number
identifying the instance. -/
inductive Ref | null | func (addr : Nat) | extern (addr : Nat)
  deriving DecidableEq, Repr

/-- Rust payload type of each bank.  Floats are represented by their bit pattern. -/
abbrev Cls.Carrier : Cls → Type
  | .i32 => BitVec 32
  | .i64 => BitVec 64
  | .f32 => BitVec 32
  | .f64 => BitVec 64
  | .ref => Ref
  | .v128 => BitVec 128

/-- Initial content of a register (`Vec::resize(.., 0 / RefNull)`, regs.rs:122-160). -/
def Cls.zero : (c : Cls) → c.Carrier
  | .i32 => (0 : BitVec 32)
  | .i64 => (0 : BitVec 64)
  | .f32 => (0 : BitVec 32)
  | .f64 => (0 : BitVec 64)
  | .ref => Ref.null
  | .v128 => (0 : BitVec 128)

/-- the bit pattern of a numeric value as a natural number (references have none) -/
def Cls.num : (c : Cls) → c.Carrier → Nat
  | .i32, x => BitVec.toNat (w := 32) x
  | .i64, x => BitVec.toNat (w := 64) x
  | .f32, x => BitVec.toNat (w := 32) x
  | .f64, x => BitVec.toNat (w := 64) x
  | .ref, _ => 0
  | .v128, x => BitVec.toNat (w := 128) x

/-- value.rs `Val` (Num(I32..F64) / Vec / Ref), as a tagged pair. -/
structure Val where
  cls : Cls
  v : cls.Carrier

instance (c : Cls) : DecidableEq c.Carrier := by
  cases c <;> simp only [Cls.Carrier] <;> infer_instance

instance : DecidableEq Val := fun a b =>
  match a, b with
  | ⟨c, x⟩, ⟨d, y⟩ =>
    if h : c = d then
      match d, h, y with
      | _, rfl, y => if hv : x = y then isTrue (by rw [hv]) else isFalse (by intro hh; cases hh; exact hv rfl)
    else isFalse (by intro hh; cases hh; exact h rfl)

end Verif.Model
