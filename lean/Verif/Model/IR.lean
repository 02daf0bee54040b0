import Verif.Model.Num
import Verif.Model.Float
import Verif.Model.Ieee
import Verif.Model.Mem
import Verif.Model.Regs
/-
Model of src/execution/ir.rs: operands, processed instructions, and the operators named by handler indices.  The pair of a
processed instruction and its handler index is one `Instr` here; `Model/Handlers` has the separate representation, and
`Props/Handlers` proves that the selected handler performs the `Instr`.
-/
namespace Verif.Model
open Verif.Spec (IBinOp IRelOp IUnOp FRelOp TruncOp LoadOp StoreOp FArith FRound)

/-- 32- or 64-bit flavour of an operator -/
inductive Sz | s32 | s64
  deriving DecidableEq, Repr

/-- bit width -/
abbrev Sz.bits : Sz → Nat | .s32 => 32 | .s64 => 64
/-- integer bank -/
abbrev Sz.int : Sz → Cls | .s32 => .i32 | .s64 => .i64
/-- float bank -/
abbrev Sz.flt : Sz → Cls | .s32 => .f32 | .s64 => .f64
/-- float format -/
abbrev Sz.fmt : Sz → Verif.Spec.Fmt | .s32 => Verif.Spec.f32 | .s64 => Verif.Spec.f64

/-- What Rust and WebAssembly leave open about floats: which NaN an operation produces when its result is one
(handlers.rs:730-733, 767-771, 839-842, 876-880, 1099-1110).  Only consulted in that case. -/
structure FloatHost where
  arith : (s : Sz) → FArith → s.flt.Carrier → s.flt.Carrier → s.flt.Carrier
  round : (s : Sz) → FRound → s.flt.Carrier → s.flt.Carrier
  demote : BitVec 64 → BitVec 32
  promote : BitVec 32 → BitVec 64
  arith_nan : ∀ (s : Sz) (op : FArith) (a b : s.flt.Carrier), s.fmt.val (s.flt.num (arith s op a b)) = Verif.Spec.FVal.nan
  round_nan : ∀ (s : Sz) (op : FRound) (a : s.flt.Carrier), s.fmt.val (s.flt.num (round s op a)) = Verif.Spec.FVal.nan
  demote_nan : ∀ a, Verif.Spec.f32.val (demote a).toNat = Verif.Spec.FVal.nan
  promote_nan : ∀ a, Verif.Spec.f64.val (promote a).toNat = Verif.Spec.FVal.nan

/-- one-operand operators: I32Reg/I64Reg/F32Reg/F64Reg with `src2 = None` and ConversionReg -/
inductive Op1
  /-- local.get / local.set / local.tee / const: identity (handlers.rs:408-410, 563-565, 726-728, 835-837) -/
  | mov (c : Cls)
  | int (s : Sz) (op : IUnOp)
  | eqz (s : Sz)
  | abs (s : Sz)
  | neg (s : Sz)
  | round (s : Sz) (op : FRound)
  | extS | extU | wrap
  | trunc (op : TruncOp)
  | truncSat (op : TruncOp)
  | convert (d s : Sz) (signed : Bool)
  | demote | promote
  | reinterpIF (s : Sz)   -- iSS.reinterpret_fSS
  | reinterpFI (s : Sz)   -- fSS.reinterpret_iSS
  deriving DecidableEq, Repr

/-- destination size of a truncation -/
abbrev _root_.Verif.Spec.TruncOp.dsz : TruncOp → Sz
  | .i32_f32_s | .i32_f32_u | .i32_f64_s | .i32_f64_u => .s32
  | .i64_f32_s | .i64_f32_u | .i64_f64_s | .i64_f64_u => .s64
/-- source size of a truncation -/
abbrev _root_.Verif.Spec.TruncOp.ssz : TruncOp → Sz
  | .i32_f32_s | .i32_f32_u | .i64_f32_s | .i64_f32_u => .s32
  | .i32_f64_s | .i32_f64_u | .i64_f64_s | .i64_f64_u => .s64

/-- bank read -/
abbrev Op1.src : Op1 → Cls
  | .mov c => c
  | .int s _ => s.int
  | .eqz s => s.int
  | .abs s | .neg s | .round s _ => s.flt
  | .extS | .extU => .i32
  | .wrap => .i64
  | .trunc op | .truncSat op => op.ssz.flt
  | .convert _ s _ => s.int
  | .demote => .f64
  | .promote => .f32
  | .reinterpIF s => s.flt
  | .reinterpFI s => s.int

/-- bank written (`i64.eqz` writes the i32 bank, handlers.rs:603-612) -/
abbrev Op1.dst : Op1 → Cls
  | .mov c => c
  | .int s _ => s.int
  | .eqz _ => .i32
  | .abs s | .neg s | .round s _ => s.flt
  | .extS | .extU => .i64
  | .wrap => .i32
  | .trunc op | .truncSat op => op.dsz.int
  | .convert d _ _ => d.flt
  | .demote => .f32
  | .promote => .f64
  | .reinterpIF s => s.int
  | .reinterpFI s => s.flt

/-- bit pattern → carrier of an integer bank -/
def Sz.ofInt : (s : Sz) → Int → s.int.Carrier
  | .s32, z => BitVec.ofInt 32 z
  | .s64, z => BitVec.ofInt 64 z
/-- bit pattern → carrier of a float bank -/
def Sz.ofNatF : (s : Sz) → Nat → s.flt.Carrier
  | .s32, n => BitVec.ofNat 32 n
  | .s64, n => BitVec.ofNat 64 n

/-- the integer an `iSS` stands for: `v`, or `v as uSS` (handlers.rs:1049-1096) -/
def Sz.value : (s : Sz) → (signed : Bool) → s.int.Carrier → Int
  | .s32, sg, v => if sg then BitVec.toInt (n := 32) v else BitVec.toNat (w := 32) v
  | .s64, sg, v => if sg then BitVec.toInt (n := 64) v else BitVec.toNat (w := 64) v

/-- handlers.rs:440-445, 595-612 (integer unary), 765-771, 874-880 (float unary), 911-1275 (conversions) -/
def Op1.eval (H : FloatHost) : (op : Op1) → op.src.Carrier → Res op.dst.Carrier
  | .mov _, a => .ok a
  | .int .s32 op, a => .ok (iUn (w := 32) op a)
  | .int .s64 op, a => .ok (iUn (w := 64) op a)
  | .eqz .s32, a => .ok (iEqz (w := 32) a)
  | .eqz .s64, a => .ok (iEqz (w := 64) a)
  | .abs s, a => .ok (s.ofNatF (fAbs s.fmt (s.flt.num a)))
  | .neg s, a => .ok (s.ofNatF (fNegate s.fmt (s.flt.num a)))
  | .round s op, a => .ok (s.ofNatF (fRounded s.fmt (s.flt.num (H.round s op a)) op (s.flt.num a)))
  | .extS, a => .ok (extendI32S a)
  | .extU, a => .ok (extendI32U a)
  | .wrap, a => .ok (wrapI64 a)
  | .trunc op, a => do
    let z ← truncTrap op (op.ssz.flt.num a)
    pure (op.dsz.ofInt z)
  | .truncSat op, a => .ok (op.dsz.ofInt (Model.truncSat op (op.ssz.flt.num a)))
  | .convert d s sg, a => .ok (d.ofNatF (fFromInt d.fmt (s.value sg a)))
  | .demote, a => .ok (Sz.ofNatF .s32 (fFromFloat Spec.f64 Spec.f32 (H.demote a).toNat (Cls.num .f64 a)))
  | .promote, a => .ok (Sz.ofNatF .s64 (fFromFloat Spec.f32 Spec.f64 (H.promote a).toNat (Cls.num .f32 a)))
  | .reinterpIF .s32, a => .ok (reinterpI32F32 a)
  | .reinterpIF .s64, a => .ok (reinterpI64F64 a)
  | .reinterpFI .s32, a => .ok (reinterpF32I32 a)
  | .reinterpFI .s64, a => .ok (reinterpF64I64 a)

/-- two-operand operators: I32Reg/I64Reg/F32Reg/F64Reg with `src2 = Some` -/
inductive Op2
  | int (s : Sz) (op : IBinOp)
  | rel (s : Sz) (op : IRelOp)
  | arith (s : Sz) (op : FArith)
  | min (s : Sz)
  | max (s : Sz)
  | copysign (s : Sz)
  | frel (s : Sz) (op : FRelOp)
  deriving DecidableEq, Repr

/-- bank read by both operands -/
abbrev Op2.src : Op2 → Cls
  | .int s _ | .rel s _ => s.int
  | .arith s _ | .min s | .max s | .copysign s | .frel s _ => s.flt

/-- bank written; comparisons write the i32 bank (operand.rs:81-92, 120-129, 157-166) -/
abbrev Op2.dst : Op2 → Cls
  | .int s _ => s.int
  | .rel _ _ | .frel _ _ => .i32
  | .arith s _ | .min s | .max s | .copysign s => s.flt

/-- handlers.rs:412-505, 567-670, 730-779, 839-888 -/
def Op2.eval (H : FloatHost) : (op : Op2) → op.src.Carrier → op.src.Carrier → Res op.dst.Carrier
  | .int .s32 op, a, b => iBin (w := 32) op a b
  | .int .s64 op, a, b => iBin (w := 64) op a b
  | .rel .s32 op, a, b => .ok (iRel (w := 32) op a b)
  | .rel .s64 op, a, b => .ok (iRel (w := 64) op a b)
  | .arith s op, a, b => .ok (s.ofNatF (fArith s.fmt (s.flt.num (H.arith s op a b)) op (s.flt.num a) (s.flt.num b)))
  | .min s, a, b => .ok (s.ofNatF (fMin s.fmt (s.flt.num a) (s.flt.num b)))
  | .max s, a, b => .ok (s.ofNatF (fMax s.fmt (s.flt.num a) (s.flt.num b)))
  | .copysign s, a, b => .ok (s.ofNatF (fCopysign s.fmt (s.flt.num a) (s.flt.num b)))
  | .frel s op, a, b => .ok (fRel op s.fmt (s.flt.num a) (s.flt.num b))

/-- ir.rs:74-103 `I32RegOperand` … `F64RegOperand` as sources -/
inductive Opnd (c : Cls)
  | reg (i : Nat)
  | const (v : c.Carrier)
  | param (i : Nat)

/-- Destinations: `RegOrLocal` (ir.rs:66-71), or a typed operand that is `Reg` or `Param`.  A `Const` destination is
`unreachable_unchecked` in the code and is not representable here. -/
inductive Dst | reg (i : Nat) | loc (i : Nat)
  deriving DecidableEq, Repr

/-- ir.rs:107-243 `ProcessedInstr`, with the handler chosen by `select_handler` (handlers.rs:2099-2345) folded into the
constructor.  Not represented: handler indices outside the family of the variant (`invalid` handler) and the fields no
handler reads (`arity`, `param_count`, `ref_type`, unused `regs`). -/
inductive Instr
  | op1 (op : Op1) (dst : Dst) (src : Opnd op.src)
  | op2 (op : Op2) (dst : Dst) (a b : Opnd op.src)
  | load (op : LoadOp) (dst : Dst) (addr : Opnd .i32) (offset : BitVec 64)
  | store (op : StoreOp) (addr : Opnd .i32) (value : Nat) (offset : BitVec 64)
  | memSize (dst : Nat)
  | memGrow (dst arg : Nat)
  | memCopy (d s n : Nat)
  | memInit (data : Nat) (d s n : Nat)
  | memFill (d v n : Nat)
  | select (c : Cls) (dst v1 v2 cond : Nat)
  | globalGet (c : Cls) (dst : Dst) (g : Nat)
  | globalSet (c : Cls) (src : Dst) (g : Nat)
  | dataDrop (data : Nat)
  | refLocalGet (dst loc : Nat)
  | refLocalSet (src loc : Nat)
  | refNull (dst : Nat)
  | refIsNull (dst src : Nat)
  | tableGet (tbl dst idx : Nat)
  | tableSet (tbl idx src : Nat)
  | tableFill (tbl idx src n : Nat)
  | callWasi (id : Nat) (params : List Reg) (result : Option Reg)
  | callIndirect (ty tbl idx : Nat) (params results : List Reg)
  | call (f : Nat) (params results : List Reg)
  | ret (results : List Reg)
  | jump (target : Nat)
  | block (isLoop : Bool)
  | ite (cond elseTarget : Nat) (hasElse : Bool)
  | fin (src dst : List Reg)
  | br (depth target : Nat) (src dst : List Reg)
  | brIf (depth target cond : Nat) (src dst : List Reg)
  | brTable (targets : List (Nat × Nat × List Reg)) (dflt : Nat × Nat × List Reg) (idx : Nat) (src : List Reg)
  | nop
  | unreachable

end Verif.Model
