import Verif.Model.Compile
import Verif.Model.Handlers
/-
Names of the WebAssembly operators (text format, core specification §6.5), composed from the parts of an operator, and
what the command line options `--stats` and `--trace` promise.
-/
namespace Verif.Spec
open Verif.Model (Sz Op1 Op2 Instr Copy Cls WOp)

/-- an operator of WebAssembly: there is no `i32.extend32_s` -/
def isOperator : WOp → Bool
  | .un (.int .s32 .extend32S) => false
  | _ => true

/-- `i32` / `i64` -/
def iTy : Sz → String | .s32 => "i32" | .s64 => "i64"
/-- `f32` / `f64` -/
def fTy : Sz → String | .s32 => "f32" | .s64 => "f64"
/-- `_s` / `_u` -/
def sx : Bool → String | true => "_s" | false => "_u"

/-- integer operators -/
def IBinOp.name : IBinOp → String
  | .add => "add" | .sub => "sub" | .mul => "mul" | .divS => "div_s" | .divU => "div_u" | .remS => "rem_s" | .remU => "rem_u"
  | .and => "and" | .or => "or" | .xor => "xor" | .shl => "shl" | .shrS => "shr_s" | .shrU => "shr_u" | .rotl => "rotl"
  | .rotr => "rotr"
/-- integer comparisons -/
def IRelOp.name : IRelOp → String
  | .eq => "eq" | .ne => "ne" | .ltS => "lt_s" | .ltU => "lt_u" | .gtS => "gt_s" | .gtU => "gt_u" | .leS => "le_s"
  | .leU => "le_u" | .geS => "ge_s" | .geU => "ge_u"
/-- unary integer operators -/
def IUnOp.name : IUnOp → String
  | .clz => "clz" | .ctz => "ctz" | .popcnt => "popcnt" | .extend8S => "extend8_s" | .extend16S => "extend16_s"
  | .extend32S => "extend32_s"
/-- float comparisons -/
def FRelOp.name : FRelOp → String
  | .eq => "eq" | .ne => "ne" | .lt => "lt" | .gt => "gt" | .le => "le" | .ge => "ge"
/-- float arithmetic -/
def FArith.name : FArith → String | .add => "add" | .sub => "sub" | .mul => "mul" | .div => "div"
/-- float rounding operators -/
def FRound.name : FRound → String
  | .ceil => "ceil" | .floor => "floor" | .trunc => "trunc" | .nearest => "nearest" | .sqrt => "sqrt"

/-- types of classes -/
def clsName : Cls → String
  | .i32 => "i32" | .i64 => "i64" | .f32 => "f32" | .f64 => "f64" | .ref => "ref" | .v128 => "v128"

/-- truncations: `iNN.trunc_fMM_sx`, with `how` being `trunc` or `trunc_sat` -/
def truncName (how : String) (op : TruncOp) : String :=
  iTy (if op.shape.1 = 32 then .s32 else .s64) ++ "." ++ how ++ "_" ++ fTy op.ssz ++ sx op.shape.2.1

/-- one-operand operators -/
def Op1.name : Op1 → String
  | .mov c => clsName c ++ ".const"
  | .int s op => iTy s ++ "." ++ IUnOp.name op
  | .eqz s => iTy s ++ ".eqz"
  | .abs s => fTy s ++ ".abs"
  | .neg s => fTy s ++ ".neg"
  | .round s op => fTy s ++ "." ++ FRound.name op
  | .extS => "i64.extend_i32_s"
  | .extU => "i64.extend_i32_u"
  | .wrap => "i32.wrap_i64"
  | .trunc op => truncName "trunc" op
  | .truncSat op => truncName "trunc_sat" op
  | .convert d s sg => fTy d ++ ".convert_" ++ iTy s ++ sx sg
  | .demote => "f32.demote_f64"
  | .promote => "f64.promote_f32"
  | .reinterpIF s => iTy s ++ ".reinterpret_" ++ fTy s
  | .reinterpFI s => fTy s ++ ".reinterpret_" ++ iTy s

/-- two-operand operators -/
def Op2.name : Op2 → String
  | .int s op => iTy s ++ "." ++ IBinOp.name op
  | .rel s op => iTy s ++ "." ++ IRelOp.name op
  | .arith s op => fTy s ++ "." ++ FArith.name op
  | .min s => fTy s ++ ".min"
  | .max s => fTy s ++ ".max"
  | .copysign s => fTy s ++ ".copysign"
  | .frel s op => fTy s ++ "." ++ FRelOp.name op

/-- loads: `tt.load`, with the width and signedness if the access is narrower than the type -/
def LoadOp.name (op : LoadOp) : String :=
  clsName op.cls ++ ".load" ++ (if op.shape.1 < op.shape.2.2 then toString op.shape.1 ++ sx op.shape.2.1 else "")

/-- stores: `tt.store`, with the width if the access is narrower than the type -/
def StoreOp.name (op : StoreOp) : String :=
  clsName op.cls ++ ".store" ++ (if op.bits < (if op.cls = .i32 ∨ op.cls = .f32 then 32 else 64) then toString op.bits else "")

/-- the name of the operator an instruction was made from; `k`: which operator a copy comes from -/
def opName (k : Copy) : Instr → String
  | .op1 (.mov c) _ _ => match k with
    | .get => "local.get" | .set => "local.set" | .tee => "local.tee" | .const => clsName c ++ ".const"
  | .op1 op _ _ => Op1.name op
  | .op2 op _ _ _ => Op2.name op
  | .load op _ _ _ => LoadOp.name op
  | .store op _ _ _ => StoreOp.name op
  | .memSize _ => "memory.size"
  | .memGrow _ _ => "memory.grow"
  | .memCopy _ _ _ => "memory.copy"
  | .memInit _ _ _ _ => "memory.init"
  | .memFill _ _ _ => "memory.fill"
  | .select _ _ _ _ _ => "select"
  | .globalGet _ _ _ => "global.get"
  | .globalSet _ _ _ => "global.set"
  | .dataDrop _ => "data.drop"
  | .refLocalGet _ _ => "local.get"
  | .refLocalSet _ _ => if k = .tee then "local.tee" else "local.set"
  | .refNull _ => "ref.null"
  | .refIsNull _ _ => "ref.is_null"
  | .tableGet _ _ _ => "table.get"
  | .tableSet _ _ _ => "table.set"
  | .tableFill _ _ _ _ => "table.fill"
  | .callWasi _ _ _ => "call"
  | .callIndirect _ _ _ _ _ => "call_indirect"
  | .call _ _ _ => "call"
  | .ret _ => "return"
  | .jump _ => "else"
  | .block l => if l then "loop" else "block"
  | .ite _ _ _ => "if"
  | .fin _ _ => "end"
  | .br _ _ _ _ => "br"
  | .brIf _ _ _ _ _ => "br_if"
  | .brTable _ _ _ _ => "br_table"
  | .nop => "nop"
  | .unreachable => "unreachable"

/-- instructions that write linear memory from a register -/
def isStore : Instr → Bool | .store _ _ _ _ => true | _ => false
/-- instructions that read linear memory into a register -/
def isLoad : Instr → Bool | .load _ _ _ _ => true | _ => false
/-- calls -/
def isCall : Instr → Bool | .call _ _ _ | .callIndirect _ _ _ _ _ | .callWasi _ _ _ => true | _ => false
/-- branches -/
def isBranch : Instr → Bool | .br _ _ _ _ | .brIf _ _ _ _ _ | .brTable _ _ _ _ => true | _ => false

end Verif.Spec
