import Verif.Lemmas.Handlers
import Verif.Model.Stats
/-
C58: every instruction of a compiled function is run by the handler written for its operator.
-/
namespace Verif.Props
open Verif.Model Verif.Spec Verif.Lemmas

/-- C58.  Whatever the preprocessor builds for an operation, `select_handler` picks the handler that performs exactly this
operation on the fields of the instruction: never `invalid`, never a handler written for another variant (which would be
`unreachable_unchecked`), never an unchecked unwrap of a missing second operand. -/
theorem handler_is_its_own {k : Copy} {i : Instr} {r : Raw} (h : emitted k i = some r) :
    (selectHandler r).body.exec r = some i := handler_runs h

/-- C58.  In every function the preprocessor accepts, from any sequence of WebAssembly operators, every instruction is
something an arm of the preprocessor builds, and the handler selected for it performs the instruction's operation. -/
theorem compiled_handlers {K : FnCtx} {ops : List WOp} {f : Code} (h : compileFn K ops = some f)
    (ho : ∀ o ∈ ops, isOperator o = true) {n : Nat} {i : Instr} (hi : f.body[n]? = some i) :
    ∃ k r, emitted k i = some r ∧ selectHandler r ≠ .invalid ∧ (selectHandler r).body.exec r = some i := by
  obtain ⟨k, r, hr⟩ := compiled_encodable h ho i (List.mem_of_getElem? hi)
  have hx := handler_runs hr
  refine ⟨k, r, hr, fun he => ?_, hx⟩
  rw [he] at hx
  cases hx

namespace HandlersEx
/-- `local.get 0; i32.const 7; i32.add; i64.extend_i32_s; local.get 1; i64.lt_u; if; nop; end; end` -/
def ops : List WOp := [.localGet 0, .const .i32 (7 : BitVec 32), .bin (.int .s32 .add), .un .extS, .localGet 1,
  .bin (.rel .s64 .ltU), .ite .empty, .nop, .fin, .fin]
/-- a function of two parameters -/
def K : FnCtx := { M := { types := [], globals := [], funcs := [] }, params := [.i32, .i64], locals := [], results := [] }
/-- the handlers of its instructions -/
def handlers : Option (List Handler) :=
  (compileFn K ops).map fun f => f.body.filterMap fun i => (emitted .get i).map selectHandler

example : handlers = some [.i32_add, .conv_i64_extend_i32_s, .i64_lt_u, .ite, .fin, .fin] := by decide +kernel
example : ∀ o ∈ ops, isOperator o = true := by decide +kernel
end HandlersEx

/-- C58.  The passes that resolve branch targets recognise block and if, loop, end and br_table by the handler index
(parser.rs:1307-1331, 1467-1482): exactly the instructions meant have these indices. -/
theorem control_index {k : Copy} {i : Instr} {r : Raw} (h : emitted k i = some r) :
    ((r.handlerIndex = Idx.block_ ∨ r.handlerIndex = Idx.if_) ↔ (i = .block false ∨ ∃ c e x, i = .ite c e x)) ∧
    (r.handlerIndex = Idx.loop_ ↔ i = .block true) ∧
    (r.handlerIndex = Idx.end_ ↔ ∃ s d, i = .fin s d) ∧
    (r.handlerIndex = Idx.br_table_ ↔ ∃ ts d x s, i = .brTable ts d x s) := by
  revert h
  cases i
  case op1 op d a =>
    cases op
    case mov c => cases c <;> cases k <;> intro h <;> first | (cases h; (simp [Raw.handlerIndex] <;> decide)) | cases h
    case int s o => cases s <;> cases o <;> intro h <;> first | (cases h; (simp [Raw.handlerIndex] <;> decide)) | cases h
    case eqz s => cases s <;> intro h <;> (cases h; (simp [Raw.handlerIndex] <;> decide))
    case abs s => cases s <;> intro h <;> (cases h; (simp [Raw.handlerIndex] <;> decide))
    case neg s => cases s <;> intro h <;> (cases h; (simp [Raw.handlerIndex] <;> decide))
    case round s o => cases s <;> cases o <;> intro h <;> (cases h; (simp [Raw.handlerIndex] <;> decide))
    case trunc o => cases o <;> cases a <;> intro h <;> first | (cases h; (simp [Raw.handlerIndex] <;> decide)) | cases h
    case truncSat o => cases o <;> cases a <;> intro h <;> first | (cases h; (simp [Raw.handlerIndex] <;> decide)) | cases h
    case convert x y z => cases x <;> cases y <;> cases z <;> cases a <;> intro h <;> first | (cases h; (simp [Raw.handlerIndex] <;> decide)) | cases h
    case reinterpIF s => cases s <;> cases a <;> intro h <;> first | (cases h; (simp [Raw.handlerIndex] <;> decide)) | cases h
    case reinterpFI s => cases s <;> cases a <;> intro h <;> first | (cases h; (simp [Raw.handlerIndex] <;> decide)) | cases h
    all_goals cases a <;> intro h <;> first | (cases h; (simp [Raw.handlerIndex] <;> decide)) | cases h
  case op2 op d a b =>
    cases op
    case int s o => cases s <;> cases o <;> intro h <;> (cases h; (simp [emitBin, Raw.handlerIndex] <;> decide))
    case rel s o => cases s <;> cases o <;> intro h <;> (cases h; (simp [emitBin, Raw.handlerIndex] <;> decide))
    case arith s o => cases s <;> cases o <;> intro h <;> (cases h; (simp [emitBin, Raw.handlerIndex] <;> decide))
    case frel s o => cases s <;> cases o <;> intro h <;> (cases h; (simp [emitBin, Raw.handlerIndex] <;> decide))
    all_goals rename_i s; cases s <;> intro h <;> (cases h; (simp [emitBin, Raw.handlerIndex] <;> decide))
  case load op d a off => intro h; cases h; cases op <;> (simp [loadIdx, Raw.handlerIndex] <;> decide)
  case store op a v off => intro h; cases h; cases op <;> (simp [storeIdx, Raw.handlerIndex] <;> decide)
  case select c d v1 v2 x => cases c <;> intro h <;> first | (cases h; (simp [Raw.handlerIndex] <;> decide)) | cases h
  case globalGet c d g => cases c <;> intro h <;> first | (cases h; (simp [Raw.handlerIndex] <;> decide)) | cases h
  case globalSet c d g => cases c <;> intro h <;> first | (cases h; (simp [Raw.handlerIndex] <;> decide)) | cases h
  case block l => intro h; cases h; cases l <;> (simp [Raw.handlerIndex] <;> decide)
  all_goals intro h; cases h; (simp [Raw.handlerIndex] <;> decide)

example : ∃ r, emitted .get (.block true) = some r ∧ r.handlerIndex = Idx.loop_ := ⟨_, rfl, rfl⟩

end Verif.Props
