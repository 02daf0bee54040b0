import Verif.Model.Handlers
/-
Model of src/execution/stats.rs and src/execution/trace.rs, and of the use `Runtime` makes of them.
-/
namespace Verif.Model

/-- stats.rs:34-281 `get_instruction_name` -/
def statsName : Nat → String
  | Idx.unreachable_ => "unreachable"
  | Idx.nop_ => "nop"
  | Idx.block_ => "block"
  | Idx.loop_ => "loop"
  | Idx.if_ => "if"
  | Idx.else_ => "else"
  | Idx.end_ => "end"
  | Idx.br_ => "br"
  | Idx.br_if_ => "br_if"
  | Idx.br_table_ => "br_table"
  | Idx.return_ => "return"
  | Idx.call_ => "call"
  | Idx.call_indirect_ => "call_indirect"
  | Idx.select_i32_ => "select"
  | Idx.select_i64_ => "select"
  | Idx.select_f32_ => "select"
  | Idx.select_f64_ => "select"
  | Idx.local_get_ => "local.get"
  | Idx.local_set_ => "local.set"
  | Idx.local_tee_ => "local.tee"
  | Idx.global_get_i32_ => "global.get"
  | Idx.global_get_i64_ => "global.get"
  | Idx.global_get_f32_ => "global.get"
  | Idx.global_get_f64_ => "global.get"
  | Idx.global_set_i32_ => "global.set"
  | Idx.global_set_i64_ => "global.set"
  | Idx.global_set_f32_ => "global.set"
  | Idx.global_set_f64_ => "global.set"
  | Idx.i32_load_ => "i32.load"
  | Idx.i64_load_ => "i64.load"
  | Idx.f32_load_ => "f32.load"
  | Idx.f64_load_ => "f64.load"
  | Idx.i32_load8_s_ => "i32.load8_s"
  | Idx.i32_load8_u_ => "i32.load8_u"
  | Idx.i32_load16_s_ => "i32.load16_s"
  | Idx.i32_load16_u_ => "i32.load16_u"
  | Idx.i64_load8_s_ => "i64.load8_s"
  | Idx.i64_load8_u_ => "i64.load8_u"
  | Idx.i64_load16_s_ => "i64.load16_s"
  | Idx.i64_load16_u_ => "i64.load16_u"
  | Idx.i64_load32_s_ => "i64.load32_s"
  | Idx.i64_load32_u_ => "i64.load32_u"
  | Idx.i32_store_ => "i32.store"
  | Idx.i64_store_ => "i64.store"
  | Idx.f32_store_ => "f32.store"
  | Idx.f64_store_ => "f64.store"
  | Idx.i32_store8_ => "i32.store8"
  | Idx.i32_store16_ => "i32.store16"
  | Idx.i64_store8_ => "i64.store8"
  | Idx.i64_store16_ => "i64.store16"
  | Idx.i64_store32_ => "i64.store32"
  | Idx.memory_size_ => "memory.size"
  | Idx.memory_grow_ => "memory.grow"
  | Idx.memory_copy_ => "memory.copy"
  | Idx.memory_init_ => "memory.init"
  | Idx.memory_fill_ => "memory.fill"
  | Idx.i32_const_ => "i32.const"
  | Idx.i64_const_ => "i64.const"
  | Idx.f32_const_ => "f32.const"
  | Idx.f64_const_ => "f64.const"
  | Idx.i32_eqz_ => "i32.eqz"
  | Idx.i32_eq_ => "i32.eq"
  | Idx.i32_ne_ => "i32.ne"
  | Idx.i32_lt_s_ => "i32.lt_s"
  | Idx.i32_lt_u_ => "i32.lt_u"
  | Idx.i32_gt_s_ => "i32.gt_s"
  | Idx.i32_gt_u_ => "i32.gt_u"
  | Idx.i32_le_s_ => "i32.le_s"
  | Idx.i32_le_u_ => "i32.le_u"
  | Idx.i32_ge_s_ => "i32.ge_s"
  | Idx.i32_ge_u_ => "i32.ge_u"
  | Idx.i32_clz_ => "i32.clz"
  | Idx.i32_ctz_ => "i32.ctz"
  | Idx.i32_popcnt_ => "i32.popcnt"
  | Idx.i32_add_ => "i32.add"
  | Idx.i32_sub_ => "i32.sub"
  | Idx.i32_mul_ => "i32.mul"
  | Idx.i32_div_s_ => "i32.div_s"
  | Idx.i32_div_u_ => "i32.div_u"
  | Idx.i32_rem_s_ => "i32.rem_s"
  | Idx.i32_rem_u_ => "i32.rem_u"
  | Idx.i32_and_ => "i32.and"
  | Idx.i32_or_ => "i32.or"
  | Idx.i32_xor_ => "i32.xor"
  | Idx.i32_shl_ => "i32.shl"
  | Idx.i32_shr_s_ => "i32.shr_s"
  | Idx.i32_shr_u_ => "i32.shr_u"
  | Idx.i32_rotl_ => "i32.rotl"
  | Idx.i32_rotr_ => "i32.rotr"
  | Idx.i64_eqz_ => "i64.eqz"
  | Idx.i64_eq_ => "i64.eq"
  | Idx.i64_ne_ => "i64.ne"
  | Idx.i64_lt_s_ => "i64.lt_s"
  | Idx.i64_lt_u_ => "i64.lt_u"
  | Idx.i64_gt_s_ => "i64.gt_s"
  | Idx.i64_gt_u_ => "i64.gt_u"
  | Idx.i64_le_s_ => "i64.le_s"
  | Idx.i64_le_u_ => "i64.le_u"
  | Idx.i64_ge_s_ => "i64.ge_s"
  | Idx.i64_ge_u_ => "i64.ge_u"
  | Idx.i64_clz_ => "i64.clz"
  | Idx.i64_ctz_ => "i64.ctz"
  | Idx.i64_popcnt_ => "i64.popcnt"
  | Idx.i64_add_ => "i64.add"
  | Idx.i64_sub_ => "i64.sub"
  | Idx.i64_mul_ => "i64.mul"
  | Idx.i64_div_s_ => "i64.div_s"
  | Idx.i64_div_u_ => "i64.div_u"
  | Idx.i64_rem_s_ => "i64.rem_s"
  | Idx.i64_rem_u_ => "i64.rem_u"
  | Idx.i64_and_ => "i64.and"
  | Idx.i64_or_ => "i64.or"
  | Idx.i64_xor_ => "i64.xor"
  | Idx.i64_shl_ => "i64.shl"
  | Idx.i64_shr_s_ => "i64.shr_s"
  | Idx.i64_shr_u_ => "i64.shr_u"
  | Idx.i64_rotl_ => "i64.rotl"
  | Idx.i64_rotr_ => "i64.rotr"
  | Idx.f32_eq_ => "f32.eq"
  | Idx.f32_ne_ => "f32.ne"
  | Idx.f32_lt_ => "f32.lt"
  | Idx.f32_gt_ => "f32.gt"
  | Idx.f32_le_ => "f32.le"
  | Idx.f32_ge_ => "f32.ge"
  | Idx.f32_abs_ => "f32.abs"
  | Idx.f32_neg_ => "f32.neg"
  | Idx.f32_ceil_ => "f32.ceil"
  | Idx.f32_floor_ => "f32.floor"
  | Idx.f32_trunc_ => "f32.trunc"
  | Idx.f32_nearest_ => "f32.nearest"
  | Idx.f32_sqrt_ => "f32.sqrt"
  | Idx.f32_add_ => "f32.add"
  | Idx.f32_sub_ => "f32.sub"
  | Idx.f32_mul_ => "f32.mul"
  | Idx.f32_div_ => "f32.div"
  | Idx.f32_min_ => "f32.min"
  | Idx.f32_max_ => "f32.max"
  | Idx.f32_copysign_ => "f32.copysign"
  | Idx.f64_eq_ => "f64.eq"
  | Idx.f64_ne_ => "f64.ne"
  | Idx.f64_lt_ => "f64.lt"
  | Idx.f64_gt_ => "f64.gt"
  | Idx.f64_le_ => "f64.le"
  | Idx.f64_ge_ => "f64.ge"
  | Idx.f64_abs_ => "f64.abs"
  | Idx.f64_neg_ => "f64.neg"
  | Idx.f64_ceil_ => "f64.ceil"
  | Idx.f64_floor_ => "f64.floor"
  | Idx.f64_trunc_ => "f64.trunc"
  | Idx.f64_nearest_ => "f64.nearest"
  | Idx.f64_sqrt_ => "f64.sqrt"
  | Idx.f64_add_ => "f64.add"
  | Idx.f64_sub_ => "f64.sub"
  | Idx.f64_mul_ => "f64.mul"
  | Idx.f64_div_ => "f64.div"
  | Idx.f64_min_ => "f64.min"
  | Idx.f64_max_ => "f64.max"
  | Idx.f64_copysign_ => "f64.copysign"
  | Idx.i32_wrap_i64_ => "i32.wrap_i64"
  | Idx.i32_trunc_f32_s_ => "i32.trunc_f32_s"
  | Idx.i32_trunc_f32_u_ => "i32.trunc_f32_u"
  | Idx.i32_trunc_f64_s_ => "i32.trunc_f64_s"
  | Idx.i32_trunc_f64_u_ => "i32.trunc_f64_u"
  | Idx.i64_extend_i32_s_ => "i64.extend_i32_s"
  | Idx.i64_extend_i32_u_ => "i64.extend_i32_u"
  | Idx.i64_trunc_f32_s_ => "i64.trunc_f32_s"
  | Idx.i64_trunc_f32_u_ => "i64.trunc_f32_u"
  | Idx.i64_trunc_f64_s_ => "i64.trunc_f64_s"
  | Idx.i64_trunc_f64_u_ => "i64.trunc_f64_u"
  | Idx.f32_convert_i32_s_ => "f32.convert_i32_s"
  | Idx.f32_convert_i32_u_ => "f32.convert_i32_u"
  | Idx.f32_convert_i64_s_ => "f32.convert_i64_s"
  | Idx.f32_convert_i64_u_ => "f32.convert_i64_u"
  | Idx.f32_demote_f64_ => "f32.demote_f64"
  | Idx.f64_convert_i32_s_ => "f64.convert_i32_s"
  | Idx.f64_convert_i32_u_ => "f64.convert_i32_u"
  | Idx.f64_convert_i64_s_ => "f64.convert_i64_s"
  | Idx.f64_convert_i64_u_ => "f64.convert_i64_u"
  | Idx.f64_promote_f32_ => "f64.promote_f32"
  | Idx.i32_reinterpret_f32_ => "i32.reinterpret_f32"
  | Idx.i64_reinterpret_f64_ => "i64.reinterpret_f64"
  | Idx.f32_reinterpret_i32_ => "f32.reinterpret_i32"
  | Idx.f64_reinterpret_i64_ => "f64.reinterpret_i64"
  | Idx.i32_extend8_s_ => "i32.extend8_s"
  | Idx.i32_extend16_s_ => "i32.extend16_s"
  | Idx.i64_extend8_s_ => "i64.extend8_s"
  | Idx.i64_extend16_s_ => "i64.extend16_s"
  | Idx.i64_extend32_s_ => "i64.extend32_s"
  | Idx.i32_trunc_sat_f32_s_ => "i32.trunc_sat_f32_s"
  | Idx.i32_trunc_sat_f32_u_ => "i32.trunc_sat_f32_u"
  | Idx.i32_trunc_sat_f64_s_ => "i32.trunc_sat_f64_s"
  | Idx.i32_trunc_sat_f64_u_ => "i32.trunc_sat_f64_u"
  | Idx.i64_trunc_sat_f32_s_ => "i64.trunc_sat_f32_s"
  | Idx.i64_trunc_sat_f32_u_ => "i64.trunc_sat_f32_u"
  | Idx.i64_trunc_sat_f64_s_ => "i64.trunc_sat_f64_s"
  | Idx.i64_trunc_sat_f64_u_ => "i64.trunc_sat_f64_u"
  | Idx.ref_null_ => "ref.null"
  | Idx.ref_is_null_ => "ref.is_null"
  | Idx.table_get_ => "table.get"
  | Idx.table_set_ => "table.set"
  | Idx.table_fill_ => "table.fill"
  | Idx.ref_local_get_ => "local.get"
  | Idx.ref_local_set_ => "local.set"
  | Idx.call_wasi_ => "call_wasi"
  | h =>
    if (0x06 ≤ h ∧ h ≤ 0x0A) ∨ (0x12 ≤ h ∧ h ≤ 0x19) ∨ (0x1D ≤ h ∧ h ≤ 0x1F) ∨ (0x25 ≤ h ∧ h ≤ 0x27) ∨ (0xD2 ≤ h ∧ h ≤ 0xDF) ∨
      (0xE3 ≤ h ∧ h ≤ 0xEF) then "reserved" else "invalid_handler"

/-- trace.rs:307-547 `get_instruction_name` -/
def traceName : Nat → String
  | Idx.unreachable_ => "unreachable"
  | Idx.nop_ => "nop"
  | Idx.block_ => "block"
  | Idx.loop_ => "loop"
  | Idx.if_ => "if"
  | Idx.else_ => "else"
  | Idx.end_ => "end"
  | Idx.br_ => "br"
  | Idx.br_if_ => "br_if"
  | Idx.br_table_ => "br_table"
  | Idx.return_ => "return"
  | Idx.call_ => "call"
  | Idx.call_indirect_ => "call_indirect"
  | Idx.select_i32_ => "select"
  | Idx.select_i64_ => "select"
  | Idx.select_f32_ => "select"
  | Idx.select_f64_ => "select"
  | Idx.local_get_ => "local.get"
  | Idx.local_set_ => "local.set"
  | Idx.local_tee_ => "local.tee"
  | Idx.global_get_i32_ => "global.get"
  | Idx.global_get_i64_ => "global.get"
  | Idx.global_get_f32_ => "global.get"
  | Idx.global_get_f64_ => "global.get"
  | Idx.global_set_i32_ => "global.set"
  | Idx.global_set_i64_ => "global.set"
  | Idx.global_set_f32_ => "global.set"
  | Idx.global_set_f64_ => "global.set"
  | Idx.i32_load_ => "i32.load"
  | Idx.i64_load_ => "i64.load"
  | Idx.f32_load_ => "f32.load"
  | Idx.f64_load_ => "f64.load"
  | Idx.i32_load8_s_ => "i32.load8_s"
  | Idx.i32_load8_u_ => "i32.load8_u"
  | Idx.i32_load16_s_ => "i32.load16_s"
  | Idx.i32_load16_u_ => "i32.load16_u"
  | Idx.i64_load8_s_ => "i64.load8_s"
  | Idx.i64_load8_u_ => "i64.load8_u"
  | Idx.i64_load16_s_ => "i64.load16_s"
  | Idx.i64_load16_u_ => "i64.load16_u"
  | Idx.i64_load32_s_ => "i64.load32_s"
  | Idx.i64_load32_u_ => "i64.load32_u"
  | Idx.i32_store_ => "i32.store"
  | Idx.i64_store_ => "i64.store"
  | Idx.f32_store_ => "f32.store"
  | Idx.f64_store_ => "f64.store"
  | Idx.i32_store8_ => "i32.store8"
  | Idx.i32_store16_ => "i32.store16"
  | Idx.i64_store8_ => "i64.store8"
  | Idx.i64_store16_ => "i64.store16"
  | Idx.i64_store32_ => "i64.store32"
  | Idx.memory_size_ => "memory.size"
  | Idx.memory_grow_ => "memory.grow"
  | Idx.memory_copy_ => "memory.copy"
  | Idx.memory_init_ => "memory.init"
  | Idx.memory_fill_ => "memory.fill"
  | Idx.i32_const_ => "i32.const"
  | Idx.i64_const_ => "i64.const"
  | Idx.f32_const_ => "f32.const"
  | Idx.f64_const_ => "f64.const"
  | Idx.i32_eqz_ => "i32.eqz"
  | Idx.i32_eq_ => "i32.eq"
  | Idx.i32_ne_ => "i32.ne"
  | Idx.i32_lt_s_ => "i32.lt_s"
  | Idx.i32_lt_u_ => "i32.lt_u"
  | Idx.i32_gt_s_ => "i32.gt_s"
  | Idx.i32_gt_u_ => "i32.gt_u"
  | Idx.i32_le_s_ => "i32.le_s"
  | Idx.i32_le_u_ => "i32.le_u"
  | Idx.i32_ge_s_ => "i32.ge_s"
  | Idx.i32_ge_u_ => "i32.ge_u"
  | Idx.i32_clz_ => "i32.clz"
  | Idx.i32_ctz_ => "i32.ctz"
  | Idx.i32_popcnt_ => "i32.popcnt"
  | Idx.i32_add_ => "i32.add"
  | Idx.i32_sub_ => "i32.sub"
  | Idx.i32_mul_ => "i32.mul"
  | Idx.i32_div_s_ => "i32.div_s"
  | Idx.i32_div_u_ => "i32.div_u"
  | Idx.i32_rem_s_ => "i32.rem_s"
  | Idx.i32_rem_u_ => "i32.rem_u"
  | Idx.i32_and_ => "i32.and"
  | Idx.i32_or_ => "i32.or"
  | Idx.i32_xor_ => "i32.xor"
  | Idx.i32_shl_ => "i32.shl"
  | Idx.i32_shr_s_ => "i32.shr_s"
  | Idx.i32_shr_u_ => "i32.shr_u"
  | Idx.i32_rotl_ => "i32.rotl"
  | Idx.i32_rotr_ => "i32.rotr"
  | Idx.i64_eqz_ => "i64.eqz"
  | Idx.i64_eq_ => "i64.eq"
  | Idx.i64_ne_ => "i64.ne"
  | Idx.i64_lt_s_ => "i64.lt_s"
  | Idx.i64_lt_u_ => "i64.lt_u"
  | Idx.i64_gt_s_ => "i64.gt_s"
  | Idx.i64_gt_u_ => "i64.gt_u"
  | Idx.i64_le_s_ => "i64.le_s"
  | Idx.i64_le_u_ => "i64.le_u"
  | Idx.i64_ge_s_ => "i64.ge_s"
  | Idx.i64_ge_u_ => "i64.ge_u"
  | Idx.i64_clz_ => "i64.clz"
  | Idx.i64_ctz_ => "i64.ctz"
  | Idx.i64_popcnt_ => "i64.popcnt"
  | Idx.i64_add_ => "i64.add"
  | Idx.i64_sub_ => "i64.sub"
  | Idx.i64_mul_ => "i64.mul"
  | Idx.i64_div_s_ => "i64.div_s"
  | Idx.i64_div_u_ => "i64.div_u"
  | Idx.i64_rem_s_ => "i64.rem_s"
  | Idx.i64_rem_u_ => "i64.rem_u"
  | Idx.i64_and_ => "i64.and"
  | Idx.i64_or_ => "i64.or"
  | Idx.i64_xor_ => "i64.xor"
  | Idx.i64_shl_ => "i64.shl"
  | Idx.i64_shr_s_ => "i64.shr_s"
  | Idx.i64_shr_u_ => "i64.shr_u"
  | Idx.i64_rotl_ => "i64.rotl"
  | Idx.i64_rotr_ => "i64.rotr"
  | Idx.f32_eq_ => "f32.eq"
  | Idx.f32_ne_ => "f32.ne"
  | Idx.f32_lt_ => "f32.lt"
  | Idx.f32_gt_ => "f32.gt"
  | Idx.f32_le_ => "f32.le"
  | Idx.f32_ge_ => "f32.ge"
  | Idx.f32_abs_ => "f32.abs"
  | Idx.f32_neg_ => "f32.neg"
  | Idx.f32_ceil_ => "f32.ceil"
  | Idx.f32_floor_ => "f32.floor"
  | Idx.f32_trunc_ => "f32.trunc"
  | Idx.f32_nearest_ => "f32.nearest"
  | Idx.f32_sqrt_ => "f32.sqrt"
  | Idx.f32_add_ => "f32.add"
  | Idx.f32_sub_ => "f32.sub"
  | Idx.f32_mul_ => "f32.mul"
  | Idx.f32_div_ => "f32.div"
  | Idx.f32_min_ => "f32.min"
  | Idx.f32_max_ => "f32.max"
  | Idx.f32_copysign_ => "f32.copysign"
  | Idx.f64_eq_ => "f64.eq"
  | Idx.f64_ne_ => "f64.ne"
  | Idx.f64_lt_ => "f64.lt"
  | Idx.f64_gt_ => "f64.gt"
  | Idx.f64_le_ => "f64.le"
  | Idx.f64_ge_ => "f64.ge"
  | Idx.f64_abs_ => "f64.abs"
  | Idx.f64_neg_ => "f64.neg"
  | Idx.f64_ceil_ => "f64.ceil"
  | Idx.f64_floor_ => "f64.floor"
  | Idx.f64_trunc_ => "f64.trunc"
  | Idx.f64_nearest_ => "f64.nearest"
  | Idx.f64_sqrt_ => "f64.sqrt"
  | Idx.f64_add_ => "f64.add"
  | Idx.f64_sub_ => "f64.sub"
  | Idx.f64_mul_ => "f64.mul"
  | Idx.f64_div_ => "f64.div"
  | Idx.f64_min_ => "f64.min"
  | Idx.f64_max_ => "f64.max"
  | Idx.f64_copysign_ => "f64.copysign"
  | Idx.i32_wrap_i64_ => "i32.wrap_i64"
  | Idx.i32_trunc_f32_s_ => "i32.trunc_f32_s"
  | Idx.i32_trunc_f32_u_ => "i32.trunc_f32_u"
  | Idx.i32_trunc_f64_s_ => "i32.trunc_f64_s"
  | Idx.i32_trunc_f64_u_ => "i32.trunc_f64_u"
  | Idx.i64_extend_i32_s_ => "i64.extend_i32_s"
  | Idx.i64_extend_i32_u_ => "i64.extend_i32_u"
  | Idx.i64_trunc_f32_s_ => "i64.trunc_f32_s"
  | Idx.i64_trunc_f32_u_ => "i64.trunc_f32_u"
  | Idx.i64_trunc_f64_s_ => "i64.trunc_f64_s"
  | Idx.i64_trunc_f64_u_ => "i64.trunc_f64_u"
  | Idx.f32_convert_i32_s_ => "f32.convert_i32_s"
  | Idx.f32_convert_i32_u_ => "f32.convert_i32_u"
  | Idx.f32_convert_i64_s_ => "f32.convert_i64_s"
  | Idx.f32_convert_i64_u_ => "f32.convert_i64_u"
  | Idx.f32_demote_f64_ => "f32.demote_f64"
  | Idx.f64_convert_i32_s_ => "f64.convert_i32_s"
  | Idx.f64_convert_i32_u_ => "f64.convert_i32_u"
  | Idx.f64_convert_i64_s_ => "f64.convert_i64_s"
  | Idx.f64_convert_i64_u_ => "f64.convert_i64_u"
  | Idx.f64_promote_f32_ => "f64.promote_f32"
  | Idx.i32_reinterpret_f32_ => "i32.reinterpret_f32"
  | Idx.i64_reinterpret_f64_ => "i64.reinterpret_f64"
  | Idx.f32_reinterpret_i32_ => "f32.reinterpret_i32"
  | Idx.f64_reinterpret_i64_ => "f64.reinterpret_i64"
  | Idx.i32_extend8_s_ => "i32.extend8_s"
  | Idx.i32_extend16_s_ => "i32.extend16_s"
  | Idx.i64_extend8_s_ => "i64.extend8_s"
  | Idx.i64_extend16_s_ => "i64.extend16_s"
  | Idx.i64_extend32_s_ => "i64.extend32_s"
  | Idx.i32_trunc_sat_f32_s_ => "i32.trunc_sat_f32_s"
  | Idx.i32_trunc_sat_f32_u_ => "i32.trunc_sat_f32_u"
  | Idx.i32_trunc_sat_f64_s_ => "i32.trunc_sat_f64_s"
  | Idx.i32_trunc_sat_f64_u_ => "i32.trunc_sat_f64_u"
  | Idx.i64_trunc_sat_f32_s_ => "i64.trunc_sat_f32_s"
  | Idx.i64_trunc_sat_f32_u_ => "i64.trunc_sat_f32_u"
  | Idx.i64_trunc_sat_f64_s_ => "i64.trunc_sat_f64_s"
  | Idx.i64_trunc_sat_f64_u_ => "i64.trunc_sat_f64_u"
  | Idx.ref_null_ => "ref.null"
  | Idx.ref_is_null_ => "ref.is_null"
  | Idx.table_get_ => "table.get"
  | Idx.table_set_ => "table.set"
  | Idx.table_fill_ => "table.fill"
  | Idx.ref_local_get_ => "local.get"
  | Idx.ref_local_set_ => "local.set"
  | Idx.call_wasi_ => "call_wasi"
  | _ => "unknown"

/-- stats.rs:9-13 `ExecutionStats`; the hash map is an association list in the order of first insertion (its iteration order
is a parameter of `report`) -/
structure Stats where
  total : Nat
  per : List (Nat × Nat)

/-- stats.rs:17-22 -/
def Stats.new : Stats := { total := 0, per := [] }

/-- `entry(h).or_insert(0).fetch_add(1)`: the counter of `h` wraps at 64 bits (stats.rs:27-30) -/
def bump (h : Nat) : List (Nat × Nat) → List (Nat × Nat)
  | [] => [(h, 1)]
  | (k, n) :: m => if k = h then (k, (n + 1) % 2 ^ 64) :: m else (k, n) :: bump h m

/-- stats.rs:25-31 `record_instruction` -/
def Stats.record (s : Stats) (h : Nat) : Stats := { total := (s.total + 1) % 2 ^ 64, per := bump h s.per }

/-- what `report` prints (stats.rs:278-322): the total, a line with name and count for each of the top instructions, and how
many more there are.  The text, with the percentages, is `StatsReport.lines` (Model/StatsText.lean). -/
structure StatsReport where
  total : Nat
  top : List (String × Nat)
  more : Nat
  deriving DecidableEq, Repr

/-- stats.rs:278-322 `report`; `counts` is the map in the iteration order of the hash map; `sort_by` is stable -/
def Stats.report (s : Stats) (counts : List (Nat × Nat)) : StatsReport :=
  if s.total = 0 then { total := 0, top := [], more := 0 }
  else
    let sorted := counts.mergeSort fun a b => decide (b.2 ≤ a.2)
    let n := min 20 sorted.length
    { total := s.total, top := (sorted.take n).map fun c => (statsName c.1, c.2), more := sorted.length - n }

/-- What a run prints when its `Runtime` is dropped (runtime.rs:36-45): the report of the collector created by `new` or
`new_restored` (runtime.rs:76-80, 114-118).  `executed` are the handler indices of the instructions that were run: no
dispatcher passes them to `record_instruction`, which has no caller. -/
def runStats (enabled : Bool) (_executed : List Nat) : Option StatsReport :=
  if enabled then some (Stats.new.report Stats.new.per) else none

/-- trace.rs:13-19 `TraceEvent` -/
inductive TraceEvent | all | store | load | call | branch
  deriving DecidableEq, Repr

/-- trace.rs:22-33 `TraceEvent::from_str`.  Rust's `to_lowercase` and Lean's `toLower` differ outside ASCII, but no other
character is lower-cased to a letter of these names. -/
def TraceEvent.fromStr (s : String) : Option TraceEvent :=
  if s.toLower = "all" then some .all
  else if s.toLower = "store" then some .store
  else if s.toLower = "load" then some .load
  else if s.toLower = "call" then some .call
  else if s.toLower = "branch" then some .branch
  else none

/-- trace.rs:36-43 `TraceResource` -/
inductive TraceResource | pc | regs | memory | locals | globals
  deriving DecidableEq, Repr

/-- trace.rs:46-57 `TraceResource::from_str` -/
def TraceResource.fromStr (s : String) : Option TraceResource :=
  if s.toLower = "pc" then some .pc
  else if s.toLower = "regs" then some .regs
  else if s.toLower = "memory" then some .memory
  else if s.toLower = "locals" then some .locals
  else if s.toLower = "globals" then some .globals
  else none

/-- trace.rs:61-66 `TraceConfig` (without the output path) -/
structure TraceConfig where
  events : List TraceEvent
  resources : List TraceResource

/-- trace.rs:69-103 `TraceConfig::new` -/
def TraceConfig.new (events resources : Option (List String)) : TraceConfig :=
  { events := match events with
      | some es => es.filterMap TraceEvent.fromStr
      | none => [.all]
    resources := match resources with
      | some rs => rs.filterMap TraceResource.fromStr
      | none => [.pc, .regs, .locals, .globals] }

/-- the test of one event (trace.rs:113-139) -/
def TraceEvent.hits (h : Nat) : TraceEvent → Bool
  | .store => decide (Idx.i32_store_ ≤ h ∧ h ≤ Idx.i64_store32_)
  | .load => decide (Idx.i32_load_ ≤ h ∧ h ≤ Idx.i64_load32_u_)
  | .call => h == Idx.call_ || h == Idx.call_indirect_
  | .branch => h == Idx.br_ || h == Idx.br_if_ || h == Idx.br_table_
  | .all => true

/-- trace.rs:106-144 `should_trace_event` -/
def TraceConfig.shouldTrace (c : TraceConfig) (h : Nat) : Bool :=
  c.events.contains .all || c.events.any (·.hits h)

/-- one line of the trace (trace.rs:165-211 `trace_instruction`): the fields that are printed, before formatting; `R`, `L`
and `G` stand for the registers, locals and globals -/
structure TraceLine (R L G : Type) where
  pc : Option Nat
  instr : String
  regs : Option R
  locals : Option L
  globals : Option G

/-- trace.rs:165-211 `trace_instruction` -/
def TraceConfig.line {R L G : Type} (c : TraceConfig) (ip h : Nat) (rf : R) (locals : L) (globals : G) : Option (TraceLine R L G) :=
  if c.shouldTrace h then
    some { pc := if c.resources.contains .pc then some ip else none
           instr := traceName h
           regs := if c.resources.contains .regs then some rf else none
           locals := if c.resources.contains .locals then some locals else none
           globals := if c.resources.contains .globals then some globals else none }
  else none

/-- The trace of a run (runtime.rs:60-72, 98-110): a tracer is created, but no dispatcher calls `trace_instruction`.
`executed` are the instructions that were run: where they stand and their handler indices. -/
def runTrace {R L G : Type} (_c : Option TraceConfig) (_executed : List (Nat × Nat)) : List (TraceLine R L G) := []

end Verif.Model
