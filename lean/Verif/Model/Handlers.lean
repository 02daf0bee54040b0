import Verif.Model.IR
/-
Which handler runs an instruction: the handler indices (handlers.rs:36-290), `ProcessedInstr` with its `handler_index`
fields (ir.rs:107-243), `handler_index()` (ir.rs:250-281), `select_handler` (handlers.rs:2094-2344), what each handler does
with the fields of the instruction it finds, and which `ProcessedInstr` the preprocessor builds (parser.rs:1939-7180).
`Model/IR.lean` folds these steps into one constructor per operation; the theorems of `Props/Handlers.lean` justify that.
-/
namespace Verif.Model
open Verif.Spec (IBinOp IRelOp IUnOp FRelOp TruncOp LoadOp StoreOp)
namespace Idx

/-- handlers.rs:45 -/
@[match_pattern] abbrev unreachable_ : Nat := 0x00
/-- handlers.rs:46 -/
@[match_pattern] abbrev nop_ : Nat := 0x01
/-- handlers.rs:47 -/
@[match_pattern] abbrev block_ : Nat := 0x02
/-- handlers.rs:48 -/
@[match_pattern] abbrev loop_ : Nat := 0x03
/-- handlers.rs:49 -/
@[match_pattern] abbrev if_ : Nat := 0x04
/-- handlers.rs:50 -/
@[match_pattern] abbrev else_ : Nat := 0x05
/-- handlers.rs:51 -/
@[match_pattern] abbrev end_ : Nat := 0x0B
/-- handlers.rs:52 -/
@[match_pattern] abbrev br_ : Nat := 0x0C
/-- handlers.rs:53 -/
@[match_pattern] abbrev br_if_ : Nat := 0x0D
/-- handlers.rs:54 -/
@[match_pattern] abbrev br_table_ : Nat := 0x0E
/-- handlers.rs:55 -/
@[match_pattern] abbrev return_ : Nat := 0x0F
/-- handlers.rs:56 -/
@[match_pattern] abbrev call_ : Nat := 0x10
/-- handlers.rs:57 -/
@[match_pattern] abbrev call_indirect_ : Nat := 0x11
/-- handlers.rs:60 -/
@[match_pattern] abbrev local_get_ : Nat := 0x20
/-- handlers.rs:61 -/
@[match_pattern] abbrev local_set_ : Nat := 0x21
/-- handlers.rs:64 -/
@[match_pattern] abbrev local_tee_ : Nat := 0x22
/-- handlers.rs:67 -/
@[match_pattern] abbrev i32_load_ : Nat := 0x28
/-- handlers.rs:68 -/
@[match_pattern] abbrev i64_load_ : Nat := 0x29
/-- handlers.rs:69 -/
@[match_pattern] abbrev f32_load_ : Nat := 0x2A
/-- handlers.rs:70 -/
@[match_pattern] abbrev f64_load_ : Nat := 0x2B
/-- handlers.rs:71 -/
@[match_pattern] abbrev i32_load8_s_ : Nat := 0x2C
/-- handlers.rs:72 -/
@[match_pattern] abbrev i32_load8_u_ : Nat := 0x2D
/-- handlers.rs:73 -/
@[match_pattern] abbrev i32_load16_s_ : Nat := 0x2E
/-- handlers.rs:74 -/
@[match_pattern] abbrev i32_load16_u_ : Nat := 0x2F
/-- handlers.rs:75 -/
@[match_pattern] abbrev i64_load8_s_ : Nat := 0x30
/-- handlers.rs:76 -/
@[match_pattern] abbrev i64_load8_u_ : Nat := 0x31
/-- handlers.rs:77 -/
@[match_pattern] abbrev i64_load16_s_ : Nat := 0x32
/-- handlers.rs:78 -/
@[match_pattern] abbrev i64_load16_u_ : Nat := 0x33
/-- handlers.rs:79 -/
@[match_pattern] abbrev i64_load32_s_ : Nat := 0x34
/-- handlers.rs:80 -/
@[match_pattern] abbrev i64_load32_u_ : Nat := 0x35
/-- handlers.rs:81 -/
@[match_pattern] abbrev i32_store_ : Nat := 0x36
/-- handlers.rs:82 -/
@[match_pattern] abbrev i64_store_ : Nat := 0x37
/-- handlers.rs:83 -/
@[match_pattern] abbrev f32_store_ : Nat := 0x38
/-- handlers.rs:84 -/
@[match_pattern] abbrev f64_store_ : Nat := 0x39
/-- handlers.rs:85 -/
@[match_pattern] abbrev i32_store8_ : Nat := 0x3A
/-- handlers.rs:86 -/
@[match_pattern] abbrev i32_store16_ : Nat := 0x3B
/-- handlers.rs:87 -/
@[match_pattern] abbrev i64_store8_ : Nat := 0x3C
/-- handlers.rs:88 -/
@[match_pattern] abbrev i64_store16_ : Nat := 0x3D
/-- handlers.rs:89 -/
@[match_pattern] abbrev i64_store32_ : Nat := 0x3E
/-- handlers.rs:90 -/
@[match_pattern] abbrev memory_size_ : Nat := 0x3F
/-- handlers.rs:91 -/
@[match_pattern] abbrev memory_grow_ : Nat := 0x40
/-- handlers.rs:94 -/
@[match_pattern] abbrev i32_const_ : Nat := 0x41
/-- handlers.rs:95 -/
@[match_pattern] abbrev i64_const_ : Nat := 0x42
/-- handlers.rs:96 -/
@[match_pattern] abbrev f32_const_ : Nat := 0x43
/-- handlers.rs:97 -/
@[match_pattern] abbrev f64_const_ : Nat := 0x44
/-- handlers.rs:100 -/
@[match_pattern] abbrev i32_eqz_ : Nat := 0x45
/-- handlers.rs:101 -/
@[match_pattern] abbrev i32_eq_ : Nat := 0x46
/-- handlers.rs:102 -/
@[match_pattern] abbrev i32_ne_ : Nat := 0x47
/-- handlers.rs:103 -/
@[match_pattern] abbrev i32_lt_s_ : Nat := 0x48
/-- handlers.rs:104 -/
@[match_pattern] abbrev i32_lt_u_ : Nat := 0x49
/-- handlers.rs:105 -/
@[match_pattern] abbrev i32_gt_s_ : Nat := 0x4A
/-- handlers.rs:106 -/
@[match_pattern] abbrev i32_gt_u_ : Nat := 0x4B
/-- handlers.rs:107 -/
@[match_pattern] abbrev i32_le_s_ : Nat := 0x4C
/-- handlers.rs:108 -/
@[match_pattern] abbrev i32_le_u_ : Nat := 0x4D
/-- handlers.rs:109 -/
@[match_pattern] abbrev i32_ge_s_ : Nat := 0x4E
/-- handlers.rs:110 -/
@[match_pattern] abbrev i32_ge_u_ : Nat := 0x4F
/-- handlers.rs:113 -/
@[match_pattern] abbrev i64_eqz_ : Nat := 0x50
/-- handlers.rs:114 -/
@[match_pattern] abbrev i64_eq_ : Nat := 0x51
/-- handlers.rs:115 -/
@[match_pattern] abbrev i64_ne_ : Nat := 0x52
/-- handlers.rs:116 -/
@[match_pattern] abbrev i64_lt_s_ : Nat := 0x53
/-- handlers.rs:117 -/
@[match_pattern] abbrev i64_lt_u_ : Nat := 0x54
/-- handlers.rs:118 -/
@[match_pattern] abbrev i64_gt_s_ : Nat := 0x55
/-- handlers.rs:119 -/
@[match_pattern] abbrev i64_gt_u_ : Nat := 0x56
/-- handlers.rs:120 -/
@[match_pattern] abbrev i64_le_s_ : Nat := 0x57
/-- handlers.rs:121 -/
@[match_pattern] abbrev i64_le_u_ : Nat := 0x58
/-- handlers.rs:122 -/
@[match_pattern] abbrev i64_ge_s_ : Nat := 0x59
/-- handlers.rs:123 -/
@[match_pattern] abbrev i64_ge_u_ : Nat := 0x5A
/-- handlers.rs:126 -/
@[match_pattern] abbrev f32_eq_ : Nat := 0x5B
/-- handlers.rs:127 -/
@[match_pattern] abbrev f32_ne_ : Nat := 0x5C
/-- handlers.rs:128 -/
@[match_pattern] abbrev f32_lt_ : Nat := 0x5D
/-- handlers.rs:129 -/
@[match_pattern] abbrev f32_gt_ : Nat := 0x5E
/-- handlers.rs:130 -/
@[match_pattern] abbrev f32_le_ : Nat := 0x5F
/-- handlers.rs:131 -/
@[match_pattern] abbrev f32_ge_ : Nat := 0x60
/-- handlers.rs:134 -/
@[match_pattern] abbrev f64_eq_ : Nat := 0x61
/-- handlers.rs:135 -/
@[match_pattern] abbrev f64_ne_ : Nat := 0x62
/-- handlers.rs:136 -/
@[match_pattern] abbrev f64_lt_ : Nat := 0x63
/-- handlers.rs:137 -/
@[match_pattern] abbrev f64_gt_ : Nat := 0x64
/-- handlers.rs:138 -/
@[match_pattern] abbrev f64_le_ : Nat := 0x65
/-- handlers.rs:139 -/
@[match_pattern] abbrev f64_ge_ : Nat := 0x66
/-- handlers.rs:142 -/
@[match_pattern] abbrev i32_clz_ : Nat := 0x67
/-- handlers.rs:143 -/
@[match_pattern] abbrev i32_ctz_ : Nat := 0x68
/-- handlers.rs:144 -/
@[match_pattern] abbrev i32_popcnt_ : Nat := 0x69
/-- handlers.rs:145 -/
@[match_pattern] abbrev i32_add_ : Nat := 0x6A
/-- handlers.rs:146 -/
@[match_pattern] abbrev i32_sub_ : Nat := 0x6B
/-- handlers.rs:147 -/
@[match_pattern] abbrev i32_mul_ : Nat := 0x6C
/-- handlers.rs:148 -/
@[match_pattern] abbrev i32_div_s_ : Nat := 0x6D
/-- handlers.rs:149 -/
@[match_pattern] abbrev i32_div_u_ : Nat := 0x6E
/-- handlers.rs:150 -/
@[match_pattern] abbrev i32_rem_s_ : Nat := 0x6F
/-- handlers.rs:151 -/
@[match_pattern] abbrev i32_rem_u_ : Nat := 0x70
/-- handlers.rs:152 -/
@[match_pattern] abbrev i32_and_ : Nat := 0x71
/-- handlers.rs:153 -/
@[match_pattern] abbrev i32_or_ : Nat := 0x72
/-- handlers.rs:154 -/
@[match_pattern] abbrev i32_xor_ : Nat := 0x73
/-- handlers.rs:155 -/
@[match_pattern] abbrev i32_shl_ : Nat := 0x74
/-- handlers.rs:156 -/
@[match_pattern] abbrev i32_shr_s_ : Nat := 0x75
/-- handlers.rs:157 -/
@[match_pattern] abbrev i32_shr_u_ : Nat := 0x76
/-- handlers.rs:158 -/
@[match_pattern] abbrev i32_rotl_ : Nat := 0x77
/-- handlers.rs:159 -/
@[match_pattern] abbrev i32_rotr_ : Nat := 0x78
/-- handlers.rs:162 -/
@[match_pattern] abbrev i64_clz_ : Nat := 0x79
/-- handlers.rs:163 -/
@[match_pattern] abbrev i64_ctz_ : Nat := 0x7A
/-- handlers.rs:164 -/
@[match_pattern] abbrev i64_popcnt_ : Nat := 0x7B
/-- handlers.rs:165 -/
@[match_pattern] abbrev i64_add_ : Nat := 0x7C
/-- handlers.rs:166 -/
@[match_pattern] abbrev i64_sub_ : Nat := 0x7D
/-- handlers.rs:167 -/
@[match_pattern] abbrev i64_mul_ : Nat := 0x7E
/-- handlers.rs:168 -/
@[match_pattern] abbrev i64_div_s_ : Nat := 0x7F
/-- handlers.rs:169 -/
@[match_pattern] abbrev i64_div_u_ : Nat := 0x80
/-- handlers.rs:170 -/
@[match_pattern] abbrev i64_rem_s_ : Nat := 0x81
/-- handlers.rs:171 -/
@[match_pattern] abbrev i64_rem_u_ : Nat := 0x82
/-- handlers.rs:172 -/
@[match_pattern] abbrev i64_and_ : Nat := 0x83
/-- handlers.rs:173 -/
@[match_pattern] abbrev i64_or_ : Nat := 0x84
/-- handlers.rs:174 -/
@[match_pattern] abbrev i64_xor_ : Nat := 0x85
/-- handlers.rs:175 -/
@[match_pattern] abbrev i64_shl_ : Nat := 0x86
/-- handlers.rs:176 -/
@[match_pattern] abbrev i64_shr_s_ : Nat := 0x87
/-- handlers.rs:177 -/
@[match_pattern] abbrev i64_shr_u_ : Nat := 0x88
/-- handlers.rs:178 -/
@[match_pattern] abbrev i64_rotl_ : Nat := 0x89
/-- handlers.rs:179 -/
@[match_pattern] abbrev i64_rotr_ : Nat := 0x8A
/-- handlers.rs:182 -/
@[match_pattern] abbrev f32_abs_ : Nat := 0x8B
/-- handlers.rs:183 -/
@[match_pattern] abbrev f32_neg_ : Nat := 0x8C
/-- handlers.rs:184 -/
@[match_pattern] abbrev f32_ceil_ : Nat := 0x8D
/-- handlers.rs:185 -/
@[match_pattern] abbrev f32_floor_ : Nat := 0x8E
/-- handlers.rs:186 -/
@[match_pattern] abbrev f32_trunc_ : Nat := 0x8F
/-- handlers.rs:187 -/
@[match_pattern] abbrev f32_nearest_ : Nat := 0x90
/-- handlers.rs:188 -/
@[match_pattern] abbrev f32_sqrt_ : Nat := 0x91
/-- handlers.rs:189 -/
@[match_pattern] abbrev f32_add_ : Nat := 0x92
/-- handlers.rs:190 -/
@[match_pattern] abbrev f32_sub_ : Nat := 0x93
/-- handlers.rs:191 -/
@[match_pattern] abbrev f32_mul_ : Nat := 0x94
/-- handlers.rs:192 -/
@[match_pattern] abbrev f32_div_ : Nat := 0x95
/-- handlers.rs:193 -/
@[match_pattern] abbrev f32_min_ : Nat := 0x96
/-- handlers.rs:194 -/
@[match_pattern] abbrev f32_max_ : Nat := 0x97
/-- handlers.rs:195 -/
@[match_pattern] abbrev f32_copysign_ : Nat := 0x98
/-- handlers.rs:198 -/
@[match_pattern] abbrev f64_abs_ : Nat := 0x99
/-- handlers.rs:199 -/
@[match_pattern] abbrev f64_neg_ : Nat := 0x9A
/-- handlers.rs:200 -/
@[match_pattern] abbrev f64_ceil_ : Nat := 0x9B
/-- handlers.rs:201 -/
@[match_pattern] abbrev f64_floor_ : Nat := 0x9C
/-- handlers.rs:202 -/
@[match_pattern] abbrev f64_trunc_ : Nat := 0x9D
/-- handlers.rs:203 -/
@[match_pattern] abbrev f64_nearest_ : Nat := 0x9E
/-- handlers.rs:204 -/
@[match_pattern] abbrev f64_sqrt_ : Nat := 0x9F
/-- handlers.rs:205 -/
@[match_pattern] abbrev f64_add_ : Nat := 0xA0
/-- handlers.rs:206 -/
@[match_pattern] abbrev f64_sub_ : Nat := 0xA1
/-- handlers.rs:207 -/
@[match_pattern] abbrev f64_mul_ : Nat := 0xA2
/-- handlers.rs:208 -/
@[match_pattern] abbrev f64_div_ : Nat := 0xA3
/-- handlers.rs:209 -/
@[match_pattern] abbrev f64_min_ : Nat := 0xA4
/-- handlers.rs:210 -/
@[match_pattern] abbrev f64_max_ : Nat := 0xA5
/-- handlers.rs:211 -/
@[match_pattern] abbrev f64_copysign_ : Nat := 0xA6
/-- handlers.rs:214 -/
@[match_pattern] abbrev i32_wrap_i64_ : Nat := 0xA7
/-- handlers.rs:215 -/
@[match_pattern] abbrev i32_trunc_f32_s_ : Nat := 0xA8
/-- handlers.rs:216 -/
@[match_pattern] abbrev i32_trunc_f32_u_ : Nat := 0xA9
/-- handlers.rs:217 -/
@[match_pattern] abbrev i32_trunc_f64_s_ : Nat := 0xAA
/-- handlers.rs:218 -/
@[match_pattern] abbrev i32_trunc_f64_u_ : Nat := 0xAB
/-- handlers.rs:219 -/
@[match_pattern] abbrev i64_extend_i32_s_ : Nat := 0xAC
/-- handlers.rs:220 -/
@[match_pattern] abbrev i64_extend_i32_u_ : Nat := 0xAD
/-- handlers.rs:221 -/
@[match_pattern] abbrev i64_trunc_f32_s_ : Nat := 0xAE
/-- handlers.rs:222 -/
@[match_pattern] abbrev i64_trunc_f32_u_ : Nat := 0xAF
/-- handlers.rs:223 -/
@[match_pattern] abbrev i64_trunc_f64_s_ : Nat := 0xB0
/-- handlers.rs:224 -/
@[match_pattern] abbrev i64_trunc_f64_u_ : Nat := 0xB1
/-- handlers.rs:225 -/
@[match_pattern] abbrev f32_convert_i32_s_ : Nat := 0xB2
/-- handlers.rs:226 -/
@[match_pattern] abbrev f32_convert_i32_u_ : Nat := 0xB3
/-- handlers.rs:227 -/
@[match_pattern] abbrev f32_convert_i64_s_ : Nat := 0xB4
/-- handlers.rs:228 -/
@[match_pattern] abbrev f32_convert_i64_u_ : Nat := 0xB5
/-- handlers.rs:229 -/
@[match_pattern] abbrev f32_demote_f64_ : Nat := 0xB6
/-- handlers.rs:230 -/
@[match_pattern] abbrev f64_convert_i32_s_ : Nat := 0xB7
/-- handlers.rs:231 -/
@[match_pattern] abbrev f64_convert_i32_u_ : Nat := 0xB8
/-- handlers.rs:232 -/
@[match_pattern] abbrev f64_convert_i64_s_ : Nat := 0xB9
/-- handlers.rs:233 -/
@[match_pattern] abbrev f64_convert_i64_u_ : Nat := 0xBA
/-- handlers.rs:234 -/
@[match_pattern] abbrev f64_promote_f32_ : Nat := 0xBB
/-- handlers.rs:235 -/
@[match_pattern] abbrev i32_reinterpret_f32_ : Nat := 0xBC
/-- handlers.rs:236 -/
@[match_pattern] abbrev i64_reinterpret_f64_ : Nat := 0xBD
/-- handlers.rs:237 -/
@[match_pattern] abbrev f32_reinterpret_i32_ : Nat := 0xBE
/-- handlers.rs:238 -/
@[match_pattern] abbrev f64_reinterpret_i64_ : Nat := 0xBF
/-- handlers.rs:241 -/
@[match_pattern] abbrev i32_extend8_s_ : Nat := 0xC0
/-- handlers.rs:242 -/
@[match_pattern] abbrev i32_extend16_s_ : Nat := 0xC1
/-- handlers.rs:243 -/
@[match_pattern] abbrev i64_extend8_s_ : Nat := 0xC2
/-- handlers.rs:244 -/
@[match_pattern] abbrev i64_extend16_s_ : Nat := 0xC3
/-- handlers.rs:245 -/
@[match_pattern] abbrev i64_extend32_s_ : Nat := 0xC4
/-- handlers.rs:248 -/
@[match_pattern] abbrev memory_copy_ : Nat := 0xC5
/-- handlers.rs:249 -/
@[match_pattern] abbrev memory_init_ : Nat := 0xC6
/-- handlers.rs:250 -/
@[match_pattern] abbrev memory_fill_ : Nat := 0xC7
/-- handlers.rs:253 -/
@[match_pattern] abbrev i32_trunc_sat_f32_s_ : Nat := 0xC8
/-- handlers.rs:254 -/
@[match_pattern] abbrev i32_trunc_sat_f32_u_ : Nat := 0xC9
/-- handlers.rs:255 -/
@[match_pattern] abbrev i32_trunc_sat_f64_s_ : Nat := 0xCA
/-- handlers.rs:256 -/
@[match_pattern] abbrev i32_trunc_sat_f64_u_ : Nat := 0xCB
/-- handlers.rs:257 -/
@[match_pattern] abbrev i64_trunc_sat_f32_s_ : Nat := 0xCC
/-- handlers.rs:258 -/
@[match_pattern] abbrev i64_trunc_sat_f32_u_ : Nat := 0xCD
/-- handlers.rs:259 -/
@[match_pattern] abbrev i64_trunc_sat_f64_s_ : Nat := 0xCE
/-- handlers.rs:260 -/
@[match_pattern] abbrev i64_trunc_sat_f64_u_ : Nat := 0xCF
/-- handlers.rs:262 -/
@[match_pattern] abbrev data_drop_ : Nat := 0xE8
/-- handlers.rs:265 -/
@[match_pattern] abbrev select_i32_ : Nat := 0xF0
/-- handlers.rs:266 -/
@[match_pattern] abbrev select_i64_ : Nat := 0xF1
/-- handlers.rs:267 -/
@[match_pattern] abbrev select_f32_ : Nat := 0xF2
/-- handlers.rs:268 -/
@[match_pattern] abbrev select_f64_ : Nat := 0xF3
/-- handlers.rs:271 -/
@[match_pattern] abbrev global_get_i32_ : Nat := 0xF4
/-- handlers.rs:272 -/
@[match_pattern] abbrev global_get_i64_ : Nat := 0xF5
/-- handlers.rs:273 -/
@[match_pattern] abbrev global_get_f32_ : Nat := 0xF6
/-- handlers.rs:274 -/
@[match_pattern] abbrev global_get_f64_ : Nat := 0xF7
/-- handlers.rs:277 -/
@[match_pattern] abbrev global_set_i32_ : Nat := 0xF8
/-- handlers.rs:278 -/
@[match_pattern] abbrev global_set_i64_ : Nat := 0xF9
/-- handlers.rs:279 -/
@[match_pattern] abbrev global_set_f32_ : Nat := 0xFA
/-- handlers.rs:280 -/
@[match_pattern] abbrev global_set_f64_ : Nat := 0xFB
/-- handlers.rs:283 -/
@[match_pattern] abbrev ref_null_ : Nat := 0xFC
/-- handlers.rs:284 -/
@[match_pattern] abbrev ref_is_null_ : Nat := 0xFD
/-- handlers.rs:285 -/
@[match_pattern] abbrev table_get_ : Nat := 0xFE
/-- handlers.rs:286 -/
@[match_pattern] abbrev table_set_ : Nat := 0xFF
/-- handlers.rs:287 -/
@[match_pattern] abbrev table_fill_ : Nat := 0x100
/-- handlers.rs:290 -/
@[match_pattern] abbrev ref_local_get_ : Nat := 0x101
/-- handlers.rs:291 -/
@[match_pattern] abbrev ref_local_set_ : Nat := 0x102
/-- handlers.rs:294 -/
@[match_pattern] abbrev call_wasi_ : Nat := 0x103

end Idx

/-- ir.rs:107-243 `ProcessedInstr`.  The four variants `I32Reg`, `I64Reg`, `F32Reg`, `F64Reg` are `num c` with `c` one of the
four number classes; `Box<[Reg]>` is a list; the fields no handler reads (`arity`, `param_count`, `ref_type`) are left out. -/
inductive Raw
  | num (c : Cls) (h : Nat) (dst src1 : Opnd c) (src2 : Option (Opnd c))
  | conversion (h : Nat) (dst : Dst) (src : Reg)
  | memoryLoad (h : Nat) (dst : Dst) (addr : Opnd .i32) (offset : BitVec 64)
  | memoryStore (h : Nat) (addr : Opnd .i32) (value : Reg) (offset : BitVec 64)
  | memoryOps (h : Nat) (dst : Option Reg) (args : List Reg) (data : Nat)
  | select (h : Nat) (dst val1 val2 cond : Reg)
  | globalGet (h : Nat) (dst : Dst) (global : Nat)
  | globalSet (h : Nat) (src : Dst) (global : Nat)
  | dataDrop (data : Nat)
  | refLocal (h dst src loc : Nat)
  | tableRef (h table r0 r1 r2 : Nat)
  | callWasi (id : Nat) (params : List Reg) (result : Option Reg)
  | callIndirect (ty table : Nat) (index : Reg) (params results : List Reg)
  | call (f : Nat) (params results : List Reg)
  | ret (results : List Reg)
  | jump (target : Nat)
  | block (isLoop : Bool)
  | ite (cond : Reg) (elseTarget : Nat) (hasElse : Bool)
  | fin (src dst : List Reg)
  | br (depth target : Nat) (src dst : List Reg)
  | brIf (depth target : Nat) (cond : Reg) (src dst : List Reg)
  | brTable (targets : List (Nat × Nat × List Reg)) (dflt : Nat × Nat × List Reg) (index : Reg) (src : List Reg)
  | nop
  | unreachable

/-- ir.rs:250-281 `handler_index` -/
def Raw.handlerIndex : Raw → Nat
  | .num _ h _ _ _ => h
  | .conversion h _ _ => h
  | .memoryLoad h _ _ _ => h
  | .memoryStore h _ _ _ => h
  | .memoryOps h _ _ _ => h
  | .select h _ _ _ _ => h
  | .globalGet h _ _ => h
  | .globalSet h _ _ => h
  | .dataDrop _ => Idx.data_drop_
  | .refLocal h _ _ _ => h
  | .tableRef h _ _ _ _ => h
  | .callWasi _ _ _ => Idx.call_wasi_
  | .callIndirect _ _ _ _ _ => Idx.call_indirect_
  | .call _ _ _ => Idx.call_
  | .ret _ => Idx.return_
  | .jump _ => Idx.else_
  | .block false => Idx.block_
  | .block true => Idx.loop_
  | .ite _ _ _ => Idx.if_
  | .fin _ _ => Idx.end_
  | .br _ _ _ _ => Idx.br_
  | .brIf _ _ _ _ _ => Idx.br_if_
  | .brTable _ _ _ _ => Idx.br_table_
  | .nop => Idx.nop_
  | .unreachable => Idx.unreachable_

/-- the handler functions of handlers.rs -/
inductive Handler
  | i32_local_get | i32_local_set | i32_const | i32_add | i32_sub | i32_mul | i32_div_s | i32_div_u | i32_rem_s
  | i32_rem_u | i32_and | i32_or | i32_xor | i32_shl | i32_shr_s | i32_shr_u | i32_rotl | i32_rotr | i32_eq | i32_ne
  | i32_lt_s | i32_lt_u | i32_le_s | i32_le_u | i32_gt_s | i32_gt_u | i32_ge_s | i32_ge_u | i32_clz | i32_ctz
  | i32_popcnt | i32_eqz | i32_extend8_s | i32_extend16_s | i64_local_get | i64_local_set | i64_const | i64_add
  | i64_sub | i64_mul | i64_div_s | i64_div_u | i64_rem_s | i64_rem_u | i64_and | i64_or | i64_xor | i64_shl
  | i64_shr_s | i64_shr_u | i64_rotl | i64_rotr | i64_eq | i64_ne | i64_lt_s | i64_lt_u | i64_le_s | i64_le_u
  | i64_gt_s | i64_gt_u | i64_ge_s | i64_ge_u | i64_clz | i64_ctz | i64_popcnt | i64_eqz | i64_extend8_s
  | i64_extend16_s | i64_extend32_s | f32_local_get | f32_local_set | f32_const | f32_add | f32_sub | f32_mul
  | f32_div | f32_min | f32_max | f32_copysign | f32_abs | f32_neg | f32_ceil | f32_floor | f32_trunc | f32_nearest
  | f32_sqrt | f32_eq | f32_ne | f32_lt | f32_gt | f32_le | f32_ge | f64_local_get | f64_local_set | f64_const
  | f64_add | f64_sub | f64_mul | f64_div | f64_min | f64_max | f64_copysign | f64_abs | f64_neg | f64_ceil
  | f64_floor | f64_trunc | f64_nearest | f64_sqrt | f64_eq | f64_ne | f64_lt | f64_gt | f64_le | f64_ge
  | conv_i64_extend_i32_s | conv_i64_extend_i32_u | conv_i32_wrap_i64 | conv_i32_trunc_f32_s | conv_i32_trunc_f32_u
  | conv_i32_trunc_f64_s | conv_i32_trunc_f64_u | conv_i64_trunc_f32_s | conv_i64_trunc_f32_u | conv_i64_trunc_f64_s
  | conv_i64_trunc_f64_u | conv_i32_trunc_sat_f32_s | conv_i32_trunc_sat_f32_u | conv_i32_trunc_sat_f64_s
  | conv_i32_trunc_sat_f64_u | conv_i64_trunc_sat_f32_s | conv_i64_trunc_sat_f32_u | conv_i64_trunc_sat_f64_s
  | conv_i64_trunc_sat_f64_u | conv_f32_convert_i32_s | conv_f32_convert_i32_u | conv_f32_convert_i64_s
  | conv_f32_convert_i64_u | conv_f64_convert_i32_s | conv_f64_convert_i32_u | conv_f64_convert_i64_s
  | conv_f64_convert_i64_u | conv_f32_demote_f64 | conv_f64_promote_f32 | conv_i32_reinterpret_f32
  | conv_f32_reinterpret_i32 | conv_i64_reinterpret_f64 | conv_f64_reinterpret_i64 | mem_load_i32 | mem_load_i64
  | mem_load_f32 | mem_load_f64 | mem_load_i32_8s | mem_load_i32_8u | mem_load_i32_16s | mem_load_i32_16u
  | mem_load_i64_8s | mem_load_i64_8u | mem_load_i64_16s | mem_load_i64_16u | mem_load_i64_32s | mem_load_i64_32u
  | mem_store_i32 | mem_store_i64 | mem_store_f32 | mem_store_f64 | mem_store_i32_8 | mem_store_i32_16
  | mem_store_i64_8 | mem_store_i64_16 | mem_store_i64_32 | mem_size | mem_grow | mem_copy | mem_init | mem_fill
  | select_i32 | select_i64 | select_f32 | select_f64 | global_get_i32 | global_get_i64 | global_get_f32
  | global_get_f64 | global_set_i32 | global_set_i64 | global_set_f32 | global_set_f64 | ref_local_get
  | ref_local_set | ref_null | ref_is_null | table_get | table_set | table_fill | data_drop | call | call_indirect
  | call_wasi | ret | jump | block | ite | fin | br | br_if | br_table | nop | unreachable | invalid
  deriving DecidableEq, Repr

/-- handlers.rs:2096-2132, the arm `I32Reg` of `select_handler` -/
def selI32 : Nat → Handler
  | Idx.local_get_ => .i32_local_get
  | Idx.local_set_ => .i32_local_set
  | Idx.local_tee_ => .i32_local_set
  | Idx.i32_const_ => .i32_const
  | Idx.i32_add_ => .i32_add
  | Idx.i32_sub_ => .i32_sub
  | Idx.i32_mul_ => .i32_mul
  | Idx.i32_div_s_ => .i32_div_s
  | Idx.i32_div_u_ => .i32_div_u
  | Idx.i32_rem_s_ => .i32_rem_s
  | Idx.i32_rem_u_ => .i32_rem_u
  | Idx.i32_and_ => .i32_and
  | Idx.i32_or_ => .i32_or
  | Idx.i32_xor_ => .i32_xor
  | Idx.i32_shl_ => .i32_shl
  | Idx.i32_shr_s_ => .i32_shr_s
  | Idx.i32_shr_u_ => .i32_shr_u
  | Idx.i32_rotl_ => .i32_rotl
  | Idx.i32_rotr_ => .i32_rotr
  | Idx.i32_eq_ => .i32_eq
  | Idx.i32_ne_ => .i32_ne
  | Idx.i32_lt_s_ => .i32_lt_s
  | Idx.i32_lt_u_ => .i32_lt_u
  | Idx.i32_le_s_ => .i32_le_s
  | Idx.i32_le_u_ => .i32_le_u
  | Idx.i32_gt_s_ => .i32_gt_s
  | Idx.i32_gt_u_ => .i32_gt_u
  | Idx.i32_ge_s_ => .i32_ge_s
  | Idx.i32_ge_u_ => .i32_ge_u
  | Idx.i32_clz_ => .i32_clz
  | Idx.i32_ctz_ => .i32_ctz
  | Idx.i32_popcnt_ => .i32_popcnt
  | Idx.i32_eqz_ => .i32_eqz
  | Idx.i32_extend8_s_ => .i32_extend8_s
  | Idx.i32_extend16_s_ => .i32_extend16_s
  | _ => .invalid

/-- handlers.rs:2133-2170, the arm `I64Reg` of `select_handler` -/
def selI64 : Nat → Handler
  | Idx.local_get_ => .i64_local_get
  | Idx.local_set_ => .i64_local_set
  | Idx.local_tee_ => .i64_local_set
  | Idx.i64_const_ => .i64_const
  | Idx.i64_add_ => .i64_add
  | Idx.i64_sub_ => .i64_sub
  | Idx.i64_mul_ => .i64_mul
  | Idx.i64_div_s_ => .i64_div_s
  | Idx.i64_div_u_ => .i64_div_u
  | Idx.i64_rem_s_ => .i64_rem_s
  | Idx.i64_rem_u_ => .i64_rem_u
  | Idx.i64_and_ => .i64_and
  | Idx.i64_or_ => .i64_or
  | Idx.i64_xor_ => .i64_xor
  | Idx.i64_shl_ => .i64_shl
  | Idx.i64_shr_s_ => .i64_shr_s
  | Idx.i64_shr_u_ => .i64_shr_u
  | Idx.i64_rotl_ => .i64_rotl
  | Idx.i64_rotr_ => .i64_rotr
  | Idx.i64_eq_ => .i64_eq
  | Idx.i64_ne_ => .i64_ne
  | Idx.i64_lt_s_ => .i64_lt_s
  | Idx.i64_lt_u_ => .i64_lt_u
  | Idx.i64_le_s_ => .i64_le_s
  | Idx.i64_le_u_ => .i64_le_u
  | Idx.i64_gt_s_ => .i64_gt_s
  | Idx.i64_gt_u_ => .i64_gt_u
  | Idx.i64_ge_s_ => .i64_ge_s
  | Idx.i64_ge_u_ => .i64_ge_u
  | Idx.i64_clz_ => .i64_clz
  | Idx.i64_ctz_ => .i64_ctz
  | Idx.i64_popcnt_ => .i64_popcnt
  | Idx.i64_eqz_ => .i64_eqz
  | Idx.i64_extend8_s_ => .i64_extend8_s
  | Idx.i64_extend16_s_ => .i64_extend16_s
  | Idx.i64_extend32_s_ => .i64_extend32_s
  | _ => .invalid

/-- handlers.rs:2171-2196, the arm `F32Reg` of `select_handler` -/
def selF32 : Nat → Handler
  | Idx.local_get_ => .f32_local_get
  | Idx.local_set_ => .f32_local_set
  | Idx.local_tee_ => .f32_local_set
  | Idx.f32_const_ => .f32_const
  | Idx.f32_add_ => .f32_add
  | Idx.f32_sub_ => .f32_sub
  | Idx.f32_mul_ => .f32_mul
  | Idx.f32_div_ => .f32_div
  | Idx.f32_min_ => .f32_min
  | Idx.f32_max_ => .f32_max
  | Idx.f32_copysign_ => .f32_copysign
  | Idx.f32_abs_ => .f32_abs
  | Idx.f32_neg_ => .f32_neg
  | Idx.f32_ceil_ => .f32_ceil
  | Idx.f32_floor_ => .f32_floor
  | Idx.f32_trunc_ => .f32_trunc
  | Idx.f32_nearest_ => .f32_nearest
  | Idx.f32_sqrt_ => .f32_sqrt
  | Idx.f32_eq_ => .f32_eq
  | Idx.f32_ne_ => .f32_ne
  | Idx.f32_lt_ => .f32_lt
  | Idx.f32_gt_ => .f32_gt
  | Idx.f32_le_ => .f32_le
  | Idx.f32_ge_ => .f32_ge
  | _ => .invalid

/-- handlers.rs:2197-2222, the arm `F64Reg` of `select_handler` -/
def selF64 : Nat → Handler
  | Idx.local_get_ => .f64_local_get
  | Idx.local_set_ => .f64_local_set
  | Idx.local_tee_ => .f64_local_set
  | Idx.f64_const_ => .f64_const
  | Idx.f64_add_ => .f64_add
  | Idx.f64_sub_ => .f64_sub
  | Idx.f64_mul_ => .f64_mul
  | Idx.f64_div_ => .f64_div
  | Idx.f64_min_ => .f64_min
  | Idx.f64_max_ => .f64_max
  | Idx.f64_copysign_ => .f64_copysign
  | Idx.f64_abs_ => .f64_abs
  | Idx.f64_neg_ => .f64_neg
  | Idx.f64_ceil_ => .f64_ceil
  | Idx.f64_floor_ => .f64_floor
  | Idx.f64_trunc_ => .f64_trunc
  | Idx.f64_nearest_ => .f64_nearest
  | Idx.f64_sqrt_ => .f64_sqrt
  | Idx.f64_eq_ => .f64_eq
  | Idx.f64_ne_ => .f64_ne
  | Idx.f64_lt_ => .f64_lt
  | Idx.f64_gt_ => .f64_gt
  | Idx.f64_le_ => .f64_le
  | Idx.f64_ge_ => .f64_ge
  | _ => .invalid

/-- handlers.rs:2223-2258, the arm `ConversionReg` of `select_handler` -/
def selConversion : Nat → Handler
  | Idx.i64_extend_i32_s_ => .conv_i64_extend_i32_s
  | Idx.i64_extend_i32_u_ => .conv_i64_extend_i32_u
  | Idx.i32_wrap_i64_ => .conv_i32_wrap_i64
  | Idx.i32_trunc_f32_s_ => .conv_i32_trunc_f32_s
  | Idx.i32_trunc_f32_u_ => .conv_i32_trunc_f32_u
  | Idx.i32_trunc_f64_s_ => .conv_i32_trunc_f64_s
  | Idx.i32_trunc_f64_u_ => .conv_i32_trunc_f64_u
  | Idx.i64_trunc_f32_s_ => .conv_i64_trunc_f32_s
  | Idx.i64_trunc_f32_u_ => .conv_i64_trunc_f32_u
  | Idx.i64_trunc_f64_s_ => .conv_i64_trunc_f64_s
  | Idx.i64_trunc_f64_u_ => .conv_i64_trunc_f64_u
  | Idx.i32_trunc_sat_f32_s_ => .conv_i32_trunc_sat_f32_s
  | Idx.i32_trunc_sat_f32_u_ => .conv_i32_trunc_sat_f32_u
  | Idx.i32_trunc_sat_f64_s_ => .conv_i32_trunc_sat_f64_s
  | Idx.i32_trunc_sat_f64_u_ => .conv_i32_trunc_sat_f64_u
  | Idx.i64_trunc_sat_f32_s_ => .conv_i64_trunc_sat_f32_s
  | Idx.i64_trunc_sat_f32_u_ => .conv_i64_trunc_sat_f32_u
  | Idx.i64_trunc_sat_f64_s_ => .conv_i64_trunc_sat_f64_s
  | Idx.i64_trunc_sat_f64_u_ => .conv_i64_trunc_sat_f64_u
  | Idx.f32_convert_i32_s_ => .conv_f32_convert_i32_s
  | Idx.f32_convert_i32_u_ => .conv_f32_convert_i32_u
  | Idx.f32_convert_i64_s_ => .conv_f32_convert_i64_s
  | Idx.f32_convert_i64_u_ => .conv_f32_convert_i64_u
  | Idx.f64_convert_i32_s_ => .conv_f64_convert_i32_s
  | Idx.f64_convert_i32_u_ => .conv_f64_convert_i32_u
  | Idx.f64_convert_i64_s_ => .conv_f64_convert_i64_s
  | Idx.f64_convert_i64_u_ => .conv_f64_convert_i64_u
  | Idx.f32_demote_f64_ => .conv_f32_demote_f64
  | Idx.f64_promote_f32_ => .conv_f64_promote_f32
  | Idx.i32_reinterpret_f32_ => .conv_i32_reinterpret_f32
  | Idx.f32_reinterpret_i32_ => .conv_f32_reinterpret_i32
  | Idx.i64_reinterpret_f64_ => .conv_i64_reinterpret_f64
  | Idx.f64_reinterpret_i64_ => .conv_f64_reinterpret_i64
  | _ => .invalid

/-- handlers.rs:2259-2275, the arm `MemoryLoadReg` of `select_handler` -/
def selLoad : Nat → Handler
  | Idx.i32_load_ => .mem_load_i32
  | Idx.i64_load_ => .mem_load_i64
  | Idx.f32_load_ => .mem_load_f32
  | Idx.f64_load_ => .mem_load_f64
  | Idx.i32_load8_s_ => .mem_load_i32_8s
  | Idx.i32_load8_u_ => .mem_load_i32_8u
  | Idx.i32_load16_s_ => .mem_load_i32_16s
  | Idx.i32_load16_u_ => .mem_load_i32_16u
  | Idx.i64_load8_s_ => .mem_load_i64_8s
  | Idx.i64_load8_u_ => .mem_load_i64_8u
  | Idx.i64_load16_s_ => .mem_load_i64_16s
  | Idx.i64_load16_u_ => .mem_load_i64_16u
  | Idx.i64_load32_s_ => .mem_load_i64_32s
  | Idx.i64_load32_u_ => .mem_load_i64_32u
  | _ => .invalid

/-- handlers.rs:2276-2287, the arm `MemoryStoreReg` of `select_handler` -/
def selStore : Nat → Handler
  | Idx.i32_store_ => .mem_store_i32
  | Idx.i64_store_ => .mem_store_i64
  | Idx.f32_store_ => .mem_store_f32
  | Idx.f64_store_ => .mem_store_f64
  | Idx.i32_store8_ => .mem_store_i32_8
  | Idx.i32_store16_ => .mem_store_i32_16
  | Idx.i64_store8_ => .mem_store_i64_8
  | Idx.i64_store16_ => .mem_store_i64_16
  | Idx.i64_store32_ => .mem_store_i64_32
  | _ => .invalid

/-- handlers.rs:2288-2295, the arm `MemoryOpsReg` of `select_handler` -/
def selMemOps : Nat → Handler
  | Idx.memory_size_ => .mem_size
  | Idx.memory_grow_ => .mem_grow
  | Idx.memory_copy_ => .mem_copy
  | Idx.memory_init_ => .mem_init
  | Idx.memory_fill_ => .mem_fill
  | _ => .invalid

/-- handlers.rs:2296-2302, the arm `SelectReg` of `select_handler` -/
def selSelect : Nat → Handler
  | Idx.select_i32_ => .select_i32
  | Idx.select_i64_ => .select_i64
  | Idx.select_f32_ => .select_f32
  | Idx.select_f64_ => .select_f64
  | _ => .invalid

/-- handlers.rs:2303-2309, the arm `GlobalGetReg` of `select_handler` -/
def selGlobalGet : Nat → Handler
  | Idx.global_get_i32_ => .global_get_i32
  | Idx.global_get_i64_ => .global_get_i64
  | Idx.global_get_f32_ => .global_get_f32
  | Idx.global_get_f64_ => .global_get_f64
  | _ => .invalid

/-- handlers.rs:2310-2316, the arm `GlobalSetReg` of `select_handler` -/
def selGlobalSet : Nat → Handler
  | Idx.global_set_i32_ => .global_set_i32
  | Idx.global_set_i64_ => .global_set_i64
  | Idx.global_set_f32_ => .global_set_f32
  | Idx.global_set_f64_ => .global_set_f64
  | _ => .invalid

/-- handlers.rs:2317-2321, the arm `RefLocalReg` of `select_handler` -/
def selRefLocal : Nat → Handler
  | Idx.ref_local_get_ => .ref_local_get
  | Idx.ref_local_set_ => .ref_local_set
  | _ => .invalid

/-- handlers.rs:2322-2329, the arm `TableRefReg` of `select_handler` -/
def selTableRef : Nat → Handler
  | Idx.ref_null_ => .ref_null
  | Idx.ref_is_null_ => .ref_is_null
  | Idx.table_get_ => .table_get
  | Idx.table_set_ => .table_set
  | Idx.table_fill_ => .table_fill
  | _ => .invalid

/-- handlers.rs:2094-2344 `select_handler` -/
def selectHandler : Raw → Handler
  | .num .i32 h _ _ _ => selI32 h
  | .num .i64 h _ _ _ => selI64 h
  | .num .f32 h _ _ _ => selF32 h
  | .num .f64 h _ _ _ => selF64 h
  | .num _ _ _ _ _ => .invalid
  | .conversion h _ _ => selConversion h
  | .memoryLoad h _ _ _ => selLoad h
  | .memoryStore h _ _ _ => selStore h
  | .memoryOps h _ _ _ => selMemOps h
  | .select h _ _ _ _ => selSelect h
  | .globalGet h _ _ => selGlobalGet h
  | .globalSet h _ _ => selGlobalSet h
  | .refLocal h _ _ _ => selRefLocal h
  | .tableRef h _ _ _ _ => selTableRef h
  | .dataDrop _ => .data_drop
  | .call _ _ _ => .call
  | .callIndirect _ _ _ _ _ => .call_indirect
  | .callWasi _ _ _ => .call_wasi
  | .ret _ => .ret
  | .jump _ => .jump
  | .block _ => .block
  | .ite _ _ _ => .ite
  | .fin _ _ => .fin
  | .br _ _ _ _ => .br
  | .brIf _ _ _ _ _ => .br_if
  | .brTable _ _ _ _ => .br_table
  | .nop => .nop
  | .unreachable => .unreachable

/-- what a handler function is: the macro it is an instance of and the operation of its closure -/
inductive Body
  /-- `i32_unop!` … `f64_unop!` (handlers.rs:390-404, 547-560, 711-724, 821-834) and the hand-written ones of that shape:
  an instruction of variant `c` with at least one source -/
  | un (c : Cls) (op : Op1)
  /-- `i32_binop!` … `f64_cmp!` and the hand-written divisions: variant `c`, `src2.unwrap_unchecked()` -/
  | bin (c : Cls) (op : Op2)
  /-- `conv!`, `conv_trap!` (handlers.rs:895-908, 1139-1161) -/
  | conv (op : Op1)
  /-- `mem_load!` (handlers.rs:1284-1304) -/
  | load (op : LoadOp)
  /-- `mem_store!` (handlers.rs:1365-1385) -/
  | store (op : StoreOp)
  | memSize | memGrow | memCopy | memInit | memFill
  | select (c : Cls)
  | globalGet (c : Cls)
  | globalSet (c : Cls)
  | refLocalGet | refLocalSet | refNull | refIsNull | tableGet | tableSet | tableFill
  | control (h : Handler)
  | invalid

/-- destination operands are registers or locals; `write_*` of a constant is `unreachable_unchecked` (operand.rs:60-180) -/
def Opnd.asDst {c : Cls} : Opnd c → Option Dst
  | .reg i => some (.reg i)
  | .param i => some (.loc i)
  | .const _ => none

/-- the operation a handler performs on the fields of the current instruction.  `none`: the handler was written for another
variant, so it runs into `unreachable_unchecked` (or `unwrap_unchecked` of `None`, or an index out of range of `args`);
`invalid` reports `InvalidHandlerIndex` and is `none` too. -/
def Body.exec : Body → Raw → Option Instr
  | .un c op, .num c' _ d a _ =>
    if h : c' = c ∧ op.src = c then (d.asDst).map fun d => .op1 op d ((h.1.trans h.2.symm) ▸ a) else none
  | .bin c op, .num c' _ d a (some b) =>
    if h : c' = c ∧ op.src = c then
      (d.asDst).map fun d => .op2 op d ((h.1.trans h.2.symm) ▸ a) ((h.1.trans h.2.symm) ▸ b) else none
  | .conv op, .conversion _ d s => some (.op1 op d (.reg s.idx))
  | .load op, .memoryLoad _ d a off => some (.load op d a off)
  | .store op, .memoryStore _ a v off => some (.store op a v.idx off)
  | .memSize, .memoryOps _ (some d) _ _ => some (.memSize d.idx)
  | .memGrow, .memoryOps _ (some d) (x :: _) _ => some (.memGrow d.idx x.idx)
  | .memCopy, .memoryOps _ _ (x :: y :: z :: _) _ => some (.memCopy x.idx y.idx z.idx)
  | .memInit, .memoryOps _ _ (x :: y :: z :: _) k => some (.memInit k x.idx y.idx z.idx)
  | .memFill, .memoryOps _ _ (x :: y :: z :: _) _ => some (.memFill x.idx y.idx z.idx)
  | .select c, .select _ d v1 v2 x => some (.select c d.idx v1.idx v2.idx x.idx)
  | .globalGet c, .globalGet _ d g => some (.globalGet c d g)
  | .globalSet c, .globalSet _ s g => some (.globalSet c s g)
  | .refLocalGet, .refLocal _ d _ l => some (.refLocalGet d l)
  | .refLocalSet, .refLocal _ _ s l => some (.refLocalSet s l)
  | .refNull, .tableRef _ _ r0 _ _ => some (.refNull r0)
  | .refIsNull, .tableRef _ _ r0 r1 _ => some (.refIsNull r0 r1)
  | .tableGet, .tableRef _ t r0 r1 _ => some (.tableGet t r0 r1)
  | .tableSet, .tableRef _ t r0 r1 _ => some (.tableSet t r0 r1)
  | .tableFill, .tableRef _ t r0 r1 r2 => some (.tableFill t r0 r1 r2)
  | .control .data_drop, .dataDrop k => some (.dataDrop k)
  | .control .call, .call f ps rs => some (.call f ps rs)
  | .control .call_indirect, .callIndirect ty t i ps rs => some (.callIndirect ty t i.idx ps rs)
  | .control .call_wasi, .callWasi id ps r => some (.callWasi id ps r)
  | .control .ret, .ret rs => some (.ret rs)
  | .control .jump, .jump t => some (.jump t)
  | .control .block, .block l => some (.block l)
  | .control .ite, .ite c e h => some (.ite c.idx e h)
  | .control .fin, .fin s d => some (.fin s d)
  | .control .br, .br k t s d => some (.br k t s d)
  | .control .br_if, .brIf k t c s d => some (.brIf k t c.idx s d)
  | .control .br_table, .brTable ts d i s => some (.brTable ts d i.idx s)
  | .control .nop, .nop => some .nop
  | .control .unreachable, .unreachable => some .unreachable
  | _, _ => none

/-- handlers.rs: the handler functions, at the lines given in the arms -/
def Handler.body : Handler → Body
  | .i32_local_get => .un .i32 (.mov .i32)  -- :407
  | .i32_local_set => .un .i32 (.mov .i32)  -- :408
  | .i32_const => .un .i32 (.mov .i32)  -- :409
  | .i32_add => .bin .i32 (.int .s32 .add)  -- :412
  | .i32_sub => .bin .i32 (.int .s32 .sub)  -- :413
  | .i32_mul => .bin .i32 (.int .s32 .mul)  -- :414
  | .i32_div_s => .bin .i32 (.int .s32 .divS)  -- :450
  | .i32_div_u => .bin .i32 (.int .s32 .divU)  -- :464
  | .i32_rem_s => .bin .i32 (.int .s32 .remS)  -- :478
  | .i32_rem_u => .bin .i32 (.int .s32 .remU)  -- :492
  | .i32_and => .bin .i32 (.int .s32 .and)  -- :415
  | .i32_or => .bin .i32 (.int .s32 .or)  -- :416
  | .i32_xor => .bin .i32 (.int .s32 .xor)  -- :417
  | .i32_shl => .bin .i32 (.int .s32 .shl)  -- :418
  | .i32_shr_s => .bin .i32 (.int .s32 .shrS)  -- :419
  | .i32_shr_u => .bin .i32 (.int .s32 .shrU)  -- :421
  | .i32_rotl => .bin .i32 (.int .s32 .rotl)  -- :424
  | .i32_rotr => .bin .i32 (.int .s32 .rotr)  -- :425
  | .i32_eq => .bin .i32 (.rel .s32 .eq)  -- :428
  | .i32_ne => .bin .i32 (.rel .s32 .ne)  -- :429
  | .i32_lt_s => .bin .i32 (.rel .s32 .ltS)  -- :430
  | .i32_lt_u => .bin .i32 (.rel .s32 .ltU)  -- :431
  | .i32_le_s => .bin .i32 (.rel .s32 .leS)  -- :432
  | .i32_le_u => .bin .i32 (.rel .s32 .leU)  -- :433
  | .i32_gt_s => .bin .i32 (.rel .s32 .gtS)  -- :434
  | .i32_gt_u => .bin .i32 (.rel .s32 .gtU)  -- :435
  | .i32_ge_s => .bin .i32 (.rel .s32 .geS)  -- :436
  | .i32_ge_u => .bin .i32 (.rel .s32 .geU)  -- :437
  | .i32_clz => .un .i32 (.int .s32 .clz)  -- :440
  | .i32_ctz => .un .i32 (.int .s32 .ctz)  -- :441
  | .i32_popcnt => .un .i32 (.int .s32 .popcnt)  -- :442
  | .i32_eqz => .un .i32 (.eqz .s32)  -- :443
  | .i32_extend8_s => .un .i32 (.int .s32 .extend8S)  -- :444
  | .i32_extend16_s => .un .i32 (.int .s32 .extend16S)  -- :445
  | .i64_local_get => .un .i64 (.mov .i64)  -- :562
  | .i64_local_set => .un .i64 (.mov .i64)  -- :563
  | .i64_const => .un .i64 (.mov .i64)  -- :564
  | .i64_add => .bin .i64 (.int .s64 .add)  -- :567
  | .i64_sub => .bin .i64 (.int .s64 .sub)  -- :568
  | .i64_mul => .bin .i64 (.int .s64 .mul)  -- :569
  | .i64_div_s => .bin .i64 (.int .s64 .divS)  -- :615
  | .i64_div_u => .bin .i64 (.int .s64 .divU)  -- :629
  | .i64_rem_s => .bin .i64 (.int .s64 .remS)  -- :643
  | .i64_rem_u => .bin .i64 (.int .s64 .remU)  -- :657
  | .i64_and => .bin .i64 (.int .s64 .and)  -- :570
  | .i64_or => .bin .i64 (.int .s64 .or)  -- :571
  | .i64_xor => .bin .i64 (.int .s64 .xor)  -- :572
  | .i64_shl => .bin .i64 (.int .s64 .shl)  -- :573
  | .i64_shr_s => .bin .i64 (.int .s64 .shrS)  -- :574
  | .i64_shr_u => .bin .i64 (.int .s64 .shrU)  -- :576
  | .i64_rotl => .bin .i64 (.int .s64 .rotl)  -- :579
  | .i64_rotr => .bin .i64 (.int .s64 .rotr)  -- :580
  | .i64_eq => .bin .i64 (.rel .s64 .eq)  -- :583
  | .i64_ne => .bin .i64 (.rel .s64 .ne)  -- :584
  | .i64_lt_s => .bin .i64 (.rel .s64 .ltS)  -- :585
  | .i64_lt_u => .bin .i64 (.rel .s64 .ltU)  -- :586
  | .i64_le_s => .bin .i64 (.rel .s64 .leS)  -- :587
  | .i64_le_u => .bin .i64 (.rel .s64 .leU)  -- :588
  | .i64_gt_s => .bin .i64 (.rel .s64 .gtS)  -- :589
  | .i64_gt_u => .bin .i64 (.rel .s64 .gtU)  -- :590
  | .i64_ge_s => .bin .i64 (.rel .s64 .geS)  -- :591
  | .i64_ge_u => .bin .i64 (.rel .s64 .geU)  -- :592
  | .i64_clz => .un .i64 (.int .s64 .clz)  -- :595
  | .i64_ctz => .un .i64 (.int .s64 .ctz)  -- :596
  | .i64_popcnt => .un .i64 (.int .s64 .popcnt)  -- :597
  | .i64_eqz => .un .i64 (.eqz .s64)  -- :603
  | .i64_extend8_s => .un .i64 (.int .s64 .extend8S)  -- :598
  | .i64_extend16_s => .un .i64 (.int .s64 .extend16S)  -- :599
  | .i64_extend32_s => .un .i64 (.int .s64 .extend32S)  -- :600
  | .f32_local_get => .un .f32 (.mov .f32)  -- :726
  | .f32_local_set => .un .f32 (.mov .f32)  -- :727
  | .f32_const => .un .f32 (.mov .f32)  -- :728
  | .f32_add => .bin .f32 (.arith .s32 .add)  -- :731
  | .f32_sub => .bin .f32 (.arith .s32 .sub)  -- :732
  | .f32_mul => .bin .f32 (.arith .s32 .mul)  -- :733
  | .f32_div => .bin .f32 (.arith .s32 .div)  -- :734
  | .f32_min => .bin .f32 (.min .s32)  -- :736
  | .f32_max => .bin .f32 (.max .s32)  -- :749
  | .f32_copysign => .bin .f32 (.copysign .s32)  -- :762
  | .f32_abs => .un .f32 (.abs .s32)  -- :765
  | .f32_neg => .un .f32 (.neg .s32)  -- :766
  | .f32_ceil => .un .f32 (.round .s32 .ceil)  -- :767
  | .f32_floor => .un .f32 (.round .s32 .floor)  -- :768
  | .f32_trunc => .un .f32 (.round .s32 .trunc)  -- :769
  | .f32_nearest => .un .f32 (.round .s32 .nearest)  -- :770
  | .f32_sqrt => .un .f32 (.round .s32 .sqrt)  -- :771
  | .f32_eq => .bin .f32 (.frel .s32 .eq)  -- :774
  | .f32_ne => .bin .f32 (.frel .s32 .ne)  -- :775
  | .f32_lt => .bin .f32 (.frel .s32 .lt)  -- :776
  | .f32_gt => .bin .f32 (.frel .s32 .gt)  -- :777
  | .f32_le => .bin .f32 (.frel .s32 .le)  -- :778
  | .f32_ge => .bin .f32 (.frel .s32 .ge)  -- :779
  | .f64_local_get => .un .f64 (.mov .f64)  -- :836
  | .f64_local_set => .un .f64 (.mov .f64)  -- :837
  | .f64_const => .un .f64 (.mov .f64)  -- :838
  | .f64_add => .bin .f64 (.arith .s64 .add)  -- :841
  | .f64_sub => .bin .f64 (.arith .s64 .sub)  -- :842
  | .f64_mul => .bin .f64 (.arith .s64 .mul)  -- :843
  | .f64_div => .bin .f64 (.arith .s64 .div)  -- :844
  | .f64_min => .bin .f64 (.min .s64)  -- :845
  | .f64_max => .bin .f64 (.max .s64)  -- :858
  | .f64_copysign => .bin .f64 (.copysign .s64)  -- :871
  | .f64_abs => .un .f64 (.abs .s64)  -- :874
  | .f64_neg => .un .f64 (.neg .s64)  -- :875
  | .f64_ceil => .un .f64 (.round .s64 .ceil)  -- :876
  | .f64_floor => .un .f64 (.round .s64 .floor)  -- :877
  | .f64_trunc => .un .f64 (.round .s64 .trunc)  -- :878
  | .f64_nearest => .un .f64 (.round .s64 .nearest)  -- :879
  | .f64_sqrt => .un .f64 (.round .s64 .sqrt)  -- :880
  | .f64_eq => .bin .f64 (.frel .s64 .eq)  -- :883
  | .f64_ne => .bin .f64 (.frel .s64 .ne)  -- :884
  | .f64_lt => .bin .f64 (.frel .s64 .lt)  -- :885
  | .f64_gt => .bin .f64 (.frel .s64 .gt)  -- :886
  | .f64_le => .bin .f64 (.frel .s64 .le)  -- :887
  | .f64_ge => .bin .f64 (.frel .s64 .ge)  -- :888
  | .conv_i64_extend_i32_s => .conv (.extS)  -- :912
  | .conv_i64_extend_i32_u => .conv (.extU)  -- :918
  | .conv_i32_wrap_i64 => .conv (.wrap)  -- :923
  | .conv_i32_trunc_f32_s => .conv (.trunc .i32_f32_s)  -- :1164
  | .conv_i32_trunc_f32_u => .conv (.trunc .i32_f32_u)  -- :1173
  | .conv_i32_trunc_f64_s => .conv (.trunc .i32_f64_s)  -- :1182
  | .conv_i32_trunc_f64_u => .conv (.trunc .i32_f64_u)  -- :1191
  | .conv_i64_trunc_f32_s => .conv (.trunc .i64_f32_s)  -- :1201
  | .conv_i64_trunc_f32_u => .conv (.trunc .i64_f32_u)  -- :1220
  | .conv_i64_trunc_f64_s => .conv (.trunc .i64_f64_s)  -- :1239
  | .conv_i64_trunc_f64_u => .conv (.trunc .i64_f64_u)  -- :1258
  | .conv_i32_trunc_sat_f32_s => .conv (.truncSat .i32_f32_s)  -- :928
  | .conv_i32_trunc_sat_f32_u => .conv (.truncSat .i32_f32_u)  -- :944
  | .conv_i32_trunc_sat_f64_s => .conv (.truncSat .i32_f64_s)  -- :958
  | .conv_i32_trunc_sat_f64_u => .conv (.truncSat .i32_f64_u)  -- :974
  | .conv_i64_trunc_sat_f32_s => .conv (.truncSat .i64_f32_s)  -- :988
  | .conv_i64_trunc_sat_f32_u => .conv (.truncSat .i64_f32_u)  -- :1004
  | .conv_i64_trunc_sat_f64_s => .conv (.truncSat .i64_f64_s)  -- :1018
  | .conv_i64_trunc_sat_f64_u => .conv (.truncSat .i64_f64_u)  -- :1034
  | .conv_f32_convert_i32_s => .conv (.convert .s32 .s32 true)  -- :1050
  | .conv_f32_convert_i32_u => .conv (.convert .s32 .s32 false)  -- :1056
  | .conv_f32_convert_i64_s => .conv (.convert .s32 .s64 true)  -- :1062
  | .conv_f32_convert_i64_u => .conv (.convert .s32 .s64 false)  -- :1068
  | .conv_f64_convert_i32_s => .conv (.convert .s64 .s32 true)  -- :1074
  | .conv_f64_convert_i32_u => .conv (.convert .s64 .s32 false)  -- :1080
  | .conv_f64_convert_i64_s => .conv (.convert .s64 .s64 true)  -- :1086
  | .conv_f64_convert_i64_u => .conv (.convert .s64 .s64 false)  -- :1092
  | .conv_f32_demote_f64 => .conv (.demote)  -- :1100
  | .conv_f64_promote_f32 => .conv (.promote)  -- :1106
  | .conv_i32_reinterpret_f32 => .conv (.reinterpIF .s32)  -- :1114
  | .conv_f32_reinterpret_i32 => .conv (.reinterpFI .s32)  -- :1120
  | .conv_i64_reinterpret_f64 => .conv (.reinterpIF .s64)  -- :1126
  | .conv_f64_reinterpret_i64 => .conv (.reinterpFI .s64)  -- :1132
  | .mem_load_i32 => .load .i32  -- :1306
  | .mem_load_i64 => .load .i64  -- :1307
  | .mem_load_f32 => .load .f32  -- :1308
  | .mem_load_f64 => .load .f64  -- :1309
  | .mem_load_i32_8s => .load .i32_8s  -- :1310
  | .mem_load_i32_8u => .load .i32_8u  -- :1311
  | .mem_load_i32_16s => .load .i32_16s  -- :1312
  | .mem_load_i32_16u => .load .i32_16u  -- :1313
  | .mem_load_i64_8s => .load .i64_8s  -- :1314
  | .mem_load_i64_8u => .load .i64_8u  -- :1315
  | .mem_load_i64_16s => .load .i64_16s  -- :1316
  | .mem_load_i64_16u => .load .i64_16u  -- :1317
  | .mem_load_i64_32s => .load .i64_32s  -- :1318
  | .mem_load_i64_32u => .load .i64_32u  -- :1319
  | .mem_store_i32 => .store .i32  -- :1349
  | .mem_store_i64 => .store .i64  -- :1350
  | .mem_store_f32 => .store .f32  -- :1351
  | .mem_store_f64 => .store .f64  -- :1352
  | .mem_store_i32_8 => .store .i32_8  -- :1353
  | .mem_store_i32_16 => .store .i32_16  -- :1354
  | .mem_store_i64_8 => .store .i64_8  -- :1355
  | .mem_store_i64_16 => .store .i64_16  -- :1356
  | .mem_store_i64_32 => .store .i64_32  -- :1357
  | .mem_size => .memSize  -- :1967
  | .mem_grow => .memGrow  -- :1987
  | .mem_copy => .memCopy  -- :2016
  | .mem_init => .memInit  -- :2037
  | .mem_fill => .memFill  -- :2069
  | .select_i32 => .select .i32  -- :1390
  | .select_i64 => .select .i64  -- :1391
  | .select_f32 => .select .f32  -- :1392
  | .select_f64 => .select .f64  -- :1393
  | .global_get_i32 => .globalGet .i32  -- :1771
  | .global_get_i64 => .globalGet .i64  -- :1772
  | .global_get_f32 => .globalGet .f32  -- :1773
  | .global_get_f64 => .globalGet .f64  -- :1774
  | .global_set_i32 => .globalSet .i32  -- :1807
  | .global_set_i64 => .globalSet .i64  -- :1808
  | .global_set_f32 => .globalSet .f32  -- :1809
  | .global_set_f64 => .globalSet .f64  -- :1810
  | .ref_local_get => .refLocalGet  -- :1833
  | .ref_local_set => .refLocalSet  -- :1849
  | .ref_null => .refNull  -- :1864
  | .ref_is_null => .refIsNull  -- :1876
  | .table_get => .tableGet  -- :1889
  | .table_set => .tableSet  -- :1918
  | .table_fill => .tableFill  -- :1940
  | .invalid => .invalid
  | h => .control h

/-- destination operand of an `I32Reg` … `F64Reg`: `Reg` or, folded, `Param` (e.g. parser.rs:2363-2384) -/
def Dst.asOpnd (c : Cls) : Dst → Opnd c
  | .reg i => .reg i
  | .loc i => .param i

/-- the arms of the one-operand operators, at the parser.rs lines given.  The source of a conversion is a register
(`allocator.pop`); `i32.extend32_s` is not an operator of WebAssembly. -/
def emitUn : (op : Op1) → Dst → Opnd op.src → Option Raw
  | .int .s32 .clz, d, a => some (.num .i32 Idx.i32_clz_ (d.asOpnd _) a none)  -- parser.rs:3108
  | .int .s32 .ctz, d, a => some (.num .i32 Idx.i32_ctz_ (d.asOpnd _) a none)  -- parser.rs:3136
  | .int .s32 .popcnt, d, a => some (.num .i32 Idx.i32_popcnt_ (d.asOpnd _) a none)  -- parser.rs:3164
  | .eqz .s32, d, a => some (.num .i32 Idx.i32_eqz_ (d.asOpnd _) a none)  -- parser.rs:3192
  | .int .s32 .extend8S, d, a => some (.num .i32 Idx.i32_extend8_s_ (d.asOpnd _) a none)  -- parser.rs:3220
  | .int .s32 .extend16S, d, a => some (.num .i32 Idx.i32_extend16_s_ (d.asOpnd _) a none)  -- parser.rs:3248
  | .int .s64 .clz, d, a => some (.num .i64 Idx.i64_clz_ (d.asOpnd _) a none)  -- parser.rs:3750
  | .int .s64 .ctz, d, a => some (.num .i64 Idx.i64_ctz_ (d.asOpnd _) a none)  -- parser.rs:3778
  | .int .s64 .popcnt, d, a => some (.num .i64 Idx.i64_popcnt_ (d.asOpnd _) a none)  -- parser.rs:3806
  | .int .s64 .extend8S, d, a => some (.num .i64 Idx.i64_extend8_s_ (d.asOpnd _) a none)  -- parser.rs:3834
  | .int .s64 .extend16S, d, a => some (.num .i64 Idx.i64_extend16_s_ (d.asOpnd _) a none)  -- parser.rs:3862
  | .int .s64 .extend32S, d, a => some (.num .i64 Idx.i64_extend32_s_ (d.asOpnd _) a none)  -- parser.rs:3890
  | .eqz .s64, d, a => some (.num .i64 Idx.i64_eqz_ (d.asOpnd _) a none)  -- parser.rs:3919
  | .abs .s32, d, a => some (.num .f32 Idx.f32_abs_ (d.asOpnd _) a none)  -- parser.rs:4325
  | .neg .s32, d, a => some (.num .f32 Idx.f32_neg_ (d.asOpnd _) a none)  -- parser.rs:4353
  | .round .s32 .ceil, d, a => some (.num .f32 Idx.f32_ceil_ (d.asOpnd _) a none)  -- parser.rs:4381
  | .round .s32 .floor, d, a => some (.num .f32 Idx.f32_floor_ (d.asOpnd _) a none)  -- parser.rs:4409
  | .round .s32 .trunc, d, a => some (.num .f32 Idx.f32_trunc_ (d.asOpnd _) a none)  -- parser.rs:4437
  | .round .s32 .nearest, d, a => some (.num .f32 Idx.f32_nearest_ (d.asOpnd _) a none)  -- parser.rs:4465
  | .round .s32 .sqrt, d, a => some (.num .f32 Idx.f32_sqrt_ (d.asOpnd _) a none)  -- parser.rs:4493
  | .abs .s64, d, a => some (.num .f64 Idx.f64_abs_ (d.asOpnd _) a none)  -- parser.rs:4850
  | .neg .s64, d, a => some (.num .f64 Idx.f64_neg_ (d.asOpnd _) a none)  -- parser.rs:4878
  | .round .s64 .ceil, d, a => some (.num .f64 Idx.f64_ceil_ (d.asOpnd _) a none)  -- parser.rs:4906
  | .round .s64 .floor, d, a => some (.num .f64 Idx.f64_floor_ (d.asOpnd _) a none)  -- parser.rs:4934
  | .round .s64 .trunc, d, a => some (.num .f64 Idx.f64_trunc_ (d.asOpnd _) a none)  -- parser.rs:4962
  | .round .s64 .nearest, d, a => some (.num .f64 Idx.f64_nearest_ (d.asOpnd _) a none)  -- parser.rs:4990
  | .round .s64 .sqrt, d, a => some (.num .f64 Idx.f64_sqrt_ (d.asOpnd _) a none)  -- parser.rs:5018
  | .extS, d, .reg i => some (.conversion Idx.i64_extend_i32_s_ d ⟨Op1.src (.extS), i⟩)  -- parser.rs:5610
  | .extU, d, .reg i => some (.conversion Idx.i64_extend_i32_u_ d ⟨Op1.src (.extU), i⟩)  -- parser.rs:5635
  | .wrap, d, .reg i => some (.conversion Idx.i32_wrap_i64_ d ⟨Op1.src (.wrap), i⟩)  -- parser.rs:5660
  | .trunc .i32_f32_s, d, .reg i => some (.conversion Idx.i32_trunc_f32_s_ d ⟨Op1.src (.trunc .i32_f32_s), i⟩)  -- parser.rs:5685
  | .trunc .i32_f32_u, d, .reg i => some (.conversion Idx.i32_trunc_f32_u_ d ⟨Op1.src (.trunc .i32_f32_u), i⟩)  -- parser.rs:5710
  | .trunc .i32_f64_s, d, .reg i => some (.conversion Idx.i32_trunc_f64_s_ d ⟨Op1.src (.trunc .i32_f64_s), i⟩)  -- parser.rs:5735
  | .trunc .i32_f64_u, d, .reg i => some (.conversion Idx.i32_trunc_f64_u_ d ⟨Op1.src (.trunc .i32_f64_u), i⟩)  -- parser.rs:5760
  | .trunc .i64_f32_s, d, .reg i => some (.conversion Idx.i64_trunc_f32_s_ d ⟨Op1.src (.trunc .i64_f32_s), i⟩)  -- parser.rs:5785
  | .trunc .i64_f32_u, d, .reg i => some (.conversion Idx.i64_trunc_f32_u_ d ⟨Op1.src (.trunc .i64_f32_u), i⟩)  -- parser.rs:5810
  | .trunc .i64_f64_s, d, .reg i => some (.conversion Idx.i64_trunc_f64_s_ d ⟨Op1.src (.trunc .i64_f64_s), i⟩)  -- parser.rs:5835
  | .trunc .i64_f64_u, d, .reg i => some (.conversion Idx.i64_trunc_f64_u_ d ⟨Op1.src (.trunc .i64_f64_u), i⟩)  -- parser.rs:5860
  | .truncSat .i32_f32_s, d, .reg i => some (.conversion Idx.i32_trunc_sat_f32_s_ d ⟨Op1.src (.truncSat .i32_f32_s), i⟩)  -- parser.rs:5885
  | .truncSat .i32_f32_u, d, .reg i => some (.conversion Idx.i32_trunc_sat_f32_u_ d ⟨Op1.src (.truncSat .i32_f32_u), i⟩)  -- parser.rs:5910
  | .truncSat .i32_f64_s, d, .reg i => some (.conversion Idx.i32_trunc_sat_f64_s_ d ⟨Op1.src (.truncSat .i32_f64_s), i⟩)  -- parser.rs:5935
  | .truncSat .i32_f64_u, d, .reg i => some (.conversion Idx.i32_trunc_sat_f64_u_ d ⟨Op1.src (.truncSat .i32_f64_u), i⟩)  -- parser.rs:5960
  | .truncSat .i64_f32_s, d, .reg i => some (.conversion Idx.i64_trunc_sat_f32_s_ d ⟨Op1.src (.truncSat .i64_f32_s), i⟩)  -- parser.rs:5985
  | .truncSat .i64_f32_u, d, .reg i => some (.conversion Idx.i64_trunc_sat_f32_u_ d ⟨Op1.src (.truncSat .i64_f32_u), i⟩)  -- parser.rs:6010
  | .truncSat .i64_f64_s, d, .reg i => some (.conversion Idx.i64_trunc_sat_f64_s_ d ⟨Op1.src (.truncSat .i64_f64_s), i⟩)  -- parser.rs:6035
  | .truncSat .i64_f64_u, d, .reg i => some (.conversion Idx.i64_trunc_sat_f64_u_ d ⟨Op1.src (.truncSat .i64_f64_u), i⟩)  -- parser.rs:6060
  | .convert .s32 .s32 true, d, .reg i => some (.conversion Idx.f32_convert_i32_s_ d ⟨Op1.src (.convert .s32 .s32 true), i⟩)  -- parser.rs:6085
  | .convert .s32 .s32 false, d, .reg i => some (.conversion Idx.f32_convert_i32_u_ d ⟨Op1.src (.convert .s32 .s32 false), i⟩)  -- parser.rs:6110
  | .convert .s32 .s64 true, d, .reg i => some (.conversion Idx.f32_convert_i64_s_ d ⟨Op1.src (.convert .s32 .s64 true), i⟩)  -- parser.rs:6135
  | .convert .s32 .s64 false, d, .reg i => some (.conversion Idx.f32_convert_i64_u_ d ⟨Op1.src (.convert .s32 .s64 false), i⟩)  -- parser.rs:6160
  | .convert .s64 .s32 true, d, .reg i => some (.conversion Idx.f64_convert_i32_s_ d ⟨Op1.src (.convert .s64 .s32 true), i⟩)  -- parser.rs:6185
  | .convert .s64 .s32 false, d, .reg i => some (.conversion Idx.f64_convert_i32_u_ d ⟨Op1.src (.convert .s64 .s32 false), i⟩)  -- parser.rs:6210
  | .convert .s64 .s64 true, d, .reg i => some (.conversion Idx.f64_convert_i64_s_ d ⟨Op1.src (.convert .s64 .s64 true), i⟩)  -- parser.rs:6235
  | .convert .s64 .s64 false, d, .reg i => some (.conversion Idx.f64_convert_i64_u_ d ⟨Op1.src (.convert .s64 .s64 false), i⟩)  -- parser.rs:6260
  | .demote, d, .reg i => some (.conversion Idx.f32_demote_f64_ d ⟨Op1.src (.demote), i⟩)  -- parser.rs:6285
  | .promote, d, .reg i => some (.conversion Idx.f64_promote_f32_ d ⟨Op1.src (.promote), i⟩)  -- parser.rs:6310
  | .reinterpIF .s32, d, .reg i => some (.conversion Idx.i32_reinterpret_f32_ d ⟨Op1.src (.reinterpIF .s32), i⟩)  -- parser.rs:6335
  | .reinterpIF .s64, d, .reg i => some (.conversion Idx.i64_reinterpret_f64_ d ⟨Op1.src (.reinterpIF .s64), i⟩)  -- parser.rs:6360
  | .reinterpFI .s32, d, .reg i => some (.conversion Idx.f32_reinterpret_i32_ d ⟨Op1.src (.reinterpFI .s32), i⟩)  -- parser.rs:6385
  | .reinterpFI .s64, d, .reg i => some (.conversion Idx.f64_reinterpret_i64_ d ⟨Op1.src (.reinterpFI .s64), i⟩)  -- parser.rs:6410
  | _, _, _ => none

/-- the arms of the two-operand operators -/
def emitBin : (op : Op2) → Dst → Opnd op.src → Opnd op.src → Raw
  | .int .s32 .add, d, a, b => .num .i32 Idx.i32_add_ (d.asOpnd _) a (some b)  -- parser.rs:2351
  | .int .s32 .sub, d, a, b => .num .i32 Idx.i32_sub_ (d.asOpnd _) a (some b)  -- parser.rs:2386
  | .int .s32 .mul, d, a, b => .num .i32 Idx.i32_mul_ (d.asOpnd _) a (some b)  -- parser.rs:2416
  | .int .s32 .divS, d, a, b => .num .i32 Idx.i32_div_s_ (d.asOpnd _) a (some b)  -- parser.rs:2446
  | .int .s32 .divU, d, a, b => .num .i32 Idx.i32_div_u_ (d.asOpnd _) a (some b)  -- parser.rs:2476
  | .int .s32 .remS, d, a, b => .num .i32 Idx.i32_rem_s_ (d.asOpnd _) a (some b)  -- parser.rs:2506
  | .int .s32 .remU, d, a, b => .num .i32 Idx.i32_rem_u_ (d.asOpnd _) a (some b)  -- parser.rs:2536
  | .int .s32 .and, d, a, b => .num .i32 Idx.i32_and_ (d.asOpnd _) a (some b)  -- parser.rs:2566
  | .int .s32 .or, d, a, b => .num .i32 Idx.i32_or_ (d.asOpnd _) a (some b)  -- parser.rs:2596
  | .int .s32 .xor, d, a, b => .num .i32 Idx.i32_xor_ (d.asOpnd _) a (some b)  -- parser.rs:2626
  | .int .s32 .shl, d, a, b => .num .i32 Idx.i32_shl_ (d.asOpnd _) a (some b)  -- parser.rs:2656
  | .int .s32 .shrS, d, a, b => .num .i32 Idx.i32_shr_s_ (d.asOpnd _) a (some b)  -- parser.rs:2686
  | .int .s32 .shrU, d, a, b => .num .i32 Idx.i32_shr_u_ (d.asOpnd _) a (some b)  -- parser.rs:2716
  | .int .s32 .rotl, d, a, b => .num .i32 Idx.i32_rotl_ (d.asOpnd _) a (some b)  -- parser.rs:2746
  | .int .s32 .rotr, d, a, b => .num .i32 Idx.i32_rotr_ (d.asOpnd _) a (some b)  -- parser.rs:2776
  | .rel .s32 .eq, d, a, b => .num .i32 Idx.i32_eq_ (d.asOpnd _) a (some b)  -- parser.rs:2807
  | .rel .s32 .ne, d, a, b => .num .i32 Idx.i32_ne_ (d.asOpnd _) a (some b)  -- parser.rs:2837
  | .rel .s32 .ltS, d, a, b => .num .i32 Idx.i32_lt_s_ (d.asOpnd _) a (some b)  -- parser.rs:2867
  | .rel .s32 .ltU, d, a, b => .num .i32 Idx.i32_lt_u_ (d.asOpnd _) a (some b)  -- parser.rs:2897
  | .rel .s32 .leS, d, a, b => .num .i32 Idx.i32_le_s_ (d.asOpnd _) a (some b)  -- parser.rs:2927
  | .rel .s32 .leU, d, a, b => .num .i32 Idx.i32_le_u_ (d.asOpnd _) a (some b)  -- parser.rs:2957
  | .rel .s32 .gtS, d, a, b => .num .i32 Idx.i32_gt_s_ (d.asOpnd _) a (some b)  -- parser.rs:2987
  | .rel .s32 .gtU, d, a, b => .num .i32 Idx.i32_gt_u_ (d.asOpnd _) a (some b)  -- parser.rs:3017
  | .rel .s32 .geS, d, a, b => .num .i32 Idx.i32_ge_s_ (d.asOpnd _) a (some b)  -- parser.rs:3047
  | .rel .s32 .geU, d, a, b => .num .i32 Idx.i32_ge_u_ (d.asOpnd _) a (some b)  -- parser.rs:3077
  | .int .s64 .add, d, a, b => .num .i64 Idx.i64_add_ (d.asOpnd _) a (some b)  -- parser.rs:3298
  | .int .s64 .sub, d, a, b => .num .i64 Idx.i64_sub_ (d.asOpnd _) a (some b)  -- parser.rs:3328
  | .int .s64 .mul, d, a, b => .num .i64 Idx.i64_mul_ (d.asOpnd _) a (some b)  -- parser.rs:3358
  | .int .s64 .divS, d, a, b => .num .i64 Idx.i64_div_s_ (d.asOpnd _) a (some b)  -- parser.rs:3388
  | .int .s64 .divU, d, a, b => .num .i64 Idx.i64_div_u_ (d.asOpnd _) a (some b)  -- parser.rs:3418
  | .int .s64 .remS, d, a, b => .num .i64 Idx.i64_rem_s_ (d.asOpnd _) a (some b)  -- parser.rs:3448
  | .int .s64 .remU, d, a, b => .num .i64 Idx.i64_rem_u_ (d.asOpnd _) a (some b)  -- parser.rs:3478
  | .int .s64 .and, d, a, b => .num .i64 Idx.i64_and_ (d.asOpnd _) a (some b)  -- parser.rs:3509
  | .int .s64 .or, d, a, b => .num .i64 Idx.i64_or_ (d.asOpnd _) a (some b)  -- parser.rs:3539
  | .int .s64 .xor, d, a, b => .num .i64 Idx.i64_xor_ (d.asOpnd _) a (some b)  -- parser.rs:3569
  | .int .s64 .shl, d, a, b => .num .i64 Idx.i64_shl_ (d.asOpnd _) a (some b)  -- parser.rs:3599
  | .int .s64 .shrS, d, a, b => .num .i64 Idx.i64_shr_s_ (d.asOpnd _) a (some b)  -- parser.rs:3629
  | .int .s64 .shrU, d, a, b => .num .i64 Idx.i64_shr_u_ (d.asOpnd _) a (some b)  -- parser.rs:3659
  | .int .s64 .rotl, d, a, b => .num .i64 Idx.i64_rotl_ (d.asOpnd _) a (some b)  -- parser.rs:3689
  | .int .s64 .rotr, d, a, b => .num .i64 Idx.i64_rotr_ (d.asOpnd _) a (some b)  -- parser.rs:3719
  | .rel .s64 .eq, d, a, b => .num .i64 Idx.i64_eq_ (d.asOpnd _) a (some b)  -- parser.rs:3933
  | .rel .s64 .ne, d, a, b => .num .i64 Idx.i64_ne_ (d.asOpnd _) a (some b)  -- parser.rs:3949
  | .rel .s64 .ltS, d, a, b => .num .i64 Idx.i64_lt_s_ (d.asOpnd _) a (some b)  -- parser.rs:3965
  | .rel .s64 .ltU, d, a, b => .num .i64 Idx.i64_lt_u_ (d.asOpnd _) a (some b)  -- parser.rs:3981
  | .rel .s64 .gtS, d, a, b => .num .i64 Idx.i64_gt_s_ (d.asOpnd _) a (some b)  -- parser.rs:3997
  | .rel .s64 .gtU, d, a, b => .num .i64 Idx.i64_gt_u_ (d.asOpnd _) a (some b)  -- parser.rs:4013
  | .rel .s64 .leS, d, a, b => .num .i64 Idx.i64_le_s_ (d.asOpnd _) a (some b)  -- parser.rs:4029
  | .rel .s64 .leU, d, a, b => .num .i64 Idx.i64_le_u_ (d.asOpnd _) a (some b)  -- parser.rs:4045
  | .rel .s64 .geS, d, a, b => .num .i64 Idx.i64_ge_s_ (d.asOpnd _) a (some b)  -- parser.rs:4061
  | .rel .s64 .geU, d, a, b => .num .i64 Idx.i64_ge_u_ (d.asOpnd _) a (some b)  -- parser.rs:4077
  | .arith .s32 .add, d, a, b => .num .f32 Idx.f32_add_ (d.asOpnd _) a (some b)  -- parser.rs:4114
  | .arith .s32 .sub, d, a, b => .num .f32 Idx.f32_sub_ (d.asOpnd _) a (some b)  -- parser.rs:4144
  | .arith .s32 .mul, d, a, b => .num .f32 Idx.f32_mul_ (d.asOpnd _) a (some b)  -- parser.rs:4174
  | .arith .s32 .div, d, a, b => .num .f32 Idx.f32_div_ (d.asOpnd _) a (some b)  -- parser.rs:4204
  | .min .s32, d, a, b => .num .f32 Idx.f32_min_ (d.asOpnd _) a (some b)  -- parser.rs:4234
  | .max .s32, d, a, b => .num .f32 Idx.f32_max_ (d.asOpnd _) a (some b)  -- parser.rs:4264
  | .copysign .s32, d, a, b => .num .f32 Idx.f32_copysign_ (d.asOpnd _) a (some b)  -- parser.rs:4294
  | .frel .s32 .eq, d, a, b => .num .f32 Idx.f32_eq_ (d.asOpnd _) a (some b)  -- parser.rs:4522
  | .frel .s32 .ne, d, a, b => .num .f32 Idx.f32_ne_ (d.asOpnd _) a (some b)  -- parser.rs:4538
  | .frel .s32 .lt, d, a, b => .num .f32 Idx.f32_lt_ (d.asOpnd _) a (some b)  -- parser.rs:4554
  | .frel .s32 .gt, d, a, b => .num .f32 Idx.f32_gt_ (d.asOpnd _) a (some b)  -- parser.rs:4570
  | .frel .s32 .le, d, a, b => .num .f32 Idx.f32_le_ (d.asOpnd _) a (some b)  -- parser.rs:4586
  | .frel .s32 .ge, d, a, b => .num .f32 Idx.f32_ge_ (d.asOpnd _) a (some b)  -- parser.rs:4602
  | .arith .s64 .add, d, a, b => .num .f64 Idx.f64_add_ (d.asOpnd _) a (some b)  -- parser.rs:4639
  | .arith .s64 .sub, d, a, b => .num .f64 Idx.f64_sub_ (d.asOpnd _) a (some b)  -- parser.rs:4669
  | .arith .s64 .mul, d, a, b => .num .f64 Idx.f64_mul_ (d.asOpnd _) a (some b)  -- parser.rs:4699
  | .arith .s64 .div, d, a, b => .num .f64 Idx.f64_div_ (d.asOpnd _) a (some b)  -- parser.rs:4729
  | .min .s64, d, a, b => .num .f64 Idx.f64_min_ (d.asOpnd _) a (some b)  -- parser.rs:4759
  | .max .s64, d, a, b => .num .f64 Idx.f64_max_ (d.asOpnd _) a (some b)  -- parser.rs:4789
  | .copysign .s64, d, a, b => .num .f64 Idx.f64_copysign_ (d.asOpnd _) a (some b)  -- parser.rs:4819
  | .frel .s64 .eq, d, a, b => .num .f64 Idx.f64_eq_ (d.asOpnd _) a (some b)  -- parser.rs:5047
  | .frel .s64 .ne, d, a, b => .num .f64 Idx.f64_ne_ (d.asOpnd _) a (some b)  -- parser.rs:5063
  | .frel .s64 .lt, d, a, b => .num .f64 Idx.f64_lt_ (d.asOpnd _) a (some b)  -- parser.rs:5079
  | .frel .s64 .gt, d, a, b => .num .f64 Idx.f64_gt_ (d.asOpnd _) a (some b)  -- parser.rs:5095
  | .frel .s64 .le, d, a, b => .num .f64 Idx.f64_le_ (d.asOpnd _) a (some b)  -- parser.rs:5111
  | .frel .s64 .ge, d, a, b => .num .f64 Idx.f64_ge_ (d.asOpnd _) a (some b)  -- parser.rs:5127

/-- the arms of the loads -/
def loadIdx : LoadOp → Nat
  | .i32 => Idx.i32_load_  -- parser.rs:6436
  | .i64 => Idx.i64_load_  -- parser.rs:6464
  | .f32 => Idx.f32_load_  -- parser.rs:6492
  | .f64 => Idx.f64_load_  -- parser.rs:6520
  | .i32_8s => Idx.i32_load8_s_  -- parser.rs:6548
  | .i32_8u => Idx.i32_load8_u_  -- parser.rs:6576
  | .i32_16s => Idx.i32_load16_s_  -- parser.rs:6604
  | .i32_16u => Idx.i32_load16_u_  -- parser.rs:6632
  | .i64_8s => Idx.i64_load8_s_  -- parser.rs:6660
  | .i64_8u => Idx.i64_load8_u_  -- parser.rs:6688
  | .i64_16s => Idx.i64_load16_s_  -- parser.rs:6716
  | .i64_16u => Idx.i64_load16_u_  -- parser.rs:6744
  | .i64_32s => Idx.i64_load32_s_  -- parser.rs:6772
  | .i64_32u => Idx.i64_load32_u_  -- parser.rs:6800

/-- the arms of the stores -/
def storeIdx : StoreOp → Nat
  | .i32 => Idx.i32_store_  -- parser.rs:6829
  | .i64 => Idx.i64_store_  -- parser.rs:6843
  | .f32 => Idx.f32_store_  -- parser.rs:6857
  | .f64 => Idx.f64_store_  -- parser.rs:6871
  | .i32_8 => Idx.i32_store8_  -- parser.rs:6885
  | .i32_16 => Idx.i32_store16_  -- parser.rs:6899
  | .i64_8 => Idx.i64_store8_  -- parser.rs:6913
  | .i64_16 => Idx.i64_store16_  -- parser.rs:6927
  | .i64_32 => Idx.i64_store32_  -- parser.rs:6941

/-- parser.rs:2329, 3279, 4094, 4619: the constants -/
def constIdx : Cls → Option Nat
  | .i32 => some Idx.i32_const_
  | .i64 => some Idx.i64_const_
  | .f32 => some Idx.f32_const_
  | .f64 => some Idx.f64_const_
  | _ => none

/-- parser.rs:7040-7048, 7068-7074 -/
def selectIdx : Cls → Option Nat
  | .i32 => some Idx.select_i32_
  | .i64 => some Idx.select_i64_
  | .f32 => some Idx.select_f32_
  | .f64 => some Idx.select_f64_
  | _ => none

/-- parser.rs:2149-2252 -/
def globalGetIdx : Cls → Option Nat
  | .i32 => some Idx.global_get_i32_
  | .i64 => some Idx.global_get_i64_
  | .f32 => some Idx.global_get_f32_
  | .f64 => some Idx.global_get_f64_
  | _ => none

/-- parser.rs:2257-2324 -/
def globalSetIdx : Cls → Option Nat
  | .i32 => some Idx.global_set_i32_
  | .i64 => some Idx.global_set_i64_
  | .f32 => some Idx.global_set_f32_
  | .f64 => some Idx.global_set_f64_
  | _ => none

/-- the operator behind a plain copy -/
inductive Copy | get | set | tee | const
  deriving DecidableEq, Repr

/-- handler index of a plain copy: `local.get` (parser.rs:1958-2015), `local.set` (2042-2075), `local.tee` (2095-2131: for
i32 the index of `local.set`), constants -/
def copyIdx : Copy → Cls → Option Nat
  | .const, c => constIdx c
  | k, c =>
    if c = .ref ∨ c = .v128 then none
    else match k with
      | .get => some Idx.local_get_
      | .set => some Idx.local_set_
      | .tee => some (if c = .i32 then Idx.local_set_ else Idx.local_tee_)
      | .const => none

/-- The `ProcessedInstr` the preprocessor builds for an instruction of the model (parser.rs:1939-7180); `k` tells which
operator a plain copy comes from.  `none`: the preprocessor never builds it. -/
def emitted (k : Copy) : Instr → Option Raw
  | .op1 (.mov c) d a => (copyIdx k c).map fun h => .num c h (d.asOpnd c) a none
  | .op1 op d a => emitUn op d a
  | .op2 op d a b => some (emitBin op d a b)
  | .load op d a off => some (.memoryLoad (loadIdx op) d a off)
  | .store op a v off => some (.memoryStore (storeIdx op) a ⟨op.cls, v⟩ off)
  | .memSize d => some (.memoryOps Idx.memory_size_ (some ⟨.i32, d⟩) [] 0)  -- parser.rs:6957
  | .memGrow d a => some (.memoryOps Idx.memory_grow_ (some ⟨.i32, d⟩) [⟨.i32, a⟩] 0)
  | .memCopy d s n => some (.memoryOps Idx.memory_copy_ none [⟨.i32, d⟩, ⟨.i32, s⟩, ⟨.i32, n⟩] 0)
  | .memInit x d s n => some (.memoryOps Idx.memory_init_ none [⟨.i32, d⟩, ⟨.i32, s⟩, ⟨.i32, n⟩] x)
  | .memFill d v n => some (.memoryOps Idx.memory_fill_ none [⟨.i32, d⟩, ⟨.i32, v⟩, ⟨.i32, n⟩] 0)
  | .select c d v1 v2 x => (selectIdx c).map fun h => .select h ⟨c, d⟩ ⟨c, v1⟩ ⟨c, v2⟩ ⟨.i32, x⟩
  | .globalGet c d g => (globalGetIdx c).map fun h => .globalGet h d g
  | .globalSet c s g => (globalSetIdx c).map fun h => .globalSet h s g
  | .dataDrop x => some (.dataDrop x)
  | .refLocalGet d l => some (.refLocal Idx.ref_local_get_ d 0 l)
  | .refLocalSet s l => some (.refLocal Idx.ref_local_set_ 0 s l)
  | .refNull d => some (.tableRef Idx.ref_null_ 0 d 0 0)
  | .refIsNull d s => some (.tableRef Idx.ref_is_null_ 0 d s 0)
  | .tableGet t d i => some (.tableRef Idx.table_get_ t d i 0)
  | .tableSet t i s => some (.tableRef Idx.table_set_ t i s 0)
  | .tableFill t i s n => some (.tableRef Idx.table_fill_ t i s n)
  | .callWasi id ps r => some (.callWasi id ps r)
  | .callIndirect ty t i ps rs => some (.callIndirect ty t ⟨.i32, i⟩ ps rs)
  | .call f ps rs => some (.call f ps rs)
  | .ret rs => some (.ret rs)
  | .jump t => some (.jump t)
  | .block l => some (.block l)
  | .ite c e h => some (.ite ⟨.i32, c⟩ e h)
  | .fin s d => some (.fin s d)
  | .br k t s d => some (.br k t s d)
  | .brIf k t c s d => some (.brIf k t ⟨.i32, c⟩ s d)
  | .brTable ts d i s => some (.brTable ts d ⟨.i32, i⟩ s)
  | .nop => some .nop
  | .unreachable => some .unreachable

end Verif.Model
