import Verif.Spec.Source
/-
WebAssembly by inference rules, without the interpreter's operator functions: numerics through `Spec.Num` and `Spec.Float`,
memory byte by byte, control by a big-step relation.  Only data types (values, memories, stores, operator names) are shared
with the model.  Which NaN a float operation produces, if it does, is a parameter (`FloatHost`).

`Odd` lists the uses of operators on which the interpreter is known not to follow WebAssembly (see C04, C09, C10, C36) and
those that no valid module contains.
-/
namespace Verif.Spec
open Verif.Model

/-! ## Numerics -/

/-- if the result is a NaN, it is the one the machine produces (WebAssembly leaves the choice open) -/
def NaNIs (s : Sz) (v nan : s.flt.Carrier) : Prop := s.fmt.val (s.flt.num v) = .nan → v = nan

/-- Result of a one-operand operator on `a`; `none` is a trap. -/
def Unary (H : FloatHost) : (op : Op1) → op.src.Carrier → Option op.dst.Carrier → Prop
  | .mov _, a, r => r = some a
  | .int s op, a, r => ∃ v, r = some v ∧ IUnop s.bits op (s.int.num a) (s.int.num v)
  | .eqz s, a, r => ∃ v, r = some v ∧ Cls.num .i32 v = if s.int.num a = 0 then 1 else 0
  | .abs s, a, r => ∃ v, r = some v ∧ s.fmt.SameMagnitude (s.flt.num v) (s.flt.num a) ∧ s.fmt.sign (s.flt.num v) = false
  | .neg s, a, r => ∃ v, r = some v ∧ s.fmt.SameMagnitude (s.flt.num v) (s.flt.num a) ∧
      s.fmt.sign (s.flt.num v) = !s.fmt.sign (s.flt.num a)
  | .round s op, a, r => ∃ v, r = some v ∧ Rounded s.fmt op (s.flt.num a) (s.flt.num v) ∧ NaNIs s v (H.round s op a)
  | .extS, a, r => ∃ v, r = some v ∧ signed 64 (Cls.num .i64 v) = signed 32 (Cls.num .i32 a)
  | .extU, a, r => ∃ v, r = some v ∧ Cls.num .i64 v = Cls.num .i32 a
  | .wrap, a, r => ∃ v, r = some v ∧ Cls.num .i32 v = Cls.num .i64 a % 2 ^ 32
  | .trunc op, a, r =>
    match op.result (op.ssz.flt.num a) with
    | some z => ∃ v, r = some v ∧ op.dsz.int.num v = unsigned op.dsz.bits z
    | none => r = none
  | .truncSat op, a, r => ∃ v, r = some v ∧ op.dsz.int.num v = unsigned op.dsz.bits (op.satResult (op.ssz.flt.num a))
  | .convert d s sg, a, r => ∃ v, r = some v ∧ FromInt d.fmt (if sg then signed s.bits (s.int.num a) else s.int.num a) (d.flt.num v)
  | .demote, a, r => ∃ v, r = some v ∧ FromFloat f64 f32 (Cls.num .f64 a) (Cls.num .f32 v) ∧ NaNIs .s32 v (H.demote a)
  | .promote, a, r => ∃ v, r = some v ∧ FromFloat f32 f64 (Cls.num .f32 a) (Cls.num .f64 v) ∧ NaNIs .s64 v (H.promote a)
  | .reinterpIF s, a, r => ∃ v, r = some v ∧ s.int.num v = s.flt.num a
  | .reinterpFI s, a, r => ∃ v, r = some v ∧ s.flt.num v = s.int.num a

/-- the i32 1 or 0 -/
def IsBool (p : Prop) (v : BitVec 32) : Prop := (p → v.toNat = 1) ∧ (¬ p → v.toNat = 0)

/-- WebAssembly leaves the sign of a NaN that `min` and `max` produce open; as in its deterministic profile, it is positive. -/
def PosNaN (s : Sz) (v : s.flt.Carrier) : Prop := s.fmt.val (s.flt.num v) = .nan → s.fmt.sign (s.flt.num v) = false

/-- Result of a two-operand operator on `a` and `b` (`a` pushed first); `none` is a trap. -/
def Binary (H : FloatHost) : (op : Op2) → op.src.Carrier → op.src.Carrier → Option op.dst.Carrier → Prop
  | .int s op, a, b, r =>
    match ibinop s.bits op (s.int.num a) (s.int.num b) with
    | some n => ∃ v, r = some v ∧ s.int.num v = n
    | none => r = none
  | .rel s op, a, b, r => ∃ v, r = some v ∧ IsBool (irelop s.bits op (s.int.num a) (s.int.num b) = true) v
  | .arith s op, a, b, r => ∃ v, r = some v ∧ Arith s.fmt op (s.flt.num a) (s.flt.num b) (s.flt.num v) ∧
      NaNIs s v (H.arith s op a b)
  | .min s, a, b, r => ∃ v, r = some v ∧ IsFMin s.fmt (s.flt.num a) (s.flt.num b) (s.flt.num v) ∧ PosNaN s v
  | .max s, a, b, r => ∃ v, r = some v ∧ IsFMax s.fmt (s.flt.num a) (s.flt.num b) (s.flt.num v) ∧ PosNaN s v
  | .copysign s, a, b, r => ∃ v, r = some v ∧ s.fmt.SameMagnitude (s.flt.num v) (s.flt.num a) ∧
      s.fmt.sign (s.flt.num v) = s.fmt.sign (s.flt.num b)
  | .frel s op, a, b, r => ∃ v, r = some v ∧ IsBool (frelop op (s.fmt.val (s.flt.num a)) (s.fmt.val (s.flt.num b))) v

/-! ## Memory -/

/-- byte `i` of a memory as a number -/
def _root_.Verif.Model.Mem.byte (m : Mem) (i : Nat) : Nat := (m.data.getD i 0).toNat

/-- `m'` is `m` except that byte `i` of the `n` bytes from `at_` on is `f i` -/
structure _root_.Verif.Model.Mem.Updates (m : Mem) (at_ n : Nat) (f : Nat → Option Byte) (m' : Mem) : Prop where
  length : m'.data.length = m.data.length
  max : m'.max = m.max
  inside : ∀ i, i < n → m'.data[at_ + i]? = f i
  outside : ∀ i, i < at_ ∨ at_ + n ≤ i → m'.data[i]? = m.data[i]?

/-- number of pages -/
def _root_.Verif.Model.Mem.pages (m : Mem) : Nat := m.data.length / pageSize

/-! ## Operators -/

/-- the operator falls through, or traps -/
inductive OpOut (W : Type)
  | next (stk : List Val) (s : SSt W)
  | trap

variable {W : Type}

/-- an i32 on the stack -/
abbrev i32 (x : BitVec 32) : Val := ⟨.i32, x⟩
/-- a reference on the stack -/
abbrev rf (x : Ref) : Val := ⟨.ref, x⟩

/-- replace memory -/
def SSt.withMem (s : SSt W) (m : Mem) : SSt W := { s with st := { s.st with mem := some m } }
/-- replace table `t` -/
def SSt.withTable (s : SSt W) (t : Nat) (tb : List Ref) : SSt W := { s with st := { s.st with tables := s.st.tables.set t tb } }

/-- The operators that neither branch nor call.  Stacks have their top first.  `memory.grow` fails only if it must. -/
inductive Op (H : FloatHost) : WOp → List Val → SSt W → OpOut W → Prop
  | localGet {i v stk s} (h : s.locals[i]? = some v) : Op H (.localGet i) stk s (.next (v :: stk) s)
  | localSet {i v stk s} (h : i < s.locals.length) :
      Op H (.localSet i) (v :: stk) s (.next stk { s with locals := s.locals.set i v })
  | localTee {i v stk s} (h : i < s.locals.length) :
      Op H (.localTee i) (v :: stk) s (.next (v :: stk) { s with locals := s.locals.set i v })
  | globalGet {g gl stk s} (h : s.st.globals[g]? = some gl) : Op H (.globalGet g) stk s (.next (gl.value :: stk) s)
  | globalSet {g gl v stk s} (h : s.st.globals[g]? = some gl) :
      Op H (.globalSet g) (v :: stk) s
        (.next stk { s with st := { s.st with globals := s.st.globals.set g { gl with value := v } } })
  | const {c v stk s} : Op H (.const c v) stk s (.next (⟨c, v⟩ :: stk) s)
  | un {op a v stk s} (h : Unary H op a (some v)) : Op H (.un op) (⟨op.src, a⟩ :: stk) s (.next (⟨op.dst, v⟩ :: stk) s)
  | unTrap {op a stk s} (h : Unary H op a none) : Op H (.un op) (⟨op.src, a⟩ :: stk) s .trap
  | bin {op a b v stk s} (h : Binary H op a b (some v)) :
      Op H (.bin op) (⟨op.src, b⟩ :: ⟨op.src, a⟩ :: stk) s (.next (⟨op.dst, v⟩ :: stk) s)
  | binTrap {op a b stk s} (h : Binary H op a b none) : Op H (.bin op) (⟨op.src, b⟩ :: ⟨op.src, a⟩ :: stk) s .trap
  | load {op off p v m stk s} (hm : s.st.mem = some m) (hb : InBounds m.data.length (p.toNat + off.toNat) op.bytes)
      (hv : op.cls.num v = op.result (leValue m.byte (p.toNat + off.toNat) op.bytes)) :
      Op H (.load op off) (i32 p :: stk) s (.next (⟨op.cls, v⟩ :: stk) s)
  | loadTrap {op off p m stk s} (hm : s.st.mem = some m)
      (hb : ¬ InBounds m.data.length (p.toNat + off.toNat) op.bytes) : Op H (.load op off) (i32 p :: stk) s .trap
  | store {op off p v m m' stk s} (hm : s.st.mem = some m) (hb : InBounds m.data.length (p.toNat + off.toNat) op.bytes)
      (hu : m.Updates (p.toNat + off.toNat) op.bytes (fun i => some (BitVec.ofNat 8 (leByte (op.cls.num v) i))) m') :
      Op H (.store op off) (⟨op.cls, v⟩ :: i32 p :: stk) s (.next stk (s.withMem m'))
  | storeTrap {op off p v m stk s} (hm : s.st.mem = some m)
      (hb : ¬ InBounds m.data.length (p.toNat + off.toNat) op.bytes) :
      Op H (.store op off) (⟨op.cls, v⟩ :: i32 p :: stk) s .trap
  | memSize {m v stk s} (hm : s.st.mem = some m) (hv : v.toNat = m.pages) : Op H .memSize stk s (.next (i32 v :: stk) s)
  | memGrow {m m' d v stk s} (hm : s.st.mem = some m) (ha : growAllowed (m.max.map (·.toNat)) m.pages d.toNat)
      (hv : v.toNat = m.pages) (hx : m'.max = m.max) (hd : m'.data = m.data ++ List.replicate (d.toNat * pageSize) 0) :
      Op H .memGrow (i32 d :: stk) s (.next (i32 v :: stk) (s.withMem m'))
  | memGrowFail {m d v stk s} (hm : s.st.mem = some m) (ha : ¬ growAllowed (m.max.map (·.toNat)) m.pages d.toNat)
      (hv : v.toNat = 2 ^ 32 - 1) : Op H .memGrow (i32 d :: stk) s (.next (i32 v :: stk) s)
  | memCopy {m m' a b n stk s} (hm : s.st.mem = some m) (ha : InBounds m.data.length a.toNat n.toNat)
      (hb : InBounds m.data.length b.toNat n.toNat) (hu : m.Updates a.toNat n.toNat (fun i => m.data[b.toNat + i]?) m') :
      Op H .memCopy (i32 n :: i32 b :: i32 a :: stk) s (.next stk (s.withMem m'))
  | memCopyTrap {m a b n stk s} (hm : s.st.mem = some m)
      (hb : ¬ InBounds m.data.length a.toNat n.toNat ∨ ¬ InBounds m.data.length b.toNat n.toNat) :
      Op H .memCopy (i32 n :: i32 b :: i32 a :: stk) s .trap
  | memFill {m m' a v n stk s} (hm : s.st.mem = some m) (ha : InBounds m.data.length a.toNat n.toNat)
      (hu : m.Updates a.toNat n.toNat (fun _ => some (BitVec.ofNat 8 (v.toNat % 256))) m') :
      Op H .memFill (i32 n :: i32 v :: i32 a :: stk) s (.next stk (s.withMem m'))
  | memFillTrap {m a v n stk s} (hm : s.st.mem = some m) (hb : ¬ InBounds m.data.length a.toNat n.toNat) :
      Op H .memFill (i32 n :: i32 v :: i32 a :: stk) s .trap
  | memInit {k seg m m' a b n stk s} (hm : s.st.mem = some m) (hk : s.st.datas[k]? = some seg)
      (ha : InBounds m.data.length a.toNat n.toNat) (hb : InBounds seg.length b.toNat n.toNat)
      (hu : m.Updates a.toNat n.toNat (fun i => seg[b.toNat + i]?) m') :
      Op H (.memInit k) (i32 n :: i32 b :: i32 a :: stk) s (.next stk (s.withMem m'))
  | memInitTrap {k seg m a b n stk s} (hm : s.st.mem = some m) (hk : s.st.datas[k]? = some seg)
      (hb : ¬ InBounds m.data.length a.toNat n.toNat ∨ ¬ InBounds seg.length b.toNat n.toNat) :
      Op H (.memInit k) (i32 n :: i32 b :: i32 a :: stk) s .trap
  | dataDrop {k stk s} (h : k < s.st.datas.length) :
      Op H (.dataDrop k) stk s (.next stk { s with st := { s.st with datas := s.st.datas.set k [] } })
  | select1 {c v1 v2 stk s} (h : c.toNat ≠ 0) : Op H .select (i32 c :: v2 :: v1 :: stk) s (.next (v1 :: stk) s)
  | select2 {v1 v2 stk s} : Op H .select (i32 0 :: v2 :: v1 :: stk) s (.next (v2 :: stk) s)
  | selectT1 {t c v1 v2 stk s} (h : c.toNat ≠ 0) : Op H (.selectT t) (i32 c :: v2 :: v1 :: stk) s (.next (v1 :: stk) s)
  | selectT2 {t v1 v2 stk s} : Op H (.selectT t) (i32 0 :: v2 :: v1 :: stk) s (.next (v2 :: stk) s)
  | refNull {stk s} : Op H .refNull stk s (.next (rf .null :: stk) s)
  | refIsNull {r v stk s} (h : IsBool (r = .null) v) : Op H .refIsNull (rf r :: stk) s (.next (i32 v :: stk) s)
  | tableGet {t tb i r stk s} (ht : s.st.tables[t]? = some tb) (h : tb[i.toNat]? = some r) :
      Op H (.tableGet t) (i32 i :: stk) s (.next (rf r :: stk) s)
  | tableGetTrap {t tb i stk s} (ht : s.st.tables[t]? = some tb) (h : tb.length ≤ i.toNat) :
      Op H (.tableGet t) (i32 i :: stk) s .trap
  | tableSet {t tb i r stk s} (ht : s.st.tables[t]? = some tb) (h : i.toNat < tb.length) :
      Op H (.tableSet t) (rf r :: i32 i :: stk) s (.next stk (s.withTable t (tb.set i.toNat r)))
  | tableSetTrap {t tb i r stk s} (ht : s.st.tables[t]? = some tb) (h : tb.length ≤ i.toNat) :
      Op H (.tableSet t) (rf r :: i32 i :: stk) s .trap
  | tableFill {t tb tb' i r n stk s} (ht : s.st.tables[t]? = some tb) (h : i.toNat + n.toNat ≤ tb.length)
      (hl : tb'.length = tb.length)
      (hu : ∀ j, tb'[j]? = if i.toNat ≤ j ∧ j < i.toNat + n.toNat then some r else tb[j]?) :
      Op H (.tableFill t) (i32 n :: rf r :: i32 i :: stk) s (.next stk (s.withTable t tb'))
  | tableFillTrap {t tb i r n stk s} (ht : s.st.tables[t]? = some tb) (h : tb.length < i.toNat + n.toNat) :
      Op H (.tableFill t) (i32 n :: rf r :: i32 i :: stk) s .trap
  | drop {v stk s} : Op H .drop (v :: stk) s (.next stk s)
  | nop {stk s} : Op H .nop stk s (.next stk s)
  | unreachable {stk s} : Op H .unreachable stk s .trap

/-- Why nothing is said about an execution: the interpreter deviates from WebAssembly here, or the program names something the
module does not have (a valid program never does: `never_misnamed`). -/
inductive Off | deviates | misnamed
  deriving DecidableEq

/-- Uses of an operator on which the interpreter does not follow WebAssembly, or that validation excludes. -/
inductive Odd : Off → WOp → List Val → SSt W → Prop
  /-- out-of-bounds accesses, which are not checked (C09) -/
  | load {op off p m stk s} (hm : s.st.mem = some m) (hb : ¬ InBounds m.data.length (p.toNat + off.toNat) op.bytes) :
      Odd .deviates (.load op off) (i32 p :: stk) s
  | store {op off p v m stk s} (hm : s.st.mem = some m) (hb : ¬ InBounds m.data.length (p.toNat + off.toNat) op.bytes) :
      Odd .deviates (.store op off) (⟨op.cls, v⟩ :: i32 p :: stk) s
  | memCopy {m a b n stk s} (hm : s.st.mem = some m)
      (hb : ¬ InBounds m.data.length a.toNat n.toNat ∨ ¬ InBounds m.data.length b.toNat n.toNat) :
      Odd .deviates .memCopy (i32 n :: i32 b :: i32 a :: stk) s
  | memFill {m a v n stk s} (hm : s.st.mem = some m) (hb : ¬ InBounds m.data.length a.toNat n.toNat) :
      Odd .deviates .memFill (i32 n :: i32 v :: i32 a :: stk) s
  /-- a `memory.init` of no bytes at a position outside memory or segment does not trap (C09) -/
  | memInit {k seg m a b stk s} (hm : s.st.mem = some m) (hk : s.st.datas[k]? = some seg)
      (hb : m.data.length < a.toNat ∨ seg.length < b.toNat) :
      Odd .deviates (.memInit k) (i32 0 :: i32 b :: i32 a :: stk) s
  /-- growing by almost 2^31 pages or more, or to exactly 4 GiB (C10) -/
  | memGrow {m d stk s} (hm : s.st.mem = some m) (h : 2 ^ 31 - 65536 ≤ d.toNat ∨ m.pages + d.toNat = 65536) :
      Odd .deviates .memGrow (i32 d :: stk) s
  /-- `i32.trunc_f32` of a number just above the range (C04) -/
  | trunc {op a x stk s} (hop : op = .i32_f32_s ∨ op = .i32_f32_u)
      (hx : op.shape.2.2.val (op.ssz.flt.num a) = .fin x) (h : op.shape.2.2.intPart x = op.hi + 1) :
      Odd .deviates (.un (.trunc op)) (⟨op.ssz.flt, a⟩ :: stk) s
  /-- `table.fill` of no elements outside the table, or past index 2^32 (C36) -/
  | tableFill {t tb i r n stk s} (ht : s.st.tables[t]? = some tb) (h : tb.length < i.toNat + n.toNat)
      (h0 : n.toNat = 0 ∨ 2 ^ 32 ≤ i.toNat + n.toNat) : Odd .deviates (.tableFill t) (i32 n :: rf r :: i32 i :: stk) s
  /-- names of things the module does not have: no valid module contains these -/
  | noLocal {i v stk s} (h : s.locals.length ≤ i) : Odd .misnamed (.localSet i) (v :: stk) s
  | noLocalT {i v stk s} (h : s.locals.length ≤ i) : Odd .misnamed (.localTee i) (v :: stk) s
  | noMem {o stk s} (h : s.st.mem = none) (ho : match o with
      | .load _ _ | .store _ _ | .memSize | .memGrow | .memCopy | .memFill | .memInit _ => True | _ => False) : Odd .misnamed o stk s
  | noData {o k stk s} (h : s.st.datas.length ≤ k) (ho : o = .memInit k ∨ o = .dataDrop k) : Odd .misnamed o stk s
  | noTable {o t stk s} (h : s.st.tables.length ≤ t) (ho : o = .tableGet t ∨ o = .tableSet t ∨ o = .tableFill t) :
      Odd .misnamed o stk s

/-! ## Sequences and calls -/

/-- How a sequence ends.  `odd`: it reaches an operator in a situation listed in `Odd`, and nothing is said about the rest.
`exit`: the host ended the process with this code.  Both `trap` and `exit` keep
the store and the outside world as they were when it happened. -/
inductive WOut (W : Type)
  | norm (vs : List Val) (s : SSt W)
  | br (d : Nat) (vs : List Val) (s : SSt W)
  | ret (vs : List Val) (s : SSt W)
  | trap (st : Store) (w : W)
  | exit (code : BitVec 32) (st : Store) (w : W)
  | odd (y : Off)

/-- how a call ends -/
inductive CallOut (W : Type)
  | ok (vs : List Val) (st : Store) (w : W)
  | trap (st : Store) (w : W)
  | exit (code : BitVec 32) (st : Store) (w : W)
  | odd (y : Off)

/-- initial value of a declared local -/
def _root_.Verif.Model.Cls.initial : (c : Cls) → Val
  | .i32 => ⟨.i32, 0#32⟩
  | .i64 => ⟨.i64, 0#64⟩
  | .f32 => ⟨.f32, 0#32⟩
  | .f64 => ⟨.f64, 0#64⟩
  | .ref => ⟨.ref, Ref.null⟩
  | .v128 => ⟨.v128, 0#128⟩

/-- parameters and declared locals, in index order -/
def initialLocals (args : List Val) (ls : List (Nat × Cls)) : List Val :=
  args ++ (ls.map fun p => List.replicate p.1 (p.2.initial)).flatten

/-- what surrounds a block of `n` results makes of its end, `rest` being the stack below it; `none`: it continues with the
given stack and state -/
inductive Leaves (n : Nat) (rest : List Val) : WOut W → WOut W ⊕ (List Val × SSt W) → Prop
  | norm {vs s} : Leaves n rest (.norm vs s) (.inr (vs ++ rest, s))
  | leave {vs s} : Leaves n rest (.br 0 vs s) (.inr (vs.take n ++ rest, s))
  | outer {d vs s} : Leaves n rest (.br (d + 1) vs s) (.inl (.br d vs s))
  | ret {vs s} : Leaves n rest (.ret vs s) (.inl (.ret vs s))
  | trap {st w} : Leaves n rest (.trap st w) (.inl (.trap st w))
  | exit {c st w} : Leaves n rest (.exit c st w) (.inl (.exit c st w))
  | odd {y} : Leaves n rest (.odd y) (.inl (.odd y))

/-- a call made with stack `rest` left below the arguments -/
inductive Returns (locals rest : List Val) : CallOut W → WOut W ⊕ (List Val × SSt W) → Prop
  | ok {vs st w} : Returns locals rest (.ok vs st w) (.inr (vs.reverse ++ rest, ⟨locals, st, w⟩))
  | trap {st w} : Returns locals rest (.trap st w) (.inl (.trap st w))
  | exit {c st w} : Returns locals rest (.exit c st w) (.inl (.exit c st w))
  | odd {y} : Returns locals rest (.odd y) (.inl (.odd y))

mutual
/-- Execution of a sequence: `Ev w stk s out` — started with operand stack `stk` in state `s`, `w` ends with `out`. -/
inductive Ev (S : Wasi) (Q : SProg) (M : MInfo) : WSeq → List Val → SSt S.W → WOut S.W → Prop
  | done {stk s} : Ev S Q M .done stk s (.norm stk s)
  | next {o k stk s stk' s' out} (h : Op Q.H o stk s (.next stk' s')) (hk : Ev S Q M k stk' s' out) : Ev S Q M (.op o k) stk s out
  | trap {o k stk s} (h : Op Q.H o stk s .trap) : Ev S Q M (.op o k) stk s (.trap s.st s.world)
  | odd {y o k stk s} (h : Odd y o stk s) : Ev S Q M (.op o k) stk s (.odd y)
  | br {d k stk s} : Ev S Q M (.op (.br d) k) stk s (.br d stk s)
  | brIf {d k c stk s} (h : c.toNat ≠ 0) : Ev S Q M (.op (.brIf d) k) (i32 c :: stk) s (.br d stk s)
  | brIf0 {d k stk s out} (hk : Ev S Q M k stk s out) : Ev S Q M (.op (.brIf d) k) (i32 0 :: stk) s out
  | brTable {ds d k i l stk s} (h : ds[i.toNat]? = some l) : Ev S Q M (.op (.brTable ds d) k) (i32 i :: stk) s (.br l stk s)
  | brTableD {ds d k i stk s} (h : ds.length ≤ i.toNat) : Ev S Q M (.op (.brTable ds d) k) (i32 i :: stk) s (.br d stk s)
  | ret {k stk s} : Ev S Q M (.op .ret k) stk s (.ret stk s)
  | call {f F k stk s c x out} {args : List Val} (hf : Q.funcs[f]? = some F) (ha : args.map (·.cls) = F.type.params)
      (hc : Call S Q M F args s.st s.world c) (hr : Returns s.locals stk c x) (hx : After S Q M k x out) :
      Ev S Q M (.op (.call f) k) (args.reverse ++ stk) s out
  | callIndirect {ty t k i tb f F stk s c x out} {args : List Val} (ht : s.st.tables[t]? = some tb) (he : tb[i.toNat]? = some (.func f))
      (hf : Q.funcs[f]? = some F) (hty : Q.types[ty]? = some F.type) (ha : args.map (·.cls) = F.type.params)
      (hc : Call S Q M F args s.st s.world c) (hr : Returns s.locals stk c x) (hx : After S Q M k x out) :
      Ev S Q M (.op (.callIndirect ty t) k) (i32 i :: (args.reverse ++ stk)) s out
  | callOutside {ty t k i tb stk s} (ht : s.st.tables[t]? = some tb) (he : tb.length ≤ i.toNat) :
      Ev S Q M (.op (.callIndirect ty t) k) (i32 i :: stk) s (.trap s.st s.world)
  | callNull {ty t k i tb r stk s} (ht : s.st.tables[t]? = some tb) (he : tb[i.toNat]? = some r)
      (hr : ∀ f F, r = .func f → Q.funcs[f]? = some F → Q.types[ty]? = some F.type → False) :
      Ev S Q M (.op (.callIndirect ty t) k) (i32 i :: stk) s (.trap s.st s.world)
  /-- an indirect call of a host function, which the interpreter does not support (C20) -/
  | callHost {ty t k i tb f t' id stk s} (ht : s.st.tables[t]? = some tb) (he : tb[i.toNat]? = some (.func f))
      (hf : Q.funcs[f]? = some (.wasi t' id)) : Ev S Q M (.op (.callIndirect ty t) k) (i32 i :: stk) s (.odd .deviates)
  | callNoTable {ty t k stk s} (h : s.st.tables.length ≤ t) : Ev S Q M (.op (.callIndirect ty t) k) stk s (.odd .misnamed)
  | block {bt b k stk s o x out} {ps : List Val} (hp : ps.map (·.cls) = M.blockParams bt) (hb : Ev S Q M b ps.reverse s o)
      (hl : Leaves (M.blockResults bt).length stk o x) (hx : After S Q M k x out) :
      Ev S Q M (.block bt b k) (ps.reverse ++ stk) s out
  | loop {bt b k stk s o x out} {ps : List Val} (hp : ps.map (·.cls) = M.blockParams bt) (hb : Ev S Q M b ps.reverse s o)
      (h0 : ∀ vs s', o ≠ .br 0 vs s') (hl : Leaves (M.blockParams bt).length stk o x) (hx : After S Q M k x out) :
      Ev S Q M (.loop bt b k) (ps.reverse ++ stk) s out
  | again {bt b k stk s vs s' out} {ps : List Val} (hp : ps.map (·.cls) = M.blockParams bt) (hb : Ev S Q M b ps.reverse s (.br 0 vs s'))
      (hx : Ev S Q M (.loop bt b k) (vs.take (M.blockParams bt).length ++ stk) s' out) :
      Ev S Q M (.loop bt b k) (ps.reverse ++ stk) s out
  | ite {bt t k c stk s o x out} {ps : List Val} (hc : c.toNat ≠ 0) (hp : ps.map (·.cls) = M.blockParams bt)
      (hb : Ev S Q M t ps.reverse s o) (hl : Leaves (M.blockResults bt).length stk o x) (hx : After S Q M k x out) :
      Ev S Q M (.ite bt t k) (i32 c :: (ps.reverse ++ stk)) s out
  | ite0 {bt t k stk s out} {ps : List Val} (hp : ps.map (·.cls) = M.blockParams bt) (hx : Ev S Q M k (ps.reverse ++ stk) s out) :
      Ev S Q M (.ite bt t k) (i32 0 :: (ps.reverse ++ stk)) s out
  | itee {bt t e k c stk s o x out} {ps : List Val} (hc : c.toNat ≠ 0) (hp : ps.map (·.cls) = M.blockParams bt)
      (hb : Ev S Q M t ps.reverse s o) (hl : Leaves (M.blockResults bt).length stk o x) (hx : After S Q M k x out) :
      Ev S Q M (.itee bt t e k) (i32 c :: (ps.reverse ++ stk)) s out
  | itee0 {bt t e k stk s o x out} {ps : List Val} (hp : ps.map (·.cls) = M.blockParams bt)
      (hb : Ev S Q M e ps.reverse s o) (hl : Leaves (M.blockResults bt).length stk o x) (hx : After S Q M k x out) :
      Ev S Q M (.itee bt t e k) (i32 0 :: (ps.reverse ++ stk)) s out

/-- what follows a block or call -/
inductive After (S : Wasi) (Q : SProg) (M : MInfo) : WSeq → WOut S.W ⊕ (List Val × SSt S.W) → WOut S.W → Prop
  | stop {k out} : After S Q M k (.inl out) out
  | go {k stk s out} (hk : Ev S Q M k stk s out) : After S Q M k (.inr (stk, s)) out

/-- A call.  Branching to the outermost label of a function returns from it. -/
inductive Call (S : Wasi) (Q : SProg) (M : MInfo) : SFunc → List Val → Store → S.W → CallOut S.W → Prop
  | norm {t ls b st w vs s'} {args : List Val} (h : Ev S Q M b [] ⟨initialLocals args ls, st, w⟩ (.norm vs s')) :
      Call S Q M (.wasm t ls b) args st w (.ok vs.reverse s'.st s'.world)
  | brOut {t ls b st w d vs s'} {args : List Val} (h : Ev S Q M b [] ⟨initialLocals args ls, st, w⟩ (.br d vs s')) :
      Call S Q M (.wasm t ls b) args st w (.ok (vs.take t.results.length).reverse s'.st s'.world)
  | retOut {t ls b st w vs s'} {args : List Val} (h : Ev S Q M b [] ⟨initialLocals args ls, st, w⟩ (.ret vs s')) :
      Call S Q M (.wasm t ls b) args st w (.ok (vs.take t.results.length).reverse s'.st s'.world)
  | trapOut {t ls b st w st' w'} {args : List Val} (h : Ev S Q M b [] ⟨initialLocals args ls, st, w⟩ (.trap st' w')) :
      Call S Q M (.wasm t ls b) args st w (.trap st' w')
  | exitOut {c t ls b st w st' w'} {args : List Val} (h : Ev S Q M b [] ⟨initialLocals args ls, st, w⟩ (.exit c st' w')) :
      Call S Q M (.wasm t ls b) args st w (.exit c st' w')
  | oddOut {y t ls b st w} {args : List Val} (h : Ev S Q M b [] ⟨initialLocals args ls, st, w⟩ (.odd y)) :
      Call S Q M (.wasm t ls b) args st w (.odd y)
  /-- a host function gets its arguments and the memory, and may change memory and world; its results have the declared types -/
  | host {t id st w m v m' w'} {args : List Val} (hm : st.mem = some m) (h : S.call id args m w = .ok (some v, m', w'))
      (hv : v.toList.map (·.cls) = t.results) :
      Call S Q M (.wasi t id) args st w (.ok v.toList { st with mem := some m' } w')
  /-- or ends the process, as `proc_exit` does -/
  | hostExits {t id st w m c} {args : List Val} (hm : st.mem = some m) (h : S.call id args m w = .trap (.processExit c)) :
      Call S Q M (.wasi t id) args st w (.exit c st w)
  /-- or fails, having done part of its work -/
  | hostFails {t id st w m m' w'} {args : List Val} (hm : st.mem = some m) (h : S.call id args m w = .ok (none, m', w')) :
      Call S Q M (.wasi t id) args st w (.trap { st with mem := some m' } w')
  /-- or at once -/
  | hostRefuses {t id st w m} {args : List Val} (hm : st.mem = some m)
      (h : (∃ e, S.call id args m w = .trap e ∧ ∀ c, e ≠ .processExit c) ∨ S.call id args m w = .panic) :
      Call S Q M (.wasi t id) args st w (.trap st w)
  /-- the host leaves defined behaviour, or the module has no memory to give it -/
  | hostOdd {t id st w} {args : List Val} (h : ∀ m, st.mem = some m → S.call id args m w = .ub) :
      Call S Q M (.wasi t id) args st w (.odd .deviates)
end

/-- Sizes the interpreter's 32-bit address space imposes: memory is whole pages below 4 GiB with a maximum of at most 65536
pages (which validation demands), data segments and tables have less than 2^32 elements. -/
structure Store.Good (st : Store) : Prop where
  mem : ∀ m, st.mem = some m → m.data.length % pageSize = 0 ∧ m.data.length < 2 ^ 32 ∧ ∀ x, m.max = some x → x.toNat ≤ 65536
  datas : ∀ (k : Nat) (d : List Byte), st.datas[k]? = some d → d.length < 2 ^ 32
  tables : ∀ (t : Nat) (tb : List Ref), st.tables[t]? = some tb → tb.length < 2 ^ 32

end Verif.Spec
