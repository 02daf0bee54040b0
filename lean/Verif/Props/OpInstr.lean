import Verif.Lemmas.WebNum
import Verif.Props.Regs
import Verif.Props.State
import Verif.Props.MemExact
/-
C01–C08, C10 and C11 for the instructions themselves: the operand reads, the operator or memory access, and the write of the result.
-/
namespace Verif.Props
open Verif.Model Verif.Spec Verif.Lemmas

/-- from `s` to `s'`: the destination now holds `v` (of bank `c`), execution is at the next instruction, and nothing else is different —
no other register of any bank, no other local, no label, no part of the instance -/
structure Wrote (s s' : VM) (c : Cls) (d : Dst) (v : c.Carrier) : Prop where
  reg : ∀ i, d = .reg i → s'.rf.get c i = .ok v
  loc : ∀ i, d = .loc i → s'.locals[i]? = some ⟨c, v⟩
  regs : ∀ c' j, (c' ≠ c ∨ d ≠ .reg j) → s'.rf.get c' j = s.rf.get c' j
  locs : ∀ j, d ≠ .loc j → s'.locals[j]? = s.locals[j]?
  pc : s'.pc = s.pc + 1
  inst : s'.inst = s.inst
  labels : s'.labels = s.labels
  ret : s'.retRegs = s.retRegs
  ptr : s'.memPtr = s.memPtr

/-- the destination exists: a register of the running frame's window, or a local of the function (C14 says they always do) -/
def DstOk (s : VM) (c : Cls) : Dst → Prop
  | .reg i => ∃ w, s.rf.get c i = .ok w
  | .loc i => i < s.locals.length

theorem wrote {s : VM} {c : Cls} {d : Dst} (h : DstOk s c d) (v : c.Carrier) : ∃ s1, s.write c d v = .ok s1 ∧ Wrote s s1.next c d v := by
  cases d with
  | reg i =>
    obtain ⟨w, hw⟩ := h
    obtain ⟨rf, hr⟩ := set_ok_of_get hw v
    obtain ⟨h1, h2⟩ := set_only_that_register _ _ _ _ _ hr
    refine ⟨{ s with rf := rf }, by simp only [VM.write, hr]; rfl, ?_, ?_, ?_, fun _ _ => rfl, rfl, rfl, rfl, rfl, rfl⟩
    · intro j hj; cases hj; exact h1
    · intro j hj; cases hj
    · rintro c' j (hc | hj)
      · exact h2 c' j (.inl hc)
      · exact h2 c' j (.inr fun e => hj (by rw [e]))
  | loc i =>
    have h : i < s.locals.length := h
    refine ⟨{ s with locals := s.locals.set i ⟨c, v⟩ }, by simp only [VM.write, if_pos h], ?_, ?_, fun _ _ _ => rfl, ?_, rfl, rfl, rfl, rfl, rfl⟩
    · intro j hj; cases hj
    · intro j hj; cases hj; simp [VM.next, h]
    · intro j hj
      simp only [VM.next]
      rw [List.getElem?_set_ne fun e => hj (by rw [e])]

variable {H : FloatHost} {P : Prog} {len : Nat} {s : VM}

theorem op1_instr {op : Op1} {dst : Dst} {x : Opnd op.src} {a : op.src.Carrier} (ha : s.read op.src x = .ok a) (hd : DstOk s op.dst dst)
    {r : op.dst.Carrier} (hr : op.eval H a = .ok r) :
    ∃ s', step H P len s (.op1 op dst x) = .ok (.cont s') ∧ Wrote s s' op.dst dst r := by
  obtain ⟨s1, h1, h2⟩ := wrote hd r
  exact ⟨_, by simp only [step, ha, hr, h1, Res.bind_ok]; rfl, h2⟩

theorem op2_instr {op : Op2} {dst : Dst} {x y : Opnd op.src} {a b : op.src.Carrier} (ha : s.read op.src x = .ok a)
    (hb : s.read op.src y = .ok b) (hd : DstOk s op.dst dst) {r : op.dst.Carrier} (hr : op.eval H a b = .ok r) :
    ∃ s', step H P len s (.op2 op dst x y) = .ok (.cont s') ∧ Wrote s s' op.dst dst r := by
  obtain ⟨s1, h1, h2⟩ := wrote hd r
  exact ⟨_, by simp only [step, ha, hb, hr, h1, Res.bind_ok]; rfl, h2⟩

/-- C01 for instructions: a binary integer instruction writes exactly the specified result to its destination and changes nothing else;
where the specification has no result it aborts. -/
theorem int_binop_instr (sz : Sz) (op : IBinOp) {dst : Dst} {x y : Opnd sz.int} {a b : sz.int.Carrier}
    (ha : s.read sz.int x = .ok a) (hb : s.read sz.int y = .ok b) (hd : DstOk s sz.int dst) :
    match ibinop sz.bits op (sz.int.num a) (sz.int.num b) with
    | some n => ∃ v s', step H P len s (.op2 (.int sz op) dst x y) = .ok (.cont s') ∧ sz.int.num v = n ∧ Wrote s s' sz.int dst v
    | none => step H P len s (.op2 (.int sz op) dst x y) = .panic := by
  have key : match ibinop sz.bits op (sz.int.num a) (sz.int.num b) with
      | some n => ∃ v, Op2.eval H (.int sz op) a b = .ok v ∧ sz.int.num v = n
      | none => Op2.eval H (.int sz op) a b = .panic := by
    cases sz
    · exact int_binop_correct (w := 32) (.inl rfl) op a b
    · exact int_binop_correct (w := 64) (.inr rfl) op a b
  split at key
  · obtain ⟨v, h1, h2⟩ := key
    obtain ⟨s', h3, h4⟩ := op2_instr (P := P) (len := len) ha hb hd h1
    exact ⟨v, s', h3, h2, h4⟩
  · simp only [step, Op2.src, ha, hb, Res.bind_ok, key]; rfl

/-- C02 for instructions: comparisons. -/
theorem int_relop_instr (sz : Sz) (op : IRelOp) {dst : Dst} {x y : Opnd sz.int} {a b : sz.int.Carrier}
    (ha : s.read sz.int x = .ok a) (hb : s.read sz.int y = .ok b) (hd : DstOk s .i32 dst) :
    ∃ s', step H P len s (.op2 (.rel sz op) dst x y) = .ok (.cont s') ∧
      Wrote s s' .i32 dst (if irelop sz.bits op (sz.int.num a) (sz.int.num b) then (1 : BitVec 32) else (0 : BitVec 32)) := by
  refine op2_instr (op := .rel sz op) ha hb hd ?_
  have e : ∀ c : Bool, boolI32 c = if c then (1 : BitVec 32) else 0 := fun c => by cases c <;> rfl
  cases sz
  · exact congrArg Res.ok ((int_relop_correct (w := 32) (.inl rfl) op a b).trans (e _))
  · exact congrArg Res.ok ((int_relop_correct (w := 64) (.inr rfl) op a b).trans (e _))

/-- C02 for instructions: `eqz`, and bit counting / sign extension. -/
theorem int_unop_instr (sz : Sz) (op : IUnOp) {dst : Dst} {x : Opnd sz.int} {a : sz.int.Carrier} (ha : s.read sz.int x = .ok a) :
    (DstOk s .i32 dst → ∃ s', step H P len s (.op1 (.eqz sz) dst x) = .ok (.cont s') ∧
      Wrote s s' .i32 dst (if sz.int.num a = 0 then (1 : BitVec 32) else (0 : BitVec 32))) ∧
    (DstOk s sz.int dst → ∃ v s', step H P len s (.op1 (.int sz op) dst x) = .ok (.cont s') ∧ Wrote s s' sz.int dst v ∧
      IUnop sz.bits op (sz.int.num a) (sz.int.num v)) := by
  have e : ∀ n : Nat, boolI32 (decide (n = 0)) = if n = 0 then (1 : BitVec 32) else 0 := fun n => by by_cases h : n = 0 <;> simp [h, boolI32]
  constructor
  · intro hd
    refine op1_instr (op := .eqz sz) ha hd ?_
    cases sz
    · exact congrArg Res.ok ((int_eqz_correct (w := 32) a).trans (e _))
    · exact congrArg Res.ok ((int_eqz_correct (w := 64) a).trans (e _))
  · intro hd
    cases sz
    · obtain ⟨s', h1, h2⟩ := op1_instr (H := H) (P := P) (len := len) (op := .int .s32 op) ha hd rfl
      exact ⟨_, s', h1, h2, int_unop_correct (w := 32) op a⟩
    · obtain ⟨s', h1, h2⟩ := op1_instr (H := H) (P := P) (len := len) (op := .int .s64 op) ha hd rfl
      exact ⟨_, s', h1, h2, int_unop_correct (w := 64) op a⟩

/-- C03 for instructions: what `i64.extend_i32_s/u`, `i32.wrap_i64` and the reinterpretations write. -/
theorem conversion_instr {dst : Dst} :
    (∀ (x : Opnd .i32) (a : BitVec 32), s.read .i32 x = .ok a → DstOk s .i64 dst →
      (∃ (v : BitVec 64) (s' : VM), step H P len s (.op1 .extS dst x) = .ok (.cont s') ∧ Wrote s s' .i64 dst v ∧ v.toInt = a.toInt) ∧
      (∃ (v : BitVec 64) (s' : VM), step H P len s (.op1 .extU dst x) = .ok (.cont s') ∧ Wrote s s' .i64 dst v ∧ v.toNat = a.toNat)) ∧
    (∀ (x : Opnd .i64) (a : BitVec 64), s.read .i64 x = .ok a → DstOk s .i32 dst →
      ∃ (v : BitVec 32) (s' : VM), step H P len s (.op1 .wrap dst x) = .ok (.cont s') ∧ Wrote s s' .i32 dst v ∧ v.toNat = a.toNat % 2 ^ 32) ∧
    (∀ (sz : Sz) (x : Opnd sz.flt) (a : sz.flt.Carrier), s.read sz.flt x = .ok a → DstOk s sz.int dst →
      ∃ v s', step H P len s (.op1 (.reinterpIF sz) dst x) = .ok (.cont s') ∧ Wrote s s' sz.int dst v ∧ sz.int.num v = sz.flt.num a) ∧
    (∀ (sz : Sz) (x : Opnd sz.int) (a : sz.int.Carrier), s.read sz.int x = .ok a → DstOk s sz.flt dst →
      ∃ v s', step H P len s (.op1 (.reinterpFI sz) dst x) = .ok (.cont s') ∧ Wrote s s' sz.flt dst v ∧ sz.flt.num v = sz.int.num a) := by
  refine ⟨fun x a ha hd => ⟨?_, ?_⟩, fun x a ha hd => ?_, fun sz x a ha hd => ?_, fun sz x a ha hd => ?_⟩
  · obtain ⟨s', h1, h2⟩ := op1_instr (H := H) (P := P) (len := len) (op := .extS) ha hd rfl
    exact ⟨_, s', h1, h2, (extend_wrap_correct a 0).1⟩
  · obtain ⟨s', h1, h2⟩ := op1_instr (H := H) (P := P) (len := len) (op := .extU) ha hd rfl
    exact ⟨_, s', h1, h2, (extend_wrap_correct a 0).2.1⟩
  · obtain ⟨s', h1, h2⟩ := op1_instr (H := H) (P := P) (len := len) (op := .wrap) ha hd rfl
    exact ⟨_, s', h1, h2, (extend_wrap_correct 0 a).2.2.1⟩
  · cases sz
    · obtain ⟨s', h1, h2⟩ := op1_instr (H := H) (P := P) (len := len) (op := .reinterpIF .s32) ha hd rfl
      exact ⟨_, s', h1, h2, congrArg BitVec.toNat (reinterpret_correct a 0).1⟩
    · obtain ⟨s', h1, h2⟩ := op1_instr (H := H) (P := P) (len := len) (op := .reinterpIF .s64) ha hd rfl
      exact ⟨_, s', h1, h2, congrArg BitVec.toNat (reinterpret_correct 0 a).2.2.1⟩
  · cases sz
    · obtain ⟨s', h1, h2⟩ := op1_instr (H := H) (P := P) (len := len) (op := .reinterpFI .s32) ha hd rfl
      exact ⟨_, s', h1, h2, congrArg BitVec.toNat (reinterpret_correct a 0).2.1⟩
    · obtain ⟨s', h1, h2⟩ := op1_instr (H := H) (P := P) (len := len) (op := .reinterpFI .s64) ha hd rfl
      exact ⟨_, s', h1, h2, congrArg BitVec.toNat (reinterpret_correct 0 a).2.2.2⟩

/-- C04 for instructions: outside the two excepted operands, a trapping truncation writes the truncated integer (its bit pattern of the
destination's width) if the destination type has it, and traps otherwise. -/
theorem trunc_instr_partial (op : TruncOp) {dst : Dst} {x : Opnd op.ssz.flt} {a : op.ssz.flt.Carrier} (ha : s.read op.ssz.flt x = .ok a)
    (hd : DstOk s op.dsz.int dst) (hne : (op = .i32_f32_s ∨ op = .i32_f32_u) →
      ∀ y, op.shape.2.2.val (op.ssz.flt.num a) = .fin y → op.shape.2.2.intPart y ≠ op.hi + 1) :
    match op.result (op.ssz.flt.num a) with
    | some z => ∃ v s', step H P len s (.op1 (.trunc op) dst x) = .ok (.cont s') ∧ Wrote s s' op.dsz.int dst v ∧
        op.dsz.int.num v = unsigned op.dsz.bits z
    | none => ∃ e, step H P len s (.op1 (.trunc op) dst x) = .trap e := by
  have key := trunc_trap_partial op (op.ssz.flt.num a) hne
  cases hr : op.result (op.ssz.flt.num a) with
  | some z =>
    rw [hr] at key
    obtain ⟨s', h1, h2⟩ := op1_instr (H := H) (P := P) (len := len) (op := .trunc op) ha hd (r := op.dsz.ofInt z) (by
      show (truncTrap op (op.ssz.flt.num a) >>= fun z => pure (op.dsz.ofInt z)) = _
      rw [key]; rfl)
    exact ⟨_, s', h1, h2, ofInt_num _ _⟩
  | none =>
    rw [hr] at key
    obtain ⟨e, key⟩ := key
    refine ⟨e, ?_⟩
    simp only [step, Op1.src, ha, Res.bind_ok]
    show ((truncTrap op (op.ssz.flt.num a) >>= fun z => pure (op.dsz.ofInt z)) >>= _) = _
    rw [key]; rfl

/-- C05 for instructions: the saturating truncations always write the clamped integer. -/
theorem trunc_sat_instr (op : TruncOp) {dst : Dst} {x : Opnd op.ssz.flt} {a : op.ssz.flt.Carrier} (ha : s.read op.ssz.flt x = .ok a)
    (hd : DstOk s op.dsz.int dst) : ∃ v s', step H P len s (.op1 (.truncSat op) dst x) = .ok (.cont s') ∧ Wrote s s' op.dsz.int dst v ∧
      op.dsz.int.num v = unsigned op.dsz.bits (op.satResult (op.ssz.flt.num a)) := by
  obtain ⟨s', h1, h2⟩ := op1_instr (H := H) (P := P) (len := len) (op := .truncSat op) ha hd rfl
  exact ⟨_, s', h1, h2, by rw [ofInt_num, trunc_sat_correct]⟩

/-- C06 for instructions: comparisons. -/
theorem float_relop_instr (sz : Sz) (op : FRelOp) {dst : Dst} {x y : Opnd sz.flt} {a b : sz.flt.Carrier}
    (ha : s.read sz.flt x = .ok a) (hb : s.read sz.flt y = .ok b) (hd : DstOk s .i32 dst) :
    ∃ (v : BitVec 32) (s' : VM), step H P len s (.op2 (.frel sz op) dst x y) = .ok (.cont s') ∧ Wrote s s' .i32 dst v ∧
      (frelop op (sz.fmt.val (sz.flt.num a)) (sz.fmt.val (sz.flt.num b)) → v = 1) ∧
      (¬ frelop op (sz.fmt.val (sz.flt.num a)) (sz.fmt.val (sz.flt.num b)) → v = 0) := by
  obtain ⟨s', h1, h2⟩ := op2_instr (H := H) (P := P) (len := len) (op := .frel sz op) ha hb hd rfl
  exact ⟨_, s', h1, h2, float_relop_correct sz.fmt (isWasm sz) op _ _ (flt_num_lt sz a) (flt_num_lt sz b)⟩

/-- C06 for instructions: `abs`, `neg` and `copysign` only touch the sign bit. -/
theorem float_sign_instr (sz : Sz) {dst : Dst} {x y : Opnd sz.flt} {a b : sz.flt.Carrier}
    (ha : s.read sz.flt x = .ok a) (hb : s.read sz.flt y = .ok b) (hd : DstOk s sz.flt dst) :
    (∃ v s', step H P len s (.op1 (.abs sz) dst x) = .ok (.cont s') ∧ Wrote s s' sz.flt dst v ∧
      sz.fmt.SameMagnitude (sz.flt.num v) (sz.flt.num a) ∧ sz.fmt.sign (sz.flt.num v) = false) ∧
    (∃ v s', step H P len s (.op1 (.neg sz) dst x) = .ok (.cont s') ∧ Wrote s s' sz.flt dst v ∧
      sz.fmt.SameMagnitude (sz.flt.num v) (sz.flt.num a) ∧ sz.fmt.sign (sz.flt.num v) = !sz.fmt.sign (sz.flt.num a)) ∧
    (∃ v s', step H P len s (.op2 (.copysign sz) dst x y) = .ok (.cont s') ∧ Wrote s s' sz.flt dst v ∧
      sz.fmt.SameMagnitude (sz.flt.num v) (sz.flt.num a) ∧ sz.fmt.sign (sz.flt.num v) = sz.fmt.sign (sz.flt.num b)) := by
  obtain ⟨⟨a1, a2, a3⟩, ⟨b1, b2, b3⟩, c1, c2, c3⟩ := float_sign_ops_correct sz.fmt _ _ (flt_num_lt sz a) (flt_num_lt sz b)
  refine ⟨?_, ?_, ?_⟩
  · obtain ⟨s', h1, h2⟩ := op1_instr (H := H) (P := P) (len := len) (op := .abs sz) ha hd rfl
    exact ⟨_, s', h1, h2, by rw [ofNatF_num sz a3]; exact ⟨a1, a2⟩⟩
  · obtain ⟨s', h1, h2⟩ := op1_instr (H := H) (P := P) (len := len) (op := .neg sz) ha hd rfl
    exact ⟨_, s', h1, h2, by rw [ofNatF_num sz b3]; exact ⟨b1, b2⟩⟩
  · obtain ⟨s', h1, h2⟩ := op2_instr (H := H) (P := P) (len := len) (op := .copysign sz) ha hb hd rfl
    exact ⟨_, s', h1, h2, by rw [ofNatF_num sz c3]; exact ⟨c1, c2⟩⟩

/-- C06 for instructions: `min` and `max`. -/
theorem float_minmax_instr (sz : Sz) {dst : Dst} {x y : Opnd sz.flt} {a b : sz.flt.Carrier}
    (ha : s.read sz.flt x = .ok a) (hb : s.read sz.flt y = .ok b) (hd : DstOk s sz.flt dst) :
    (∃ v s', step H P len s (.op2 (.min sz) dst x y) = .ok (.cont s') ∧ Wrote s s' sz.flt dst v ∧
      IsFMin sz.fmt (sz.flt.num a) (sz.flt.num b) (sz.flt.num v)) ∧
    (∃ v s', step H P len s (.op2 (.max sz) dst x y) = .ok (.cont s') ∧ Wrote s s' sz.flt dst v ∧
      IsFMax sz.fmt (sz.flt.num a) (sz.flt.num b) (sz.flt.num v)) := by
  constructor
  · obtain ⟨v, hv, h, _⟩ := binary_sound H (.min sz) a b
    obtain ⟨s', h1, h2⟩ := op2_instr (H := H) (P := P) (len := len) (op := .min sz) ha hb hd rfl
    cases hv
    exact ⟨_, s', h1, h2, h⟩
  · obtain ⟨v, hv, h, _⟩ := binary_sound H (.max sz) a b
    obtain ⟨s', h1, h2⟩ := op2_instr (H := H) (P := P) (len := len) (op := .max sz) ha hb hd rfl
    cases hv
    exact ⟨_, s', h1, h2, h⟩

/-! ### memory instructions -/

/-- memory 0 is `m` and the cached pointer points to it (C44 says it always does) -/
structure HasMem (s : VM) (m : Mem) : Prop where
  mem : s.inst.mem = some m
  ptr : s.memPtr = some s.inst.memGen
  len : m.data.length < 2 ^ 32

theorem HasMem.raw {m : Mem} (h : HasMem s m) : s.rawMem = .ok m := by simp [VM.rawMem, h.mem, h.ptr]
theorem HasMem.first {m : Mem} (h : HasMem s m) : s.mem0 = .ok m := by simp [VM.mem0, h.mem]

/-- from `s` to `s'`: memory 0 is now `m'`, execution is at the next instruction, and nothing else is different -/
def WroteMem (s s' : VM) (m' : Mem) : Prop := s' = { s with pc := s.pc + 1, inst := { s.inst with mem := some m' } }

/-- C07 for instructions: an in-bounds load writes exactly the addressed little-endian bytes, extended as the instruction says. -/
theorem load_instr (op : LoadOp) {m : Mem} (hm : HasMem s m) {dst : Dst} {x : Opnd .i32} {p : BitVec 32} {off : BitVec 64}
    (hp : s.read .i32 x = .ok p) (hd : DstOk s op.cls dst) (hb : InBounds m.data.length (p.toNat + off.toNat) op.bytes) :
    ∃ v s', step H P len s (.load op dst x off) = .ok (.cont s') ∧ Wrote s s' op.cls dst v ∧
      op.cls.num v = op.result (leValue (byteAt m) (p.toNat + off.toNat) op.bytes) := by
  obtain ⟨v, h1, h2⟩ := load_correct m op p off hm.len hb
  obtain ⟨s1, h3, h4⟩ := wrote hd v
  exact ⟨v, _, by simp only [step, hp, hm.raw, h1, h3, Res.bind_ok]; rfl, h4, h2⟩

/-- C07, C08 for instructions: an in-bounds store writes the little-endian bytes of the value to the addressed places of memory and
changes nothing else. -/
theorem store_instr (op : StoreOp) {m : Mem} (hm : HasMem s m) {x : Opnd .i32} {r : Nat} {p : BitVec 32} {off : BitVec 64}
    {v : op.cls.Carrier} (hp : s.read .i32 x = .ok p) (hv : s.rf.get op.cls r = .ok v)
    (hb : InBounds m.data.length (p.toNat + off.toNat) op.bytes) :
    ∃ m' s', step H P len s (.store op x r off) = .ok (.cont s') ∧ WroteMem s s' m' ∧ m'.data.length = m.data.length ∧ m'.max = m.max ∧
      (∀ k, k < op.bytes → m'.data[p.toNat + off.toNat + k]? = some (BitVec.ofNat 8 (leByte (op.cls.num v) k))) ∧
      (∀ i, (i < p.toNat + off.toNat ∨ p.toNat + off.toNat + op.bytes ≤ i) → m'.data[i]? = m.data[i]?) := by
  obtain ⟨m', h1, h2⟩ := store_correct m op p off v hm.len hb
  exact ⟨m', _, by simp only [step, hp, hv, hm.raw, h1, Res.bind_ok]; rfl, rfl, h2⟩

/-- C12 for instructions: `memory.size` delivers the number of pages. -/
theorem size_instr {m : Mem} (hm : HasMem s m) {dst : Nat} (hd : DstOk s .i32 (.reg dst)) :
    ∃ (v : BitVec 32) (s' : VM), step H P len s (.memSize dst) = .ok (.cont s') ∧ Wrote s s' .i32 (.reg dst) v ∧
      v.toNat = m.data.length / pageSize := by
  obtain ⟨s1, h3, h4⟩ := wrote hd m.size
  refine ⟨m.size, _, ?_, h4, ?_⟩
  · simp only [VM.write, Res.bind_eq_ok, Res.pure_eq, Res.ok_inj] at h3
    obtain ⟨rf, hr, rfl⟩ := h3
    simp only [step, hm.first, hr, Res.bind_ok]; rfl
  · have := hm.len
    simp only [Mem.size, BitVec.toNat_ofNat, pageSize]; omega

/-- C10 for instructions: outside the excepted requests (`Overgrows`), `memory.grow` delivers the specified result and installs the
specified memory; nothing else changes, and accesses go to the new memory from then on. -/
theorem grow_instr_partial {m : Mem} (hm : HasMem s m) {dst arg : Nat} {delta : BitVec 32} (hd : DstOk s .i32 (.reg dst))
    (ha : s.rf.get .i32 arg = .ok delta) (hal : m.data.length % pageSize = 0) (hmax : ∀ mx, m.max = some mx → mx.toNat ≤ 65536)
    (hno : ¬ Overgrows m delta) :
    ∃ (v : BitVec 32) (m' : Mem) (s' : VM), step H P len s (.memGrow dst arg) = .ok (.cont s') ∧
      ((v = BitVec.allOnes 32 ∧ m' = m ∧ ¬ growAllowed (m.max.map (·.toNat)) (m.data.length / pageSize) delta.toNat) ∨
        (v.toNat = m.data.length / pageSize ∧ m'.max = m.max ∧ m'.data = m.data ++ List.replicate (delta.toNat * pageSize) 0 ∧
          growAllowed (m.max.map (·.toNat)) (m.data.length / pageSize) delta.toNat)) ∧
      s'.rf.get .i32 dst = .ok v ∧ (∀ c j, (c ≠ .i32 ∨ j ≠ dst) → s'.rf.get c j = s.rf.get c j) ∧ s'.locals = s.locals ∧
      s'.pc = s.pc + 1 ∧ s'.inst.mem = some m' ∧ s'.rawMem = .ok m' ∧ s'.inst.globals = s.inst.globals ∧ s'.inst.tables = s.inst.tables ∧
      s'.inst.datas = s.inst.datas ∧ s'.labels = s.labels ∧ s'.retRegs = s.retRegs := by
  obtain ⟨v, m', h1, h2⟩ := (grow_spec_exact m delta hm.len hal hmax).2 hno
  obtain ⟨w, hw⟩ := hd
  obtain ⟨rf, hr⟩ := set_ok_of_get hw v
  obtain ⟨h3, h4⟩ := set_only_that_register _ _ _ _ _ hr
  refine ⟨v, m', { s with
    rf := rf, pc := s.pc + 1, memPtr := some (s.inst.memGen + 1), inst := { s.inst with mem := some m', memGen := s.inst.memGen + 1 } },
    by simp only [step, hm.first, ha, h1, hr, Res.bind_ok]; rfl, ?_, h3, h4, rfl, rfl, rfl, ?_, rfl, rfl, rfl, rfl, rfl⟩
  · rcases h2 with h2 | ⟨a, b, c, d⟩
    · exact .inl h2
    · exact .inr ⟨b, c, d, a⟩
  · simp [VM.rawMem]

/-- C11 for instructions: `memory.copy`. -/
theorem copy_instr {m : Mem} (hm : HasMem s m) {d sr n : Nat} {dv sv nv : BitVec 32} (h1 : s.rf.get .i32 d = .ok dv)
    (h2 : s.rf.get .i32 sr = .ok sv) (h3 : s.rf.get .i32 n = .ok nv) (hd : InBounds m.data.length dv.toNat nv.toNat)
    (hs : InBounds m.data.length sv.toNat nv.toNat) :
    ∃ m' s', step H P len s (.memCopy d sr n) = .ok (.cont s') ∧ WroteMem s s' m' ∧ m'.max = m.max ∧ m'.data.length = m.data.length ∧
      ∀ i, m'.data[i]? =
        if dv.toNat ≤ i ∧ i < dv.toNat + nv.toNat then m.data[sv.toNat + (i - dv.toNat)]? else m.data[i]? := by
  obtain ⟨m', h4, h5⟩ := copy_correct m dv sv nv hd hs
  exact ⟨m', _, by simp only [step, hm.first, h1, h2, h3, h4, Res.bind_ok]; rfl, rfl, h5⟩

/-- C11 for instructions: `memory.fill`. -/
theorem fill_instr {m : Mem} (hm : HasMem s m) {d v n : Nat} {dv vv nv : BitVec 32} (h1 : s.rf.get .i32 d = .ok dv)
    (h2 : s.rf.get .i32 v = .ok vv) (h3 : s.rf.get .i32 n = .ok nv) (hd : InBounds m.data.length dv.toNat nv.toNat) :
    ∃ m' s', step H P len s (.memFill d v n) = .ok (.cont s') ∧ WroteMem s s' m' ∧ m'.max = m.max ∧ m'.data.length = m.data.length ∧
      ∀ i, m'.data[i]? =
        if dv.toNat ≤ i ∧ i < dv.toNat + nv.toNat then some (BitVec.ofNat 8 (vv.toNat % 256)) else m.data[i]? := by
  obtain ⟨m', h4, h5⟩ := fill_correct m dv vv nv hd
  exact ⟨m', _, by simp only [step, hm.first, h1, h2, h3, h4, Res.bind_ok]; rfl, rfl, h5⟩

/-- C11 for instructions: `memory.init` from a data segment. -/
theorem init_instr {m : Mem} (hm : HasMem s m) {x d sr n : Nat} {seg : List Byte} {dv sv nv : BitVec 32}
    (hx : s.inst.datas[x]? = some seg) (h1 : s.rf.get .i32 d = .ok dv)
    (h2 : s.rf.get .i32 sr = .ok sv) (h3 : s.rf.get .i32 n = .ok nv) (hseg : seg.length < 2 ^ 32)
    (hd : InBounds m.data.length dv.toNat nv.toNat) (hs : InBounds seg.length sv.toNat nv.toNat) :
    ∃ m' s', step H P len s (.memInit x d sr n) = .ok (.cont s') ∧ WroteMem s s' m' ∧ m'.max = m.max ∧ m'.data.length = m.data.length ∧
      ∀ i, m'.data[i]? =
        if dv.toNat ≤ i ∧ i < dv.toNat + nv.toNat then seg[sv.toNat + (i - dv.toNat)]? else m.data[i]? := by
  obtain ⟨m', h4, h5⟩ := init_correct m seg dv sv nv hm.len hseg hd hs
  exact ⟨m', _, by simp only [step, hm.first, hx, h1, h2, h3, h4, Res.bind_ok]; rfl, rfl, h5⟩

/-- a frame of two i32, one i64 and one f32 register, one i32 local -/
def exNums : VM :=
  { exGlobals with rf := RegFile.empty.saveOffsets fun c => match c with | .i32 => 2 | .i64 => 1 | .f32 => 1 | _ => 0 }

/-- the hypotheses are met: both kinds of destination, all kinds of source -/
example : DstOk exNums .i32 (.reg 1) ∧ DstOk exNums .i32 (.loc 0) ∧ DstOk exNums .f32 (.reg 0) ∧
    exNums.read .i32 (.param 0) = .ok (7 : BitVec 32) ∧ exNums.read .i64 (.reg 0) = .ok (0 : BitVec 64) ∧
    exNums.read .f32 (.const (0x3f800000 : BitVec 32)) = .ok (0x3f800000 : BitVec 32) :=
  ⟨⟨_, rfl⟩, Nat.zero_lt_one, ⟨_, rfl⟩, rfl, rfl, rfl⟩

/-- ... and with a memory of two pages -/
def exNumsMem : VM := { exNums with memPtr := some 0, inst := { exNums.inst with mem := some exMem, datas := [[1, 2, 3]] } }

example : HasMem exNumsMem exMem := ⟨rfl, rfl, by rw [exMem_length]; decide⟩

example : ∃ v s', step Sample.host Sample.prog 9 exNumsMem (.load .i64_16s (.reg 0) (.param 0) 4) = .ok (.cont s') ∧
    Wrote exNumsMem s' .i64 (.reg 0) v ∧ Cls.num .i64 v = LoadOp.result .i64_16s (leValue (byteAt exMem) 11 2) :=
  load_instr .i64_16s ⟨rfl, rfl, by rw [exMem_length]; decide⟩ (p := 7) rfl ⟨_, rfl⟩ (by rw [exMem_length]; unfold InBounds; decide)

example : ∃ s', step Sample.host Sample.prog 9 exNumsMem (.memFill 0 1 0) = .ok (.cont s') := by
  obtain ⟨_, s', h, _⟩ := fill_instr (H := Sample.host) (P := Sample.prog) (len := 9) (s := exNumsMem) (m := exMem)
    ⟨rfl, rfl, by rw [exMem_length]; decide⟩ (d := 0) (v := 1) (n := 0) (dv := 0) (vv := 0) (nv := 0) rfl rfl rfl
    (by rw [exMem_length]; unfold InBounds; decide)
  exact ⟨s', h⟩

example : ¬ Overgrows exMem 1 := by simp [Overgrows, exMem_length, pageSize]

/-- `i32.sub` of local 0 and a constant into register 1 -/
example : ∃ s', step Sample.host Sample.prog 9 exNums (.op2 (.int .s32 .sub) (.reg 1) (.param 0) (.const (9 : BitVec 32))) = .ok (.cont s') ∧
    s'.rf.get .i32 1 = .ok (0xFFFFFFFE : BitVec 32) ∧ s'.rf.get .i32 0 = .ok (0 : BitVec 32) := ⟨_, rfl, rfl, rfl⟩

end Verif.Props
