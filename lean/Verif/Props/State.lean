import Verif.Props.Machine
/-
C35: globals.  C36: tables.
-/
namespace Verif.Props
open Verif.Model

/-! ### C35 -/

/-- the place a `global.set` source names, as an operand -/
def srcOpnd (c : Cls) : Dst → Opnd c
  | .reg i => .reg i
  | .loc i => .param i

/-- C35, writing.  `global.set g` with a value of the global's type stores exactly that value in global `g`, keeps its
mutability, and changes nothing else: no other global, memory, table, register or local. -/
theorem global_set_correct (H : FloatHost) (P : Prog) (len : Nat) (s : VM) (c : Cls) (src : Dst) (g : Nat)
    (v : c.Carrier) (old : Global) (hv : s.read c (srcOpnd c src) = .ok v) (hg : s.inst.globals[g]? = some old)
    (ht : old.value.ty = (⟨c, v⟩ : Val).ty) :
    ∃ gs, step H P len s (.globalSet c src g) = .ok (.cont { s with pc := s.pc + 1, inst := { s.inst with globals := gs } }) ∧
      gs.length = s.inst.globals.length ∧ gs[g]? = some { old with value := ⟨c, v⟩ } ∧
      ∀ g', g' ≠ g → gs[g']? = s.inst.globals[g']? := by
  have hlt := (List.getElem?_eq_some_iff.mp hg).1
  refine ⟨s.inst.globals.set g { old with value := ⟨c, v⟩ }, ?_, by simp, by simp [hlt], ?_⟩
  · cases src <;>
      (simp only [srcOpnd] at hv; simp only [step, hv, Res.bind_ok, setGlobal, hg, ht, if_true]; rfl)
  · intro g' hne
    rw [List.getElem?_set_ne (Ne.symm hne)]

/-- C35, reading.  `global.get g` delivers the value of global `g` and changes nothing but the destination. -/
theorem global_get_correct (H : FloatHost) (P : Prog) (len : Nat) (s : VM) (c : Cls) (dst : Dst) (g : Nat)
    (gl : Global) (v : c.Carrier) (hg : s.inst.globals[g]? = some gl) (hv : gl.value = ⟨c, v⟩) :
    step H P len s (.globalGet c dst g) = (do let s' ← s.write c dst v; pure (.cont s'.next)) := by
  have : gl.value.as c = v := by rw [hv]; simp [Val.as]
  simp only [step, hg, this]

/-- C35, type check: a value of another type is rejected (reported as an error) whatever the state; the store is not
reached. -/
theorem global_set_type_error (H : FloatHost) (P : Prog) (len : Nat) (s : VM) (c : Cls) (src : Dst) (g : Nat)
    (v : c.Carrier) (old : Global) (hv : s.read c (srcOpnd c src) = .ok v) (hg : s.inst.globals[g]? = some old)
    (ht : old.value.ty ≠ (⟨c, v⟩ : Val).ty) : step H P len s (.globalSet c src g) = .trap .instructionFailed := by
  cases src <;>
    (simp only [srcOpnd] at hv; simp only [step, hv, Res.bind_ok, setGlobal, hg, if_neg ht]; rfl)

/-- the instruction writes global `g` -/
def setsGlobal (g : Nat) : Instr → Prop
  | .globalSet _ _ g' => g' = g
  | _ => False

/-- C35, frame: no other instruction of the interpreter changes global `g`; so `global.get` returns the value last set. -/
theorem global_changed_only_by_set (H : FloatHost) (P : Prog) (len : Nat) (s : VM) (i : Instr) (o : Out) (g : Nat)
    (h : step H P len s i = .ok o) (hi : ¬ setsGlobal g i) : o.vm.inst.globals[g]? = s.inst.globals[g]? := by
  have wr : ∀ {c : Cls} {d : Dst} {v : c.Carrier} {s1 : VM}, s.write c d v = .ok s1 → s1.inst = s.inst :=
    fun hw => (VM.write_frame hw).2.2.1
  cases i <;> simp only [step, Res.bind_eq_ok, Res.pure_eq, Res.ok_inj, reduceCtorEq] at h
  case op1 op dst src => obtain ⟨_, _, _, _, s1, hw, rfl⟩ := h; simp [Out.vm, VM.next, wr hw]
  case op2 op dst x y => obtain ⟨_, _, _, _, _, _, s1, hw, rfl⟩ := h; simp [Out.vm, VM.next, wr hw]
  case load => obtain ⟨_, _, _, _, _, _, s1, hw, rfl⟩ := h; simp [Out.vm, VM.next, wr hw]
  case store => obtain ⟨_, _, _, _, m, hm, m', hs, rfl⟩ := h; rfl
  case memSize => obtain ⟨_, _, _, hs, rfl⟩ := h; rfl
  case memGrow => obtain ⟨m, hm, d, _, ⟨r, m'⟩, hg, rf, hs, rfl⟩ := h; rfl
  case memCopy => obtain ⟨m, hm, _, _, _, _, _, _, m', hs, rfl⟩ := h; rfl
  case memInit =>
    obtain ⟨m, hm, h⟩ := h
    split at h
    · cases h
    · simp only [Res.bind_eq_ok, Res.ok_inj] at h
      obtain ⟨_, _, _, _, _, _, m', hs, rfl⟩ := h; rfl
  case memFill => obtain ⟨m, hm, _, _, _, _, _, _, m', hs, rfl⟩ := h; rfl
  case select => obtain ⟨_, _, _, _, _, hs, rfl⟩ := h; rfl
  case globalGet =>
    split at h
    · cases h
    · simp only [Res.bind_eq_ok, Res.ok_inj] at h
      obtain ⟨s1, hw, rfl⟩ := h; simp [Out.vm, VM.next, wr hw]
  case globalSet c src g' =>
    obtain ⟨v, _, gs, hg, rfl⟩ := h
    simp only [setsGlobal] at hi
    simp only [Out.vm, VM.next]
    unfold setGlobal at hg
    split at hg
    · cases hg
    · split at hg
      · cases hg; rw [List.getElem?_set_ne hi]
      · cases hg
  case dataDrop => subst h; rfl
  case refLocalGet =>
    split at h
    · cases h
    · split at h
      · simp only [Res.bind_eq_ok, Res.ok_inj] at h
        obtain ⟨_, hs, rfl⟩ := h; rfl
      · cases h; rfl
  case refLocalSet => obtain ⟨_, _, s1, hw, rfl⟩ := h; simp [Out.vm, VM.next, wr hw]
  case refNull => obtain ⟨_, hs, rfl⟩ := h; rfl
  case refIsNull => obtain ⟨_, _, _, hs, rfl⟩ := h; rfl
  case tableGet =>
    split at h
    · cases h
    · simp only [Res.bind_eq_ok] at h
      obtain ⟨_, _, h⟩ := h
      split at h
      · cases h
      · simp only [Res.bind_eq_ok, Res.ok_inj] at h
        obtain ⟨_, hs, rfl⟩ := h; rfl
  case tableSet =>
    split at h
    · cases h
    · simp only [Res.bind_eq_ok] at h
      obtain ⟨_, _, _, _, h⟩ := h
      split at h
      · cases h; rfl
      · cases h
  case tableFill =>
    split at h
    · cases h
    · simp only [Res.bind_eq_ok, Res.ok_inj] at h
      obtain ⟨_, _, _, _, _, _, tb', hf, rfl⟩ := h; rfl
  case callWasi => obtain ⟨_, _, rfl⟩ := h; rfl
  case callIndirect =>
    obtain ⟨_, _, h⟩ := h
    repeat' split at h
    all_goals (try cases h)
    all_goals
      simp only [Res.bind_eq_ok, Res.ok_inj] at h
      obtain ⟨_, _, _, _, rfl⟩ := h; rfl
  case call =>
    split at h
    · cases h
    · simp only [Res.bind_eq_ok, Res.ok_inj] at h
      obtain ⟨_, _, _, _, rfl⟩ := h; rfl
  case ret => obtain ⟨_, _, rfl⟩ := h; rfl
  case jump t => subst h; rfl
  case block => subst h; rfl
  case ite c t e =>
    obtain ⟨_, _, h⟩ := h
    split at h
    · cases h; rfl
    · split at h <;> cases h <;> rfl
  case fin src dst =>
    split at h
    · simp only [Res.bind_eq_ok, Res.ok_inj] at h
      obtain ⟨_, _, rfl⟩ := h; rfl
    · simp only [Res.bind_eq_ok] at h
      obtain ⟨_, hc, h⟩ := h
      split at h
      · simp only [Res.bind_eq_ok, Res.ok_inj] at h
        obtain ⟨_, _, rfl⟩ := h; rfl
      · cases h; rfl
  case br => obtain ⟨s1, hb, rfl⟩ := h; simp [Out.vm, (VM.branch_pc hb).2.1]
  case brIf =>
    obtain ⟨_, _, h⟩ := h
    split at h
    · cases h; rfl
    · simp only [Res.bind_eq_ok, Res.ok_inj] at h
      obtain ⟨s1, hb, rfl⟩ := h; simp [Out.vm, (VM.branch_pc hb).2.1]
  case brTable ts d idx src => obtain ⟨v, _, s1, hb, rfl⟩ := h; simp [Out.vm, (VM.branch_pc hb).2.1]
  case nop => subst h; rfl

/-- a state with one mutable and one immutable i32 global and one i32 register -/
def exGlobals : VM :=
  { rf := RegFile.empty.saveOffsets fun _ => 1, locals := [⟨.i32, (7 : BitVec 32)⟩], pc := 0, labels := [⟨false, 0, 0⟩],
    retRegs := [], memPtr := none,
    inst := { mem := none, memGen := 0, tables := [[.null, .null, .null]], datas := []
              globals := [⟨true, ⟨.i32, (1 : BitVec 32)⟩⟩, ⟨false, ⟨.i32, (2 : BitVec 32)⟩⟩] } }

example : exGlobals.read .i32 (srcOpnd .i32 (.loc 0)) = .ok (7 : BitVec 32) ∧
    exGlobals.inst.globals[0]? = some ⟨true, ⟨.i32, (1 : BitVec 32)⟩⟩ := ⟨rfl, rfl⟩

/-- C35 is false for immutable globals: `global.set` of an immutable global succeeds and changes it. -/
theorem global_set_immutable_violated : ∃ gl, exGlobals.inst.globals[1]? = some gl ∧ gl.mutable_ = false ∧
    ∃ s', step Sample.host Sample.prog 9 exGlobals (.globalSet .i32 (.loc 0) 1) = .ok (.cont s') ∧
      s'.inst.globals[1]? = some ⟨false, ⟨.i32, (7 : BitVec 32)⟩⟩ :=
  ⟨_, rfl, rfl, _, rfl, rfl⟩

/-! ### C36 -/

/-- C36, `table.set`: in range, exactly the addressed element becomes the given reference; beyond the table the
interpreter stops (panic), nothing is undefined. -/
theorem table_set_correct (H : FloatHost) (P : Prog) (len : Nat) (s : VM) (t idx src : Nat) (tb : List Ref)
    (i : BitVec 32) (r : Ref) (ht : s.inst.tables[t]? = some tb) (hi : s.rf.get .i32 idx = .ok i)
    (hr : s.rf.get .ref src = .ok r) :
    (i.toNat < tb.length → ∃ ts, step H P len s (.tableSet t idx src) =
        .ok (.cont { s with pc := s.pc + 1, inst := { s.inst with tables := ts } }) ∧
      (∀ t', t' ≠ t → ts[t']? = s.inst.tables[t']?) ∧
      ∃ tb', ts[t]? = some tb' ∧ tb'.length = tb.length ∧ tb'[i.toNat]? = some r ∧
        ∀ j, j ≠ i.toNat → tb'[j]? = tb[j]?) ∧
    (tb.length ≤ i.toNat → step H P len s (.tableSet t idx src) = .panic) := by
  have hlt := (List.getElem?_eq_some_iff.mp ht).1
  constructor
  · intro hin
    refine ⟨s.inst.tables.set t (tb.set i.toNat r), ?_, ?_, tb.set i.toNat r, by simp [hlt], by simp, by simp [hin], ?_⟩
    · simp only [step, ht, hi, hr, Res.bind_ok, if_pos hin]; rfl
    · intro t' hne; rw [List.getElem?_set_ne (Ne.symm hne)]
    · intro j hne; rw [List.getElem?_set_ne (Ne.symm hne)]
  · intro hout
    simp only [step, ht, hi, hr, Res.bind_ok, if_neg (Nat.not_lt.mpr hout)]

/-- C36, `table.get`: in range it delivers the element; beyond the table the interpreter stops. -/
theorem table_get_correct (H : FloatHost) (P : Prog) (len : Nat) (s : VM) (t dst idx : Nat) (tb : List Ref)
    (i : BitVec 32) (ht : s.inst.tables[t]? = some tb) (hi : s.rf.get .i32 idx = .ok i) :
    (∀ r, tb[i.toNat]? = some r → step H P len s (.tableGet t dst idx) =
      (do let rf ← s.rf.set .ref dst r; pure (.cont { s with rf := rf, pc := s.pc + 1 }))) ∧
    (tb.length ≤ i.toNat → step H P len s (.tableGet t dst idx) = .panic) := by
  constructor
  · intro r hr
    simp only [step, ht, hi, Res.bind_ok, hr]
    rfl
  · intro hout
    have : tb[i.toNat]? = none := List.getElem?_eq_none_iff.mpr hout
    simp only [step, ht, hi, Res.bind_ok, this]

/-- C36, `table.fill` when `start + count` does not wrap 32 bits: exactly the elements `start … start+count-1` become the
reference; beyond the table the interpreter stops.  Missing: the wrapping case, see `table_fill_violated`. -/
theorem table_fill_partial (tb : List Ref) (i n : BitVec 32) (r : Ref) (hw : i.toNat + n.toNat < 2 ^ 32) :
    (i.toNat + n.toNat ≤ tb.length ∨ n = 0 → ∃ tb', fillTable tb i r n = .ok tb' ∧ tb'.length = tb.length ∧
      ∀ j, tb'[j]? = if i.toNat ≤ j ∧ j < i.toNat + n.toNat then some r else tb[j]?) ∧
    (tb.length < i.toNat + n.toNat → n ≠ 0 → fillTable tb i r n = .panic) := by
  have he : (i + n).toNat = i.toNat + n.toNat := by
    rw [BitVec.toNat_add, Nat.mod_eq_of_lt hw]
  constructor
  · intro hin
    unfold fillTable
    simp only [he]
    by_cases hn : n.toNat = 0
    · rw [if_pos (by omega)]
      refine ⟨tb, rfl, rfl, fun j => ?_⟩
      rw [if_neg (by omega)]
    · rw [if_neg (by omega)]
      have hlen : i.toNat + n.toNat ≤ tb.length := by
        rcases hin with h | h
        · exact h
        · exact absurd (by rw [h]; rfl) hn
      rw [if_pos hlen]
      refine ⟨_, rfl, ?_, fun j => ?_⟩
      · simp; omega
      · have h1 : i.toNat + n.toNat - i.toNat = n.toNat := by omega
        rw [h1, List.getElem?_append, List.getElem?_append]
        simp only [List.length_append, List.length_take, List.length_replicate]
        rw [Nat.min_eq_left (by omega)]
        by_cases ha : j < i.toNat
        · rw [if_pos (by omega), if_pos ha, if_neg (by omega), List.getElem?_take, if_pos ha]
        · by_cases hb : j < i.toNat + n.toNat
          · rw [if_pos hb, if_neg ha, if_pos (by omega), List.getElem?_replicate, if_pos (by omega)]
          · rw [if_neg hb, if_neg (by omega), List.getElem?_drop]
            congr 1; omega
  · intro hout hn
    have hn' : n.toNat ≠ 0 := fun h => hn (BitVec.eq_of_toNat_eq (by simpa using h))
    unfold fillTable
    simp only [he]
    rw [if_neg (by omega), if_neg (by omega)]

/-- C36 is false when `start + count` wraps: filling 2 elements from index 2^32 - 1 (far beyond the table) is silently
accepted and does nothing. -/
theorem table_fill_violated : fillTable [.null, .null] (BitVec.allOnes 32) (.func 0) 2 = .ok [.null, .null] ∧
    ([Ref.null, Ref.null] : List Ref).length < (BitVec.allOnes 32).toNat + (2 : BitVec 32).toNat := by decide

/-- the `table.fill` instruction is `fillTable` on the addressed table -/
theorem table_fill_instr (H : FloatHost) (P : Prog) (len : Nat) (s : VM) (t idx src n : Nat) (tb : List Ref)
    (i k : BitVec 32) (r : Ref) (ht : s.inst.tables[t]? = some tb) (hi : s.rf.get .i32 idx = .ok i)
    (hr : s.rf.get .ref src = .ok r) (hn : s.rf.get .i32 n = .ok k) :
    step H P len s (.tableFill t idx src n) = (do
      let tb' ← fillTable tb i r k
      pure (.cont { s with pc := s.pc + 1, inst := { s.inst with tables := s.inst.tables.set t tb' } })) := by
  simp only [step, ht, hi, hr, hn, Res.bind_ok]
  rfl

example : fillTable [.null, .null, .null] 1#32 (.func 3) 2#32 = .ok [.null, .func 3, .func 3] := by decide
example : exGlobals.inst.tables[0]? = some [.null, .null, .null] ∧ exGlobals.rf.get .i32 0 = .ok (0 : BitVec 32) ∧
    exGlobals.rf.get .ref 0 = .ok Ref.null := ⟨rfl, rfl, rfl⟩

end Verif.Props
