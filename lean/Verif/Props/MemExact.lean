import Verif.Props.Mem
import Verif.Props.Machine
import Verif.Props.Sample
/-
What memory instructions do in *all* cases (C09, C10), and when the memory of a run can shrink (C12).
-/
namespace Verif.Props
open Verif.Model Verif.Spec Verif.Lemmas

/-! ### C09 -/

theorem effAddr_mod (p : BitVec 32) (off : BitVec 64) : effAddr p off = (p.toNat + off.toNat) % 2 ^ 32 := by
  simp only [effAddr, BitVec.toNat_add, BitVec.toNat_setWidth]; omega

theorem effAddr_wrapped (p : BitVec 32) (off : BitVec 64) :
    (BitVec.ofNat 32 ((p.toNat + off.toNat) % 2 ^ 32)).toNat + (0 : BitVec 64).toNat = (p.toNat + off.toNat) % 2 ^ 32 := by
  simp only [BitVec.toNat_ofNat, show (0 : BitVec 64).toNat = 0 from rfl]; omega

/-- C09, exactly what a load does.  It acts on the effective address modulo 2^32 — on bytes the guest did not name, if the sum of
pointer and offset is 2^32 or more — and if those bytes are not all in memory, it is undefined.  It never traps. -/
theorem load_exact (m : Mem) (op : LoadOp) (p : BitVec 32) (off : BitVec 64) (hlen : m.data.length < 2 ^ 32) :
    (InBounds m.data.length ((p.toNat + off.toNat) % 2 ^ 32) op.bytes →
      ∃ v, m.load op p off = .ok v ∧ op.cls.num v = op.result (leValue (byteAt m) ((p.toNat + off.toNat) % 2 ^ 32) op.bytes)) ∧
    (¬ InBounds m.data.length ((p.toNat + off.toNat) % 2 ^ 32) op.bytes → m.load op p off = .ub) := by
  constructor
  · intro hb
    have e : m.load op p off = m.load op (BitVec.ofNat 32 ((p.toNat + off.toNat) % 2 ^ 32)) 0 := by
      simp only [Mem.load, effAddr_mod, effAddr_wrapped, Nat.mod_mod]
    obtain ⟨v, h1, h2⟩ := load_correct m op (BitVec.ofNat 32 ((p.toNat + off.toNat) % 2 ^ 32)) 0 hlen (by rw [effAddr_wrapped]; exact hb)
    rw [effAddr_wrapped] at h2
    exact ⟨v, e.trans h1, h2⟩
  · intro hb
    unfold InBounds at hb
    simp only [Mem.load, readAt, effAddr_mod, loadWidth op, if_neg hb]; rfl

/-- C09, exactly what a store does: likewise. -/
theorem store_exact (m : Mem) (op : StoreOp) (p : BitVec 32) (off : BitVec 64) (v : op.cls.Carrier) (hlen : m.data.length < 2 ^ 32) :
    (InBounds m.data.length ((p.toNat + off.toNat) % 2 ^ 32) op.bytes →
      ∃ m', m.store op p off v = .ok m' ∧ m'.data.length = m.data.length ∧ m'.max = m.max ∧
      (∀ k, k < op.bytes → m'.data[(p.toNat + off.toNat) % 2 ^ 32 + k]? = some (BitVec.ofNat 8 (leByte (op.cls.num v) k))) ∧
      (∀ i, (i < (p.toNat + off.toNat) % 2 ^ 32 ∨ (p.toNat + off.toNat) % 2 ^ 32 + op.bytes ≤ i) → m'.data[i]? = m.data[i]?)) ∧
    (¬ InBounds m.data.length ((p.toNat + off.toNat) % 2 ^ 32) op.bytes → m.store op p off v = .ub) := by
  constructor
  · intro hb
    have e : m.store op p off v = m.store op (BitVec.ofNat 32 ((p.toNat + off.toNat) % 2 ^ 32)) 0 v := by
      simp only [Mem.store, effAddr_mod, effAddr_wrapped, Nat.mod_mod]
    obtain ⟨m', h1, h2⟩ := store_correct m op (BitVec.ofNat 32 ((p.toNat + off.toNat) % 2 ^ 32)) 0 v hlen (by rw [effAddr_wrapped]; exact hb)
    rw [effAddr_wrapped] at h2
    exact ⟨m', e.trans h1, h2⟩
  · intro hb
    unfold InBounds at hb
    simp only [Mem.store, writeAt, effAddr_mod, storeWidth op, toLE_length, if_neg hb]; rfl

/-- C09: out-of-bounds copies and fills of at least one byte are undefined, whatever the memory; they never trap. -/
theorem copy_fill_outside (m : Mem) (d s n : BitVec 32) (hn : n ≠ 0) :
    (¬ InBounds m.data.length d.toNat n.toNat ∨ ¬ InBounds m.data.length s.toNat n.toNat → m.copy d s n = .ub) ∧
    (¬ InBounds m.data.length d.toNat n.toNat → m.fill d s n = .ub) := by
  unfold InBounds
  constructor
  · intro h
    simp only [Mem.copy, if_neg hn, readAt]
    split
    · rename_i hs
      have hl : ((m.data.drop s.toNat).take n.toNat).length = n.toNat := by simp; omega
      simp only [Res.bind_ok, writeAt, hl]
      rw [if_neg (by rcases h with h | h; exact h; exact absurd hs h)]; rfl
    · rfl
  · intro h
    simp only [Mem.fill, if_neg hn, writeAt, List.length_replicate, if_neg h]; rfl

/-- the hypotheses of both halves are met: in two pages, `0xFFFFFFFF + 9` wraps to address 8 and `i32.load` reads it; at
`0xFFFFFFF0 + 4` it is undefined -/
example : (∃ v, exMem.load .i32 0xFFFFFFFF 9 = .ok v) ∧ exMem.load .i32 0xFFFFFFF0 4 = .ub := by
  have hl : exMem.data.length < 2 ^ 32 := by simp [exMem_length]
  constructor
  · obtain ⟨v, h, _⟩ := (load_exact exMem .i32 0xFFFFFFFF 9 hl).1 (by unfold InBounds; simp only [exMem_length]; decide)
    exact ⟨v, h⟩
  · exact (load_exact exMem .i32 0xFFFFFFF0 4 hl).2 (by unfold InBounds; simp only [exMem_length]; decide)

/-! ### C10 -/

/-- the request by which `memory.grow` goes wrong: 2^31 pages or more in all, or exactly 65536 pages without a smaller maximum -/
def Overgrows (m : Mem) (delta : BitVec 32) : Prop :=
  2 ^ 31 ≤ m.data.length / pageSize + delta.toNat ∨
  m.data.length / pageSize + delta.toNat = 65536 ∧ ∀ mx, m.max = some mx → 65536 ≤ mx.toNat

/-- C10, exactly when `memory.grow` meets its specification: for page-aligned memories with a declared maximum of at most 65536 pages
(all that validation lets through), if and only if the request is not one of those just named. -/
theorem grow_spec_exact (m : Mem) (delta : BitVec 32) (hlen : m.data.length < 2 ^ 32)
    (hal : m.data.length % pageSize = 0) (hmax : ∀ mx, m.max = some mx → mx.toNat ≤ 65536) :
    GrowSpec m delta.toNat (m.growInstr delta) ↔ ¬ Overgrows m delta := by
  unfold Overgrows
  by_cases hneg : 2 ^ 31 ≤ delta.toNat
  · refine ⟨fun h => absurd h (grow_negative_violated m delta hneg).2, fun h => absurd (.inl (Nat.le_trans hneg (Nat.le_add_left _ _))) h⟩
  have hdl : delta.toNat < 2 ^ 31 := by omega
  have hmsb : delta.msb = false := by rw [BitVec.msb_eq_decide]; simp; omega
  have hp : m.data.length / 65536 < 65536 := by omega
  have hsize : m.size.toNat = m.data.length / 65536 := by simp only [Mem.size, BitVec.toNat_ofNat]; omega
  have hnew : (m.size + delta).toNat = m.data.length / 65536 + delta.toNat := by rw [BitVec.toNat_add, hsize]; omega
  have hprev : m.size ≠ BitVec.allOnes 32 := by
    intro h; rw [h] at hsize; simp at hsize; omega
  simp only [pageSize] at *
  by_cases hbig : 2 ^ 31 ≤ m.data.length / 65536 + delta.toNat
  · -- the page count turns negative, the memory is cut
    refine ⟨fun h => ?_, fun h => absurd (.inl hbig) h⟩
    have hslt : ∀ x : BitVec 32, x.toNat ≤ 65536 → x.slt (m.size + delta) = false := by
      intro x hx
      have : (m.size + delta).toInt = (m.data.length / 65536 + delta.toNat : Nat) - (2 ^ 32 : Int) := by
        rw [BitVec.toInt_eq_toNat_cond, hnew, if_neg (by omega)]; rfl
      have h2 : x.toInt = x.toNat := BitVec.toInt_eq_toNat_of_lt (by omega)
      rw [BitVec.slt, h2, this]; simp only [decide_eq_false_iff_not]; omega
    have hov : overMax m.max (m.size + delta) = false := by
      cases hmx : m.max with
      | none => rfl
      | some mx => exact hslt mx (hmax mx hmx)
    obtain ⟨v, m', h1, h2⟩ := h
    rw [Mem.growInstr, hmsb] at h1
    simp only [Mem.grow, hov, hslt 65536#32 (by decide), Bool.false_eq_true, if_false, Res.ok_inj, Prod.mk.injEq] at h1
    rcases h2 with ⟨h2, _⟩ | ⟨h2, _⟩
    · exact absurd (h1.1.trans h2) hprev
    · have := h2.1; simp only [pageSize] at this; omega
  by_cases heq : m.data.length / 65536 + delta.toNat = 65536
  · by_cases hm : ∀ mx, m.max = some mx → 65536 ≤ mx.toNat
    · refine ⟨fun h => ?_, fun h => absurd (.inr ⟨heq, hm⟩) h⟩
      have hslt : ∀ x : BitVec 32, x.toNat = 65536 → x.slt (m.size + delta) = false := by
        intro x hx
        rw [BitVec.slt, BitVec.toInt_eq_toNat_of_lt (by omega), BitVec.toInt_eq_toNat_of_lt (by omega), hnew]
        simp only [decide_eq_false_iff_not]; omega
      have hov : overMax m.max (m.size + delta) = false := by
        cases hmx : m.max with
        | none => rfl
        | some mx => exact hslt mx (by have := hm mx hmx; have := hmax mx hmx; omega)
      obtain ⟨v, m', h1, h2⟩ := h
      rw [Mem.growInstr, hmsb] at h1
      simp only [Mem.grow, hov, hslt 65536#32 (by decide), Bool.false_eq_true, if_false, Res.ok_inj, Prod.mk.injEq] at h1
      rcases h2 with ⟨h2, _⟩ | ⟨_, _, _, h2⟩
      · exact absurd (h1.1.trans h2) hprev
      · have h3 := congrArg List.length h2
        rw [← h1.2] at h3
        have hz : ((m.size + delta) * 65536#32).toNat = 0 := by
          rw [BitVec.toNat_mul, hnew, heq]; rfl
        simp only [resize, hz, List.take_zero, List.nil_append, List.length_replicate, List.length_append, pageSize] at h3
        omega
    · refine ⟨fun _ => by simpa [hbig, heq] using hm, fun _ => ?_⟩
      have hm : ∃ mx, m.max = some mx ∧ mx.toNat < 65536 := by
        apply Classical.byContradiction
        intro h
        exact hm fun mx hmx => Nat.le_of_not_lt fun hl => h ⟨mx, hmx, hl⟩
      obtain ⟨mx, hmx, hl⟩ := hm
      have hov : overMax m.max (m.size + delta) = true := by
        rw [hmx]
        show mx.slt (m.size + delta) = true
        rw [BitVec.slt, BitVec.toInt_eq_toNat_of_lt (by omega), BitVec.toInt_eq_toNat_of_lt (by omega), hnew]
        simp only [decide_eq_true_eq]; omega
      rw [Mem.growInstr, hmsb]
      simp only [Mem.grow, hov, if_true, Bool.false_eq_true, if_false]
      refine ⟨_, _, rfl, .inl ⟨rfl, rfl, fun hg => ?_⟩⟩
      have := hg.2 mx.toNat (by rw [hmx]; rfl)
      simp only [pageSize] at this
      omega
  · refine ⟨fun _ h => h.elim hbig fun h => heq h.1, fun _ => ?_⟩
    have hslt : ∀ x : BitVec 32, x.toNat ≤ 65536 →
        (x.slt (m.size + delta) = true ↔ x.toNat < m.data.length / 65536 + delta.toNat) := by
      intro x hx
      rw [BitVec.slt_iff_toInt_lt, BitVec.toInt_eq_toNat_of_lt (by omega), BitVec.toInt_eq_toNat_of_lt (by omega), hnew]
      omega
    have hover : overMax m.max (m.size + delta) = true ↔
        ∃ mx, m.max = some mx ∧ mx.toNat < m.data.length / 65536 + delta.toNat := by
      cases hmx : m.max with
      | none => simp [overMax]
      | some mx => simp [overMax, hslt mx (hmax mx hmx)]
    by_cases hd : delta.toNat < 2 ^ 31 - 65536
    · exact grow_spec_partial m delta hlen hal hmax hd heq
    · -- far beyond every limit: refused
      rw [Mem.growInstr, hmsb]
      have h64 : (65536#32).slt (m.size + delta) = true := (hslt _ (by decide)).2 (by show 65536 < _; omega)
      have hna : ¬ growAllowed (m.max.map (·.toNat)) (m.data.length / pageSize) delta.toNat := by
        rintro ⟨h, _⟩; simp only [pageSize] at h; omega
      simp only [Mem.grow, h64, if_true, Bool.false_eq_true, if_false]
      split <;> exact ⟨_, _, rfl, .inl ⟨rfl, rfl, hna⟩⟩

/-! ### what each instruction can change -/

/-- the instructions that write linear memory -/
def writesMem : Instr → Prop
  | .store .. | .memGrow .. | .memCopy .. | .memInit .. | .memFill .. => True
  | _ => False

/-- the instruction writes table `t` -/
def writesTable (t : Nat) : Instr → Prop
  | .tableSet t' _ _ | .tableFill t' _ _ _ => t' = t
  | _ => False

/-- the instruction drops data segment `d` -/
def dropsData (d : Nat) : Instr → Prop
  | .dataDrop d' => d' = d
  | _ => False

/-- C12, C36: an instruction that is not a store, copy, fill, init or grow leaves memory alone; one that is not a grow leaves its size
alone; only `table.set` and `table.fill` on a table change that table, only `data.drop` changes a data segment. -/
theorem changed_only_by (H : FloatHost) (P : Prog) (len : Nat) (s : VM) (i : Instr) (o : Out) (h : step H P len s i = .ok o) :
    (¬ writesMem i → o.vm.inst.mem = s.inst.mem) ∧
    ((∀ dst arg, i ≠ .memGrow dst arg) → ∀ mem mem', s.inst.mem = some mem → o.vm.inst.mem = some mem' →
      mem'.data.length = mem.data.length ∧ mem'.max = mem.max) ∧
    (∀ t, ¬ writesTable t i → o.vm.inst.tables[t]? = s.inst.tables[t]?) ∧
    (∀ d, ¬ dropsData d i → o.vm.inst.datas[d]? = s.inst.datas[d]?) := by
  have wr : ∀ {c : Cls} {d : Dst} {v : c.Carrier} {s1 : VM}, s.write c d v = .ok s1 → s1.inst = s.inst :=
    fun hw => (VM.write_frame hw).2.2.1
  have same : ∀ {j : Inst}, j = s.inst → (¬ writesMem i → j.mem = s.inst.mem) ∧
      ((∀ dst arg, i ≠ .memGrow dst arg) → ∀ mem mem', s.inst.mem = some mem → j.mem = some mem' →
        mem'.data.length = mem.data.length ∧ mem'.max = mem.max) ∧
      (∀ t, ¬ writesTable t i → j.tables[t]? = s.inst.tables[t]?) ∧ (∀ d, ¬ dropsData d i → j.datas[d]? = s.inst.datas[d]?) := by
    rintro _ rfl
    refine ⟨fun _ => rfl, fun _ mem mem' h1 h2 => ?_, fun _ _ => rfl, fun _ _ => rfl⟩
    rw [h1] at h2; cases h2; exact ⟨rfl, rfl⟩
  cases i <;> simp only [step, Res.bind_eq_ok, Res.pure_eq, Res.ok_inj, reduceCtorEq] at h
  case op1 op dst src => obtain ⟨_, _, _, _, s1, hw, rfl⟩ := h; have e := wr hw; exact same e
  case op2 op dst x y => obtain ⟨_, _, _, _, _, _, s1, hw, rfl⟩ := h; have e := wr hw; exact same e
  case load => obtain ⟨_, _, _, _, _, _, s1, hw, rfl⟩ := h; have e := wr hw; exact same e
  case store =>
    obtain ⟨_, _, _, _, m, hm, m', hs, rfl⟩ := h
    refine ⟨fun h => absurd trivial h, fun _ mem mem' h1 h2 => ?_, fun _ _ => rfl, fun _ _ => rfl⟩
    have hm := VM.rawMem_eq hm
    rw [h1] at hm; cases hm
    simp only [Out.vm, VM.setMem, VM.next] at h2; cases h2
    simp only [Mem.store, Res.bind_eq_ok, Res.pure_eq, Res.ok_inj] at hs
    obtain ⟨d, hd, rfl⟩ := hs
    exact ⟨writeAt_len hd, rfl⟩
  case memSize => obtain ⟨_, _, _, hs, rfl⟩ := h; exact same rfl
  case memGrow =>
    obtain ⟨m, hm, d, _, ⟨r, m'⟩, hg, rf, hs, rfl⟩ := h
    exact ⟨fun h => absurd trivial h, fun h => absurd rfl (h _ _), fun _ _ => rfl, fun _ _ => rfl⟩
  case memCopy =>
    obtain ⟨m, hm, _, _, _, _, _, _, m', hs, rfl⟩ := h
    refine ⟨fun h => absurd trivial h, fun _ mem mem' h1 h2 => ?_, fun _ _ => rfl, fun _ _ => rfl⟩
    have hm := VM.mem0_eq hm
    rw [h1] at hm; cases hm
    simp only [Out.vm, VM.setMem, VM.next] at h2; cases h2
    unfold Mem.copy at hs
    split at hs
    · cases hs; exact ⟨rfl, rfl⟩
    · simp only [Res.bind_eq_ok, Res.pure_eq, Res.ok_inj] at hs
      obtain ⟨_, _, d, hd, rfl⟩ := hs
      exact ⟨writeAt_len hd, rfl⟩
  case memInit =>
    obtain ⟨m, hm, h⟩ := h
    split at h
    · cases h
    · simp only [Res.bind_eq_ok, Res.ok_inj] at h
      obtain ⟨_, _, _, _, _, _, m', hs, rfl⟩ := h
      refine ⟨fun h => absurd trivial h, fun _ mem mem' h1 h2 => ?_, fun _ _ => rfl, fun _ _ => rfl⟩
      have hm := VM.mem0_eq hm
      rw [h1] at hm; cases hm
      simp only [Out.vm, VM.setMem, VM.next] at h2; cases h2
      unfold Mem.initInstr at hs
      dsimp only at hs
      split at hs
      · cases hs; exact ⟨rfl, rfl⟩
      · split at hs
        · rename_i a _ b _ c _ _ _ _
          refine Mem.init_len (BitVec.isLt _) ?_ hs
          simp only [List.length_take]
          have : ∀ x : BitVec 32, x.toNat < 2 ^ 32 := fun x => x.isLt
          exact Nat.lt_of_le_of_lt (Nat.min_le_left _ _) (Nat.lt_of_le_of_lt (Nat.sub_le _ _) (this _))
        · cases hs
  case memFill =>
    obtain ⟨m, hm, _, _, _, _, _, _, m', hs, rfl⟩ := h
    refine ⟨fun h => absurd trivial h, fun _ mem mem' h1 h2 => ?_, fun _ _ => rfl, fun _ _ => rfl⟩
    have hm := VM.mem0_eq hm
    rw [h1] at hm; cases hm
    simp only [Out.vm, VM.setMem, VM.next] at h2; cases h2
    unfold Mem.fill at hs
    split at hs
    · cases hs; exact ⟨rfl, rfl⟩
    · simp only [Res.bind_eq_ok, Res.pure_eq, Res.ok_inj] at hs
      obtain ⟨d, hd, rfl⟩ := hs
      exact ⟨writeAt_len hd, rfl⟩
  case select => obtain ⟨_, _, _, _, _, hs, rfl⟩ := h; exact same rfl
  case globalGet =>
    split at h
    · cases h
    · simp only [Res.bind_eq_ok, Res.ok_inj] at h
      obtain ⟨s1, hw, rfl⟩ := h; have e := wr hw; exact same e
  case globalSet c src g' =>
    obtain ⟨v, _, gs, hg, rfl⟩ := h
    refine ⟨fun _ => rfl, fun _ mem mem' h1 h2 => ?_, fun _ _ => rfl, fun _ _ => rfl⟩
    simp only [Out.vm, VM.next] at h2
    rw [h1] at h2; cases h2; exact ⟨rfl, rfl⟩
  case dataDrop x =>
    subst h
    refine ⟨fun _ => rfl, fun _ mem mem' h1 h2 => ?_, fun _ _ => rfl, fun d hd => ?_⟩
    · simp only [Out.vm, VM.next] at h2
      rw [h1] at h2; cases h2; exact ⟨rfl, rfl⟩
    · simp only [dropsData] at hd
      simp only [Out.vm, VM.next]
      rw [List.getElem?_set_ne hd]
  case refLocalGet =>
    split at h
    · cases h
    · split at h
      · simp only [Res.bind_eq_ok, Res.ok_inj] at h
        obtain ⟨_, hs, rfl⟩ := h; exact same rfl
      · cases h; exact same rfl
  case refLocalSet => obtain ⟨_, _, s1, hw, rfl⟩ := h; have e := wr hw; exact same e
  case refNull => obtain ⟨_, hs, rfl⟩ := h; exact same rfl
  case refIsNull => obtain ⟨_, _, _, hs, rfl⟩ := h; exact same rfl
  case tableGet =>
    split at h
    · cases h
    · simp only [Res.bind_eq_ok] at h
      obtain ⟨_, _, h⟩ := h
      split at h
      · cases h
      · simp only [Res.bind_eq_ok, Res.ok_inj] at h
        obtain ⟨_, hs, rfl⟩ := h; exact same rfl
  case tableSet x _ _ =>
    split at h
    · cases h
    · simp only [Res.bind_eq_ok] at h
      obtain ⟨_, _, _, _, h⟩ := h
      split at h
      · cases h
        refine ⟨fun _ => rfl, fun _ mem mem' h1 h2 => ?_, fun t ht => ?_, fun _ _ => rfl⟩
        · simp only [Out.vm, VM.next] at h2
          rw [h1] at h2; cases h2; exact ⟨rfl, rfl⟩
        · simp only [writesTable] at ht
          simp only [Out.vm, VM.next]
          rw [List.getElem?_set_ne ht]
      · cases h
  case tableFill =>
    split at h
    · cases h
    · simp only [Res.bind_eq_ok, Res.ok_inj] at h
      obtain ⟨_, _, _, _, _, _, tb', hf, rfl⟩ := h
      refine ⟨fun _ => rfl, fun _ mem mem' h1 h2 => ?_, fun t ht => ?_, fun _ _ => rfl⟩
      · simp only [Out.vm, VM.next] at h2
        rw [h1] at h2; cases h2; exact ⟨rfl, rfl⟩
      · simp only [writesTable] at ht
        simp only [Out.vm, VM.next]
        rw [List.getElem?_set_ne ht]
  case callWasi => obtain ⟨_, _, rfl⟩ := h; exact same rfl
  case callIndirect =>
    obtain ⟨_, _, h⟩ := h
    repeat' split at h
    all_goals (try cases h)
    all_goals
      simp only [Res.bind_eq_ok, Res.ok_inj] at h
      obtain ⟨_, _, _, _, rfl⟩ := h; exact same rfl
  case call =>
    split at h
    · cases h
    · simp only [Res.bind_eq_ok, Res.ok_inj] at h
      obtain ⟨_, _, _, _, rfl⟩ := h; exact same rfl
  case ret => obtain ⟨_, _, rfl⟩ := h; exact same rfl
  case jump t => subst h; exact same rfl
  case block => subst h; exact same rfl
  case ite c t e =>
    obtain ⟨_, _, h⟩ := h
    split at h
    · cases h; exact same rfl
    · split at h <;> cases h <;> exact same rfl
  case fin src dst =>
    split at h
    · simp only [Res.bind_eq_ok, Res.ok_inj] at h
      obtain ⟨_, _, rfl⟩ := h; exact same rfl
    · simp only [Res.bind_eq_ok] at h
      obtain ⟨_, hc, h⟩ := h
      split at h
      · simp only [Res.bind_eq_ok, Res.ok_inj] at h
        obtain ⟨_, _, rfl⟩ := h; exact same rfl
      · cases h; exact same rfl
  case br => obtain ⟨s1, hb, rfl⟩ := h; exact same (VM.branch_pc hb).2.1
  case brIf =>
    obtain ⟨_, _, h⟩ := h
    split at h
    · cases h; exact same rfl
    · simp only [Res.bind_eq_ok, Res.ok_inj] at h
      obtain ⟨s1, hb, rfl⟩ := h; exact same (VM.branch_pc hb).2.1
  case brTable ts d idx src => obtain ⟨v, _, s1, hb, rfl⟩ := h; exact same (VM.branch_pc hb).2.1
  case nop => subst h; exact same rfl

/-! ### C12 for runs -/

/-- a run started in `m` comes to execute instruction `i` in state `s` -/
def Comes {S : Wasi} (E : Env) (D : Dispatcher) (en : Bool) (m : Machine S) (s : VM) (i : Instr) : Prop :=
  ∃ m1 f fs d, Reach E D en m m1 ∧ m1.frames = f :: fs ∧ Visits E (E.P.body f.func) (m1.enter f) d ∧ d.vm = s ∧
    (E.P.body f.func)[s.pc]? = some i

/-- a property of the state that every instruction executed preserves holds at the end of a dispatcher call -/
theorem disp_visits {J : VM → Prop} {E : Env} {code : List Instr} {d0 : DState}
    (hstep : ∀ d i o, Visits E code d0 d → code[d.vm.pc]? = some i → J d.vm → step E.H E.P code.length d.vm i = .ok o → J o.vm)
    (hlab : ∀ s ls pc, J s → J { s with labels := ls, pc := pc }) {D : Dispatcher} (hD : IsD E D) {n : Nat} {fin : Final}
    (h0 : J d0.vm) (h : D n code d0 = some (.ok fin)) : J fin.d.vm := by
  have hl : ∀ (n : Nat) (d : DState), Visits E code d0 d → J d.vm → loopRun E code n d = some (.ok fin) → J fin.d.vm := by
    intro n
    induction n with
    | zero => intro d _ _ h; simp [loopRun] at h
    | succ n ih =>
      intro d hv hj h
      rw [loopRun] at h
      split at h
      · rename_i d1 hd
        have := poll_vm' hd
        cases h; show J d1.vm; rw [this]; exact hj
      · rename_i d1 hd
        have hp := poll_vm' hd
        have hj1 : J d1.vm := by rw [hp]; exact hj
        split at h
        · rename_i hi
          split at h
          · rename_i l l2 rest hls
            split at h
            · cases h; exact hj1
            · rename_i hc
              exact ih _ (.unwind hv hd hi hls (by simp) hc) (hlab d1.vm _ _ hj1) h
          · cases h; exact hj1
        · rename_i i hi
          have hi' : code[d.vm.pc]? = some i := by rw [← hp]; exact hi
          split at h
          · rename_i vm hs; exact ih _ (.step hv hd hi hs) (hstep d i (.cont vm) hv hi' hj (by rw [← hp]; exact hs)) h
          · rename_i hs; cases h; exact hstep d i _ hv hi' hj (by rw [← hp]; exact hs)
          all_goals cases h
  have ht : ∀ (n : Nat) (d d1 : DState), Visits E code d0 d → poll E d = (false, d1) → J d.vm → tcoChain E code n d1 = some (.ok fin) →
      J fin.d.vm := by
    intro n
    induction n with
    | zero => intro d d1 _ _ _ h; simp [tcoChain] at h
    | succ n ih =>
      intro d d1 hv hd hj h
      have hp := poll_vm' hd
      have hj1 : J d1.vm := by rw [hp]; exact hj
      rw [tcoChain] at h
      split at h
      · split at h
        · cases h; exact hj1
        · cases h
      · rename_i i hi
        have hi' : code[d.vm.pc]? = some i := by rw [← hp]; exact hi
        split at h
        · rename_i vm hs
          have hj2 := hstep d i _ hv hi' hj (by rw [← hp]; exact hs)
          have hv2 := Visits.step hv hd hi hs
          split at h
          · rename_i d2 hd2
            have := poll_vm' hd2
            cases h; show J d2.vm; rw [this]; exact hj2
          · rename_i d2 hd2
            exact ih _ _ hv2 hd2 hj2 h
        · rename_i hs; cases h; exact hstep d i _ hv hi' hj (by rw [← hp]; exact hs)
        all_goals cases h
  cases hD with
  | loop => exact hl n d0 (.refl _) h0 h
  | tco =>
    simp only [tcoD, tcoRun] at h
    split at h
    · rename_i d1 hd
      have := poll_vm' hd
      cases h; show J d1.vm; rw [this]; exact h0
    · rename_i d1 hd
      have hp := poll_vm' hd
      split at h
      · cases h; show J d1.vm; rw [hp]; exact h0
      · exact ht n d0 d1 (.refl _) hd h0 h

/-- what is kept of the memory of a run: whole pages, its maximum, at least `n` bytes -/
def AtLeast (n : Nat) (mx : Option (BitVec 32)) (s : Inst) : Prop :=
  ∀ mem, s.mem = some mem → Paged mem ∧ mem.max = mx ∧ n ≤ mem.data.length

theorem AtLeast.step {n : Nat} {mx : Option (BitVec 32)} (hmx : ∀ x, mx = some x → x.toNat ≤ 65536) {H : FloatHost} {P : Prog} {len : Nat}
    {s : VM} {i : Instr} {o : Out} (h : step H P len s i = .ok o)
    (hg : ∀ dst arg mem delta, i = .memGrow dst arg → s.inst.mem = some mem → s.rf.get .i32 arg = .ok delta → ¬ Overgrows mem delta)
    (hn : AtLeast n mx s.inst) : AtLeast n mx o.vm.inst := by
  intro mem' hm'
  have hk := (step_keeps h).mem
  rw [hm'] at hk
  cases hm : s.inst.mem with
  | none => rw [hm] at hk; exact absurd hk (by simp [OptMemStep])
  | some mem =>
    obtain ⟨h1, h2, h3⟩ := hn mem hm
    have hp : Paged mem' := by rw [hm] at hk; exact h1.step hk
    refine ⟨hp, ?_⟩
    by_cases hi : ∃ dst arg, i = .memGrow dst arg
    · obtain ⟨dst, arg, rfl⟩ := hi
      simp only [Model.step, Res.bind_eq_ok, Res.pure_eq, Res.ok_inj] at h
      obtain ⟨m, hm0, delta, hdl, ⟨r, m1⟩, hgr, rf, hs, rfl⟩ := h
      have := VM.mem0_eq hm0
      rw [hm] at this; cases this
      simp only [Out.vm, VM.next] at hm'
      cases hm'
      obtain ⟨v, m2, e, hc⟩ := (grow_spec_exact mem delta h1.2 h1.1 (by rw [h2]; exact hmx)).2 (hg dst arg mem delta rfl hm hdl)
      rw [e] at hgr; cases hgr
      rcases hc with ⟨_, rfl, _⟩ | ⟨_, _, h4, h5⟩
      · exact ⟨h2, h3⟩
      · refine ⟨h4.trans h2, ?_⟩
        rw [h5]; simp only [List.length_append]; omega
    · have hsame : mem'.data.length = mem.data.length ∧ mem'.max = mem.max := by
        exact (changed_only_by H P len s i o h).2.1 (fun a b e => hi ⟨a, b, e⟩) mem mem' hm hm'
      exact ⟨hsame.2.trans h2, by omega⟩

/-- C12 for whole runs: unless the guest comes to execute a `memory.grow` of the kind `grow_spec_exact` names, memory never shrinks, keeps
its maximum and stays a whole number of pages — whatever else it executes, whatever it calls and whatever WASI does.  Partial: the full
claim has no exception. -/
theorem memory_never_shrinks_run_partial {S : Wasi} {E : Env} {D : Dispatcher} (hD : IsD E D) {en : Bool} {m m' : Machine S}
    (h : Reach E D en m m') (hS : WasiKeepsSize S) (mem : Mem) (hm : m.inst.mem = some mem) (hp : Paged mem)
    (hmx : ∀ x, mem.max = some x → x.toNat ≤ 65536)
    (hno : ∀ s dst arg mem delta, Comes E D en m s (.memGrow dst arg) → s.inst.mem = some mem → s.rf.get .i32 arg = .ok delta →
      ¬ Overgrows mem delta) (mem' : Mem) (hm' : m'.inst.mem = some mem') :
    Paged mem' ∧ mem'.max = mem.max ∧ mem.data.length ≤ mem'.data.length := by
  have one : ∀ {m1 : Machine S} {n : Nat} {r : Round S}, Reach E D en m m1 → m1.round E D en n = some (.ok r) →
      AtLeast mem.data.length mem.max m1.inst → AtLeast mem.data.length mem.max r.m.inst := by
    intro m1 n r hreach hr hk
    rcases round_inv hD hr with ⟨_, rfl⟩ | ⟨f, fs, fin, hf, hd, _, hre⟩
    · exact hk
    · have h1 : AtLeast mem.data.length mem.max fin.d.vm.inst := by
        refine disp_visits (J := fun s => AtLeast mem.data.length mem.max s.inst) ?_ ?_ hD (d0 := m1.enter f) hk hd
        · intro d i o hv hi hj hs
          refine AtLeast.step hmx hs ?_ hj
          rintro dst arg mem1 delta rfl h2 h3
          exact hno d.vm dst arg mem1 delta ⟨m1, f, fs, d, hreach, hf, hv, rfl, hi⟩ h2 h3
        · intro s ls pc hj; exact hj
      rcases react_inst hre with h3 | ⟨mem1, id, ps, res, w, h4, h5, h3⟩
      · rw [h3]; exact h1
      · rw [h3]
        intro mem2 hmem2
        cases hmem2
        obtain ⟨h6, h7, h8⟩ := h1 mem1 h4
        have h9 := hS _ _ _ _ _ _ _ h5
        exact ⟨h6.step (.inl h9), h9.2.trans h7, by omega⟩
  have all : AtLeast mem.data.length mem.max m'.inst := by
    clear hm' mem'
    induction h with
    | refl => intro mem1 h1; rw [hm] at h1; cases h1; exact ⟨hp, rfl, Nat.le_refl _⟩
    | next h k ih => obtain ⟨n, k⟩ := k; exact one h k ih
    | done h k ih => exact one h k ih
    | ckpt h k ih => exact one h k ih
  exact all mem' hm'

/-- a function that grows memory by one page: `i32.const 1; memory.grow` -/
def growCode : Code :=
  { locals := [], alloc := some (fun c => if c = .i32 then 1 else 0)
    body := [.op1 (.mov .i32) (.reg 0) (.const (1 : BitVec 32)), .memGrow 0 0, .fin [⟨.i32, 0⟩] []] }

def growEnv : Env := { Sample.env with P := { types := [⟨[], [.i32]⟩], funcs := [.runtime ⟨[], [.i32]⟩ growCode] } }

def growMachine : Machine Sample.wasi :=
  match Machine.new growEnv.P Sample.inst () 0 [] with
  | .ok m => m
  | _ => Sample.machine

def growVM (k : Nat) : VM :=
  match growMachine.frames with
  | f :: _ =>
    let v0 := (growMachine.enter f).vm
    match k, step growEnv.H growEnv.P 3 v0 (.op1 (.mov .i32) (.reg 0) (.const (1 : BitVec 32))) with
    | 0, _ => v0
    | 1, .ok (.cont v) => v
    | _, .ok (.cont v) => match step growEnv.H growEnv.P 3 v (.memGrow 0 0) with | .ok (.cont v) => v | _ => v
    | _, _ => v0
  | [] => ⟨RegFile.empty, [], 0, [], [], none, Sample.inst⟩

/-- the hypotheses of `memory_never_shrinks_run_partial` are met by a run that does grow memory: it comes to `memory.grow` in one state
only, with operand 1 -/
theorem grow_run_fits (en : Bool) (s : VM) (dst arg : Nat) (mem : Mem) (delta : BitVec 32)
    (h : Comes growEnv (loopD growEnv) en growMachine s (.memGrow dst arg)) (hm : s.inst.mem = some mem)
    (hd : s.rf.get .i32 arg = .ok delta) : mem = ⟨[], none⟩ ∧ delta = 1 := by
  have hr : ∀ {m m1 : Machine Sample.wasi}, Reach growEnv (loopD growEnv) en m m1 → m = growMachine → m1 = growMachine ∨ m1.frames = [] := by
    intro m m1 h
    have one : ∀ {m1 : Machine Sample.wasi} {n : Nat} {r : Round Sample.wasi},
        m1.round growEnv (loopD growEnv) en n = some (.ok r) → m1 = growMachine ∨ m1.frames = [] → r.m.frames = [] := by
      intro m1 n r h hm
      rcases hm with rfl | hm
      · match n with
        | 0 | 1 | 2 | 3 => cases h
        | n + 4 => cases h; rfl
      · simp only [Machine.round, hm] at h
        cases h; exact hm
    induction h with
    | refl => exact fun h => .inl h
    | next _ k ih => obtain ⟨n, k⟩ := k; exact fun h => .inr (one k (ih h))
    | done _ k ih => exact fun h => .inr (one k (ih h))
    | ckpt _ k ih => exact fun h => .inr (one k (ih h))
  obtain ⟨m1, f, fs, d, hreach, hf, hv, rfl, hi⟩ := h
  rcases hr hreach rfl with rfl | h
  · have hvm : ∀ {d0 d : DState}, Visits growEnv growCode.body d0 d → d0.vm = growVM 0 →
        d.vm = growVM 0 ∨ d.vm = growVM 1 ∨ d.vm = growVM 2 ∨ (3 ≤ d.vm.pc ∧ d.vm.labels.length = 1) := by
      intro d0 d h
      induction h with
      | refl => exact .inl
      | step _ hp hi hs ih =>
        intro h0
        rw [poll_vm' hp] at hi hs
        rcases ih h0 with h | h | h | h
        · rw [h] at hi hs; cases hi; cases hs; exact .inr (.inl rfl)
        · rw [h] at hi hs; cases hi; cases hs; exact .inr (.inr (.inl rfl))
        · rw [h] at hi hs; cases hi; cases hs; exact .inr (.inr (.inr ⟨Nat.le_refl 3, rfl⟩))
        · rw [List.getElem?_eq_none h.1] at hi; cases hi
      | unwind _ hp hi hl hne _ ih =>
        intro h0
        rw [poll_vm' hp] at hi hl
        rcases ih h0 with h | h | h | h
        · rw [h] at hi; cases hi
        · rw [h] at hi; cases hi
        · rw [h] at hi; cases hi
        · rw [hl] at h
          exact absurd (List.eq_nil_of_length_eq_zero (by simpa using h.2)) hne
    cases hf
    rcases hvm hv rfl with h | h | h | h
    · rw [h] at hi; cases hi
    · rw [h] at hi hm hd; cases hi; cases hm; cases hd; exact ⟨rfl, rfl⟩
    · rw [h] at hi; cases hi
    · rw [List.getElem?_eq_none h.1] at hi; cases hi
  · rw [h] at hf; cases hf

/-- ... so that its memory never is smaller than at the start -/
example (m' : Machine Sample.wasi) (h : Reach growEnv (loopD growEnv) true growMachine m') (mem' : Mem) (hm : m'.inst.mem = some mem') :
    Paged mem' ∧ mem'.max = none ∧ 0 ≤ mem'.data.length :=
  memory_never_shrinks_run_partial .loop h (by intro _ _ _ _ _ _ _ h; cases h; exact ⟨rfl, rfl⟩) ⟨[], none⟩ rfl ⟨rfl, by decide⟩ (by simp)
    (fun s dst arg mem delta hc h1 h2 => by
      obtain ⟨rfl, rfl⟩ := grow_run_fits true s dst arg mem delta hc h1 h2
      simp [Overgrows]) mem' hm

/-- and it does come to `memory.grow` -/
example : Sample.shown (growMachine.run growEnv (loopD growEnv) true 10) = some ([⟨.i32, (0 : BitVec 32)⟩], 65536) := by decide +kernel

/-- `changed_only_by` is about instructions that succeed: `memory.size` writes a register and leaves everything else alone -/
example : ∃ s', step Sample.host Sample.prog 9 (growVM 1) (.memSize 0) = .ok (.cont s') ∧ s'.inst.mem = some ⟨[], none⟩ := ⟨_, rfl, rfl⟩

end Verif.Props
