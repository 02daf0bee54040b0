import Verif.Spec.Safety
import Verif.Lemmas.CompWinFn
import Verif.Lemmas.Keeps
/-
One instruction inside the window of its frame.
-/
namespace Verif.Model

theorem Res.bind_eq_ub {α β : Type} {x : Res α} {k : α → Res β} : (x >>= k) = .ub ↔ x = .ub ∨ ∃ v, x = .ok v ∧ k v = .ub := by
  cases x <;> simp

end Verif.Model

namespace Verif.Lemmas
open Verif.Model Verif.Spec Verif.Props

/-- a state of a frame with `W c` registers of class `c` and `nl` locals, its window being the last one -/
structure Fit (W : Cls → Nat) (nl : Nat) (s : VM) : Prop where
  room : ∀ c, s.rf.cached c + W c = (s.rf.regs c).length
  locals : s.locals.length = nl
  ret : ∀ r ∈ s.retRegs, r.idx < W r.cls
  ptr : s.memPtr = s.inst.ptr

/-- the current window is the last one and holds `W c` registers -/
def Room (W : Cls → Nat) (rf : RegFile) : Prop := ∀ c, rf.cached c + W c = (rf.regs c).length

theorem Room.of {W : Cls → Nat} {rf rf' : RegFile} (h : Room W rf) (k : SameShape rf rf') : Room W rf' := fun c => by
  rw [k.cached, k.len]; exact h c

theorem Room.writes {W : Cls → Nat} {rf rf' : RegFile} (h : Room W rf) (k : Writes rf rf') : Room W rf' := h.of k.shape

theorem Room.get {W : Cls → Nat} {rf : RegFile} (h : Room W rf) {c : Cls} {i : Nat} (hi : i < W c) : ∃ v, rf.get c i = .ok v := by
  have hl := h c
  have hlt : rf.cached c + i < (rf.regs c).length := by omega
  exact ⟨(rf.regs c)[rf.cached c + i], by simp only [RegFile.get, List.getElem?_eq_getElem hlt]⟩

theorem Room.get_ub {W : Cls → Nat} {rf : RegFile} (h : Room W rf) {c : Cls} {i : Nat} (hi : i < W c) : rf.get c i ≠ .ub := by
  obtain ⟨v, hv⟩ := h.get hi
  rw [hv]; nofun

theorem Room.set_ub {W : Cls → Nat} {rf : RegFile} (h : Room W rf) {c : Cls} {i : Nat} (hi : i < W c) (v : c.Carrier) :
    rf.set c i v ≠ .ub := by
  have hl := h c
  unfold RegFile.set
  rw [if_pos (by omega)]; nofun

theorem Room.copyReg_ub {W : Cls → Nat} {rf : RegFile} (h : Room W rf) {a b : Reg} (ha : a.idx < W a.cls) (hb : b.idx < W b.cls) :
    rf.copyReg a b ≠ .ub := by
  unfold RegFile.copyReg
  split
  · rw [Ne, Res.bind_eq_ub]
    rintro (h1 | ⟨v, _, h1⟩)
    · exact h.get_ub ha h1
    · exact h.set_ub hb _ h1
  · nofun

theorem Room.copyRegs_ub {W : Cls → Nat} : ∀ {as bs : List Reg} {rf : RegFile}, Room W rf → (∀ r ∈ as, r.idx < W r.cls) →
    (∀ r ∈ bs, r.idx < W r.cls) → rf.copyRegs as bs ≠ .ub
  | [], _, rf, _, _, _ => by simp [RegFile.copyRegs]
  | _ :: _, [], rf, _, _, _ => by simp [RegFile.copyRegs]
  | a :: as, b :: bs, rf, h, ha, hb => by
    rw [RegFile.copyRegs, Ne, Res.bind_eq_ub]
    rintro (h1 | ⟨r1, h1, h2⟩)
    · exact h.copyReg_ub (ha a List.mem_cons_self) (hb b List.mem_cons_self) h1
    · exact (h.writes (.copyReg h1)).copyRegs_ub (fun r hr => ha r (List.mem_cons_of_mem _ hr))
        (fun r hr => hb r (List.mem_cons_of_mem _ hr)) h2

theorem Room.copyIf_ub {W : Cls → Nat} {as bs : List Reg} {rf : RegFile} (h : Room W rf) (ha : ∀ r ∈ as, r.idx < W r.cls)
    (hb : ∀ r ∈ bs, r.idx < W r.cls) : rf.copyIf as bs ≠ .ub := by
  unfold RegFile.copyIf
  split
  · exact h.copyRegs_ub ha hb
  · nofun

theorem Room.getVals_ub {W : Cls → Nat} {rf : RegFile} (h : Room W rf) : ∀ {as : List Reg}, (∀ r ∈ as, r.idx < W r.cls) →
    rf.getVals as ≠ .ub
  | [], _ => by simp [RegFile.getVals]
  | a :: as, ha => by
    rw [RegFile.getVals, Ne, Res.bind_eq_ub, RegFile.getVal, Res.bind_eq_ub]
    rintro ((h1 | ⟨_, _, h1⟩) | ⟨v, _, h2⟩)
    · exact h.get_ub (ha a List.mem_cons_self) h1
    · cases h1
    · rw [Res.bind_eq_ub] at h2
      rcases h2 with h2 | ⟨_, _, h2⟩
      · exact h.getVals_ub (fun r hr => ha r (List.mem_cons_of_mem _ hr)) h2
      · cases h2

theorem getVals_length {rf : RegFile} : ∀ {as : List Reg} {vs : List Val}, rf.getVals as = .ok vs → vs.length = as.length
  | [], vs, h => by simp only [RegFile.getVals, Res.ok_inj] at h; subst h; rfl
  | a :: as, vs, h => by
    simp only [RegFile.getVals, Res.bind_eq_ok, Res.pure_eq, Res.ok_inj] at h
    obtain ⟨_, _, vs', h1, rfl⟩ := h
    simp [getVals_length h1]

theorem Room.setVal_ub {W : Cls → Nat} {rf : RegFile} (h : Room W rf) {x : Reg} (hx : x.idx < W x.cls) (v : Val) :
    rf.setVal x v ≠ .ub := by
  obtain ⟨c, i⟩ := x
  simp only at hx
  cases c <;> simp only [RegFile.setVal]
  case v128 => nofun
  case ref =>
    split
    · exact h.set_ub hx _
    · nofun
  all_goals
    split
    · exact h.set_ub hx _
    · exact h.set_ub hx _

theorem Room.setVals_ub {W : Cls → Nat} : ∀ {xs : List Reg} {vs : List Val} {rf : RegFile}, Room W rf →
    (∀ x ∈ xs, x.idx < W x.cls) → rf.setVals xs vs ≠ .ub
  | [], _, rf, _, _ => by simp [RegFile.setVals]
  | _ :: _, [], rf, _, _ => by simp [RegFile.setVals]
  | x :: xs, v :: vs, rf, h, hx => by
    rw [RegFile.setVals, Ne, Res.bind_eq_ub]
    rintro (h1 | ⟨r1, h1, h2⟩)
    · exact h.setVal_ub (hx x List.mem_cons_self) v h1
    · exact (h.writes (.setVal h1)).setVals_ub (fun r hr => hx r (List.mem_cons_of_mem _ hr)) h2

theorem Fit.get_ub {W : Cls → Nat} {nl : Nat} {s : VM} (h : Fit W nl s) {c : Cls} {i : Nat} (hi : i < W c) : s.rf.get c i ≠ .ub :=
  Room.get_ub h.room hi

theorem Fit.set_ub {W : Cls → Nat} {nl : Nat} {s : VM} (h : Fit W nl s) {c : Cls} {i : Nat} (hi : i < W c) (v : c.Carrier) :
    s.rf.set c i v ≠ .ub := Room.set_ub h.room hi v

theorem Fit.read_ub {W : Cls → Nat} {nl : Nat} {s : VM} (h : Fit W nl s) {c : Cls} {a : Opnd c} (hr : ∀ r ∈ a.regs, r.idx < W r.cls)
    (hl : ∀ l ∈ a.locs, l < nl) : s.read c a ≠ .ub := by
  cases a with
  | reg i => exact h.get_ub (hr ⟨c, i⟩ (by simp [Opnd.regs]))
  | const v => nofun
  | param i =>
    have := hl i (by simp [Opnd.locs])
    rw [← h.locals] at this
    simp only [VM.read, List.getElem?_eq_getElem this]
    nofun

theorem Fit.write_ub {W : Cls → Nat} {nl : Nat} {s : VM} (h : Fit W nl s) {c : Cls} {d : Dst} (hr : ∀ r ∈ d.regs c, r.idx < W r.cls)
    (hl : ∀ l ∈ d.locs, l < nl) (v : c.Carrier) : s.write c d v ≠ .ub := by
  cases d with
  | reg i =>
    simp only [VM.write, Ne, Res.bind_eq_ub]
    rintro (h1 | ⟨_, _, h1⟩)
    · exact h.set_ub (hr ⟨c, i⟩ (by simp [Dst.regs])) v h1
    · cases h1
  | loc i =>
    have := hl i (by simp [Dst.locs])
    rw [← h.locals] at this
    simp only [VM.write, if_pos this]
    nofun

theorem Fit.branch_ub {W : Cls → Nat} {nl : Nat} {s : VM} (h : Fit W nl s) {a b : Nat} {x y : List Reg} (hx : ∀ r ∈ x, r.idx < W r.cls)
    (hy : ∀ r ∈ y, r.idx < W r.cls) : s.branch a b x y ≠ .ub := by
  simp only [VM.branch, Ne, Res.bind_eq_ub]
  rintro (h1 | ⟨_, _, h1⟩)
  · exact Room.copyIf_ub h.room hx hy h1
  · cases h1

theorem Fit.rawMem_ub {W : Cls → Nat} {nl : Nat} {s : VM} (h : Fit W nl s) (hu : s.rawMem = .ub) : s.inst.mem = none := by
  unfold VM.rawMem at hu
  split at hu
  · rename_i m hm
    rw [h.ptr, Inst.ptr, hm] at hu
    simp at hu
  · assumption

theorem cap8_ub (rs : List Reg) : cap8 rs ≠ .ub := by unfold cap8; split <;> nofun
theorem setGlobal_ub (gs : List Global) (g : Nat) (v : Val) : setGlobal gs g v ≠ .ub := by
  unfold setGlobal; split
  · nofun
  · split <;> nofun
theorem fillTable_ub (t : List Ref) (i : BitVec 32) (r : Ref) (n : BitVec 32) : fillTable t i r n ≠ .ub := by
  unfold fillTable; simp only; split
  · nofun
  · split <;> nofun
theorem mem0_ub (s : VM) : s.mem0 ≠ .ub := by unfold VM.mem0; split <;> nofun
theorem growInstr_ub (m : Mem) (d : BitVec 32) : m.growInstr d ≠ .ub := by unfold Mem.growInstr; split <;> nofun
theorem initInstr_ub (m : Mem) (g : List Byte) (a b c : BitVec 32) : m.initInstr g a b c ≠ .ub := by
  unfold Mem.initInstr; split
  · nofun
  · simp only
    split
    · unfold Mem.init; simp only; split <;> nofun
    · nofun
theorem truncTrap_ub (op : TruncOp) (n : Nat) : truncTrap op n ≠ .ub := by
  unfold truncTrap
  simp only
  split
  · nofun
  · split <;> nofun
theorem iBin_ub {w : Nat} (op : IBinOp) (a b : BitVec w) : iBin op a b ≠ .ub := by
  cases op <;> simp only [iBin]
  case divS | remS =>
    split
    · nofun
    · split <;> nofun
  case divU | remU => split <;> nofun
  all_goals nofun
theorem op1_ub (H : FloatHost) (op : Op1) (a : op.src.Carrier) : op.eval H a ≠ .ub := by
  cases op
  case trunc op =>
    simp only [Op1.eval, Ne, Res.bind_eq_ub]
    rintro (h | ⟨_, _, h⟩)
    · exact truncTrap_ub _ _ h
    · cases h
  case int s op => cases s <;> nofun
  case eqz s => cases s <;> nofun
  case reinterpIF s => cases s <;> nofun
  case reinterpFI s => cases s <;> nofun
  all_goals nofun
theorem op2_ub (H : FloatHost) (op : Op2) (a b : op.src.Carrier) : op.eval H a b ≠ .ub := by
  cases op
  case int s op => cases s <;> exact iBin_ub _ _ _
  case rel s op => cases s <;> nofun
  all_goals nofun

theorem readAt_ub {d : List Byte} {p n : Nat} (h : readAt d p n = .ub) : ¬ InBounds d.length p n := by
  unfold readAt at h
  split at h
  · cases h
  · assumption
theorem writeAt_ub {d : List Byte} {p : Nat} {bs : List Byte} (h : writeAt d p bs = .ub) : ¬ InBounds d.length p bs.length := by
  unfold writeAt at h
  split at h
  · cases h
  · assumption

theorem effAddr_le (p : BitVec 32) (off : BitVec 64) : effAddr p off ≤ p.toNat + off.toNat := by
  unfold effAddr
  simp only [BitVec.toNat_add, BitVec.toNat_setWidth]
  have := Nat.mod_le off.toNat (2 ^ 32)
  have := Nat.mod_le (p.toNat + off.toNat % 2 ^ 32) (2 ^ 32)
  omega

theorem load_ub {m : Mem} {op : LoadOp} {p : BitVec 32} {off : BitVec 64} (h : m.load op p off = .ub) :
    ¬ InBounds m.data.length (p.toNat + off.toNat) op.bytes := by
  simp only [Mem.load, Res.bind_eq_ub] at h
  rcases h with h | ⟨_, _, h⟩
  · have h1 := readAt_ub h
    have h2 := effAddr_le p off
    rw [loadWidth] at h1
    unfold InBounds at *
    omega
  · cases h
theorem store_ub {m : Mem} {op : StoreOp} {p : BitVec 32} {off : BitVec 64} {v : op.cls.Carrier} (h : m.store op p off v = .ub) :
    ¬ InBounds m.data.length (p.toNat + off.toNat) op.bytes := by
  simp only [Mem.store, Res.bind_eq_ub] at h
  rcases h with h | ⟨_, _, h⟩
  · have h1 := writeAt_ub h
    have h2 := effAddr_le p off
    rw [toLE_length, storeWidth] at h1
    unfold InBounds at *
    omega
  · cases h
theorem copy_ub {m : Mem} {d r n : BitVec 32} (h : m.copy d r n = .ub) :
    n ≠ 0 ∧ (¬ InBounds m.data.length d.toNat n.toNat ∨ ¬ InBounds m.data.length r.toNat n.toNat) := by
  unfold Mem.copy at h
  split at h
  · cases h
  · rename_i h0
    refine ⟨h0, ?_⟩
    simp only [Res.bind_eq_ub] at h
    rcases h with h | ⟨bs, hb, h | ⟨_, _, h⟩⟩
    · exact .inr (readAt_ub h)
    · left
      have h1 := writeAt_ub h
      unfold readAt at hb
      split at hb
      · cases hb
        unfold InBounds at *
        simp only [List.length_take, List.length_drop] at h1
        omega
      · cases hb
    · cases h
theorem fill_ub {m : Mem} {d v n : BitVec 32} (h : m.fill d v n = .ub) : n ≠ 0 ∧ ¬ InBounds m.data.length d.toNat n.toNat := by
  unfold Mem.fill at h
  split at h
  · cases h
  · rename_i h0
    refine ⟨h0, ?_⟩
    simp only [Res.bind_eq_ub] at h
    rcases h with h | ⟨_, _, h⟩
    · simpa using writeAt_ub h
    · cases h

/-- **inside its window an instruction can only go wrong by leaving linear memory** -/
theorem step_safe {H : FloatHost} {P : Prog} {len : Nat} {W : Cls → Nat} {nl : Nat} {s : VM} {i : Instr} (h : Fit W nl s)
    (hw : InWindow W nl i) (hu : step H P len s i = .ub) : OutOfRange s i := by
  have hr := hw.regs
  have hl := hw.locs
  cases i <;> simp only [step, Res.bind_eq_ub, Res.pure_eq, reduceCtorEq, and_false, or_false, exists_false] at hu <;>
    simp only [Instr.regs, Instr.locs, List.mem_cons, List.mem_append, List.not_mem_nil, or_false, forall_eq_or_imp, forall_eq] at hr hl
  case op1 op dst src =>
    rcases hu with hu | ⟨a, _, hu | ⟨r, _, hu⟩⟩
    · exact absurd hu (h.read_ub (fun r hr' => hr r (.inr hr')) (fun l hl' => hl l (.inr hl')))
    · exact absurd hu (op1_ub _ _ _)
    · exact absurd hu (h.write_ub (fun r hr' => hr r (.inl hr')) (fun l hl' => hl l (.inl hl')) _)
  case op2 op dst x y =>
    rcases hu with hu | ⟨a, _, hu | ⟨b, _, hu | ⟨r, _, hu⟩⟩⟩
    · exact absurd hu (h.read_ub (fun r hr' => hr r (.inl (.inr hr'))) (fun l hl' => hl l (.inl (.inr hl'))))
    · exact absurd hu (h.read_ub (fun r hr' => hr r (.inr hr')) (fun l hl' => hl l (.inr hl')))
    · exact absurd hu (op2_ub _ _ _ _)
    · exact absurd hu (h.write_ub (fun r hr' => hr r (.inl (.inl hr'))) (fun l hl' => hl l (.inl (.inl hl'))) _)
  case load op dst addr off =>
    rcases hu with hu | ⟨p, hp, hu | ⟨m, hm, hu | ⟨v, _, hu⟩⟩⟩
    · exact absurd hu (h.read_ub (fun r hr' => hr r (.inr hr')) (fun l hl' => hl l (.inr hl')))
    · have := h.rawMem_ub hu
      exact .load hp (fun m hm => by rw [this] at hm; cases hm)
    · have := VM.rawMem_eq hm
      exact .load hp (fun m' hm' => by rw [this] at hm'; cases hm'; exact load_ub hu)
    · exact absurd hu (h.write_ub (fun r hr' => hr r (.inl hr')) (fun l hl' => hl l (.inl hl')) _)
  case store op addr value off =>
    rcases hu with hu | ⟨p, hp, hu | ⟨v, _, hu | ⟨m, hm, hu⟩⟩⟩
    · exact absurd hu (h.read_ub (fun r hr' => hr r (.inl hr')) hl)
    · exact absurd hu (h.get_ub (hr ⟨op.cls, value⟩ (.inr rfl)))
    · have := h.rawMem_ub hu
      exact .store hp (fun m hm => by rw [this] at hm; cases hm)
    · have := VM.rawMem_eq hm
      exact .store hp (fun m' hm' => by rw [this] at hm'; cases hm'; exact store_ub hu)
  case memSize d =>
    rcases hu with hu | ⟨_, _, hu⟩
    · exact absurd hu (mem0_ub _)
    · exact absurd hu (h.set_ub hr _)
  case memGrow d a =>
    rcases hu with hu | ⟨_, _, hu | ⟨_, _, hu | ⟨_, _, hu⟩⟩⟩
    · exact absurd hu (mem0_ub _)
    · exact absurd hu (h.get_ub hr.2)
    · exact absurd hu (growInstr_ub _ _)
    · exact absurd hu (h.set_ub hr.1 _)
  case memCopy d r n =>
    rcases hu with hu | ⟨m, hm, hu | ⟨dv, hd, hu | ⟨rv, hr', hu | ⟨nv, hn, hu⟩⟩⟩⟩
    · exact absurd hu (mem0_ub _)
    · exact absurd hu (h.get_ub hr.1)
    · exact absurd hu (h.get_ub hr.2.1)
    · exact absurd hu (h.get_ub hr.2.2)
    · obtain ⟨h1, h2⟩ := copy_ub hu
      exact .copy (VM.mem0_eq hm) hd hr' hn h1 h2
  case memInit data d sr n =>
    rcases hu with hu | ⟨m, hm, hu⟩
    · exact absurd hu (mem0_ub _)
    · split at hu
      · cases hu
      · simp only [Res.bind_eq_ub, reduceCtorEq, and_false, or_false, exists_false] at hu
        rcases hu with hu | ⟨_, _, hu | ⟨_, _, hu | ⟨_, _, hu⟩⟩⟩
        · exact absurd hu (h.get_ub hr.1)
        · exact absurd hu (h.get_ub hr.2.1)
        · exact absurd hu (h.get_ub hr.2.2)
        · exact absurd hu (initInstr_ub _ _ _ _ _)
  case memFill d v n =>
    rcases hu with hu | ⟨m, hm, hu | ⟨dv, hd, hu | ⟨vv, hv, hu | ⟨nv, hn, hu⟩⟩⟩⟩
    · exact absurd hu (mem0_ub _)
    · exact absurd hu (h.get_ub hr.1)
    · exact absurd hu (h.get_ub hr.2.1)
    · exact absurd hu (h.get_ub hr.2.2)
    · obtain ⟨h1, h2⟩ := fill_ub hu
      exact .fill (VM.mem0_eq hm) hd hn h1 h2
  case select c d a b x =>
    rcases hu with hu | ⟨_, _, hu | ⟨_, _, hu⟩⟩
    · exact absurd hu (h.get_ub hr.2.2.2)
    · split at hu
      · exact absurd hu (h.get_ub hr.2.1)
      · exact absurd hu (h.get_ub hr.2.2.1)
    · exact absurd hu (h.set_ub hr.1 _)
  case globalGet c d g =>
    split at hu
    · cases hu
    · simp only [Res.bind_eq_ub, reduceCtorEq, and_false, or_false, exists_false] at hu
      exact absurd hu (h.write_ub hr hl _)
  case globalSet c d g =>
    rcases hu with hu | ⟨_, _, hu⟩
    · refine absurd hu (h.read_ub ?_ ?_) <;> cases d <;> simp_all [Dst.regs, Dst.locs, Opnd.regs, Opnd.locs]
    · exact absurd hu (setGlobal_ub _ _ _)
  case refLocalGet d l =>
    split at hu
    · rename_i hn
      rw [List.getElem?_eq_none_iff, h.locals] at hn
      omega
    · split at hu
      · simp only [Res.bind_eq_ub, reduceCtorEq, and_false, or_false, exists_false] at hu
        exact absurd hu (h.set_ub hr _)
      · cases hu
  case refLocalSet r l =>
    rcases hu with hu | ⟨_, _, hu⟩
    · exact absurd hu (h.get_ub hr)
    · exact absurd hu (h.write_ub (by simp [Dst.regs]) (by simpa [Dst.locs] using hl) _)
  case refNull d => exact absurd hu (h.set_ub hr _)
  case refIsNull d r =>
    rcases hu with hu | ⟨_, _, hu⟩
    · exact absurd hu (h.get_ub hr.2)
    · exact absurd hu (h.set_ub hr.1 _)
  case tableGet t d i =>
    split at hu
    · cases hu
    · simp only [Res.bind_eq_ub] at hu
      rcases hu with hu | ⟨_, _, hu⟩
      · exact absurd hu (h.get_ub hr.2)
      · split at hu
        · cases hu
        · simp only [Res.bind_eq_ub, reduceCtorEq, and_false, or_false, exists_false] at hu
          exact absurd hu (h.set_ub hr.1 _)
  case tableSet t i r =>
    split at hu
    · cases hu
    · simp only [Res.bind_eq_ub] at hu
      rcases hu with hu | ⟨_, _, hu | ⟨_, _, hu⟩⟩
      · exact absurd hu (h.get_ub hr.1)
      · exact absurd hu (h.get_ub hr.2)
      · split at hu <;> cases hu
  case tableFill t i r n =>
    split at hu
    · cases hu
    · simp only [Res.bind_eq_ub, reduceCtorEq, and_false, or_false, exists_false] at hu
      rcases hu with hu | ⟨_, _, hu | ⟨_, _, hu | ⟨_, _, hu⟩⟩⟩
      · exact absurd hu (h.get_ub hr.1)
      · exact absurd hu (h.get_ub hr.2.1)
      · exact absurd hu (h.get_ub hr.2.2)
      · exact absurd hu (fillTable_ub _ _ _ _)
  case callWasi id ps r => exact absurd hu (Room.getVals_ub h.room (fun r hr' => hr r (.inl hr')))
  case callIndirect ty t idx ps rs =>
    rcases hu with hu | ⟨_, _, hu⟩
    · exact absurd hu (h.get_ub hr.1)
    · split at hu
      · cases hu
      · split at hu
        · split at hu
          · split at hu
            · simp only [Res.bind_eq_ub, reduceCtorEq, and_false, or_false, exists_false] at hu
              rcases hu with hu | ⟨_, _, hu⟩
              · exact absurd hu (Room.getVals_ub h.room (fun r hr' => hr.2 r (.inl hr')))
              · exact absurd hu (cap8_ub _)
            · cases hu
          · cases hu
        · cases hu
  case call f ps rs =>
    split at hu
    · cases hu
    · simp only [Res.bind_eq_ub, reduceCtorEq, and_false, or_false, exists_false] at hu
      rcases hu with hu | ⟨_, _, hu⟩
      · exact absurd hu (Room.getVals_ub h.room (fun r hr' => hr r (.inl hr')))
      · exact absurd hu (cap8_ub _)
  case ret rs => exact absurd hu (cap8_ub _)
  case ite c t b =>
    rcases hu with hu | ⟨_, _, hu⟩
    · exact absurd hu (h.get_ub hr)
    · split at hu
      · cases hu
      · split at hu <;> cases hu
  case fin a b =>
    split at hu
    · simp only [Res.bind_eq_ub, reduceCtorEq, and_false, or_false, exists_false] at hu
      exact absurd hu (cap8_ub _)
    · simp only [Res.bind_eq_ub] at hu
      rcases hu with hu | ⟨_, _, hu⟩
      · exact absurd hu (Room.copyRegs_ub h.room (fun r hr' => hr r (.inl hr')) (fun r hr' => hr r (.inr hr')))
      · split at hu
        · simp only [Res.bind_eq_ub, reduceCtorEq, and_false, or_false, exists_false] at hu
          exact absurd hu (cap8_ub _)
        · cases hu
  case br d t a b => exact absurd hu (h.branch_ub (fun r hr' => hr r (.inl hr')) (fun r hr' => hr r (.inr hr')))
  case brIf d t c a b =>
    rcases hu with hu | ⟨_, _, hu⟩
    · exact absurd hu (h.get_ub hr.1)
    · split at hu
      · cases hu
      · simp only [Res.bind_eq_ub, reduceCtorEq, and_false, or_false, exists_false] at hu
        exact absurd hu (h.branch_ub (fun r hr' => hr.2 r (.inl hr')) (fun r hr' => hr.2 r (.inr hr')))
  case brTable ts df idx a =>
    rcases hu with hu | ⟨v, _, hu⟩
    · exact absurd hu (h.get_ub hr.1)
    · refine absurd hu (h.branch_ub (fun r hr' => hr.2 r (.inl (.inl hr'))) ?_)
      intro r hr'
      cases hx : ts[BitVec.toNat (w := 32) v]? with
      | none => rw [hx] at hr'; exact hr.2 r (.inl (.inr hr'))
      | some x =>
        rw [hx] at hr'
        exact hr.2 r (.inr (List.mem_flatMap.2 ⟨x, List.mem_of_getElem? hx, hr'⟩))

theorem cap8_eq {a b : List Reg} (h : cap8 a = .ok b) : b = a := by
  unfold cap8 at h
  split at h
  · cases h; rfl
  · cases h

/-- the return registers are changed only to registers the instruction names -/
theorem step_ret {H : FloatHost} {P : Prog} {len : Nat} {s : VM} {i : Instr} {o : Out} (h : step H P len s i = .ok o) :
    o.vm.retRegs = s.retRegs ∨ ∀ r ∈ o.vm.retRegs, r ∈ i.regs := by
  have wr : ∀ {c : Cls} {d : Dst} {v : c.Carrier} {s1 : VM}, s.write c d v = .ok s1 → (Out.cont s1.next).vm.retRegs = s.retRegs := by
    intro c d v s1 h
    cases d <;> simp only [VM.write, Res.bind_eq_ok, Res.pure_eq, Res.ok_inj] at h
    · obtain ⟨_, _, rfl⟩ := h; rfl
    · split at h
      · cases h; rfl
      · cases h
  have br : ∀ {a b : Nat} {x y : List Reg} {s1 : VM}, s.branch a b x y = .ok s1 → s1.retRegs = s.retRegs := by
    intro a b x y s1 h
    simp only [VM.branch, Res.bind_eq_ok, Res.pure_eq, Res.ok_inj] at h
    obtain ⟨_, _, rfl⟩ := h; rfl
  cases i <;> simp only [step, Res.bind_eq_ok, Res.pure_eq, Res.ok_inj, reduceCtorEq] at h
  case op1 => obtain ⟨_, _, _, _, s1, hw, rfl⟩ := h; exact .inl (wr hw)
  case op2 => obtain ⟨_, _, _, _, _, _, s1, hw, rfl⟩ := h; exact .inl (wr hw)
  case load => obtain ⟨_, _, _, _, _, _, s1, hw, rfl⟩ := h; exact .inl (wr hw)
  case store => obtain ⟨_, _, _, _, m, hm, m', hs, rfl⟩ := h; exact .inl rfl
  case memSize => obtain ⟨_, _, _, hs, rfl⟩ := h; exact .inl rfl
  case memGrow => obtain ⟨m, hm, d, _, ⟨r, m'⟩, hg, rf, hs, rfl⟩ := h; exact .inl rfl
  case memCopy => obtain ⟨m, hm, _, _, _, _, _, _, m', hs, rfl⟩ := h; exact .inl rfl
  case memInit =>
    obtain ⟨m, hm, h⟩ := h
    split at h
    · cases h
    · simp only [Res.bind_eq_ok, Res.ok_inj] at h
      obtain ⟨_, _, _, _, _, _, m', hs, rfl⟩ := h; exact .inl rfl
  case memFill => obtain ⟨m, hm, _, _, _, _, _, _, m', hs, rfl⟩ := h; exact .inl rfl
  case select => obtain ⟨_, _, _, _, _, hs, rfl⟩ := h; exact .inl rfl
  case globalGet =>
    split at h
    · cases h
    · simp only [Res.bind_eq_ok, Res.ok_inj] at h
      obtain ⟨s1, hw, rfl⟩ := h; exact .inl (wr hw)
  case globalSet => obtain ⟨_, _, gs, hg, rfl⟩ := h; exact .inl rfl
  case dataDrop => subst h; exact .inl rfl
  case refLocalGet =>
    split at h
    · cases h
    · split at h
      · simp only [Res.bind_eq_ok, Res.ok_inj] at h
        obtain ⟨_, hs, rfl⟩ := h; exact .inl rfl
      · cases h; exact .inl rfl
  case refLocalSet => obtain ⟨_, _, s1, hw, rfl⟩ := h; exact .inl (wr hw)
  case refNull => obtain ⟨_, hs, rfl⟩ := h; exact .inl rfl
  case refIsNull => obtain ⟨_, _, _, hs, rfl⟩ := h; exact .inl rfl
  case tableGet =>
    split at h
    · cases h
    · simp only [Res.bind_eq_ok] at h
      obtain ⟨_, _, h⟩ := h
      split at h
      · cases h
      · simp only [Res.bind_eq_ok, Res.ok_inj] at h
        obtain ⟨_, hs, rfl⟩ := h; exact .inl rfl
  case tableSet =>
    split at h
    · cases h
    · simp only [Res.bind_eq_ok] at h
      obtain ⟨_, _, _, _, h⟩ := h
      split at h
      · cases h; exact .inl rfl
      · cases h
  case tableFill =>
    split at h
    · cases h
    · simp only [Res.bind_eq_ok, Res.ok_inj] at h
      obtain ⟨_, _, _, _, _, _, _, _, rfl⟩ := h; exact .inl rfl
  case callWasi => obtain ⟨_, _, rfl⟩ := h; exact .inl rfl
  case callIndirect =>
    obtain ⟨_, _, h⟩ := h
    repeat' split at h
    all_goals (try cases h)
    all_goals
      simp only [Res.bind_eq_ok, Res.ok_inj] at h
      obtain ⟨_, _, _, _, rfl⟩ := h
      exact .inl rfl
  case call =>
    split at h
    · cases h
    · simp only [Res.bind_eq_ok, Res.ok_inj] at h
      obtain ⟨_, _, _, _, rfl⟩ := h
      exact .inl rfl
  case ret =>
    obtain ⟨_, hc, rfl⟩ := h
    exact .inr (by rw [← cap8_eq hc]; simp [Out.vm, Instr.regs])
  case jump => subst h; exact .inl rfl
  case block => subst h; exact .inl rfl
  case ite =>
    obtain ⟨_, _, h⟩ := h
    split at h
    · cases h; exact .inl rfl
    · split at h <;> (cases h; exact .inl rfl)
  case fin =>
    split at h
    · simp only [Res.bind_eq_ok, Res.ok_inj] at h
      obtain ⟨_, hc, rfl⟩ := h
      exact .inr (by rw [← cap8_eq hc]; intro r hr; simp only [Instr.regs, List.mem_append]; exact .inl hr)
    · simp only [Res.bind_eq_ok] at h
      obtain ⟨_, _, h⟩ := h
      split at h
      · simp only [Res.bind_eq_ok, Res.ok_inj] at h
        obtain ⟨_, hc, rfl⟩ := h
        exact .inr (by rw [← cap8_eq hc]; intro r hr; simp only [Instr.regs, List.mem_append]; exact .inl hr)
      · cases h; exact .inl rfl
  case br => obtain ⟨_, hb, rfl⟩ := h; exact .inl (br hb)
  case brIf =>
    obtain ⟨_, _, h⟩ := h
    split at h
    · cases h; exact .inl rfl
    · simp only [Res.bind_eq_ok, Res.ok_inj] at h
      obtain ⟨_, hb, rfl⟩ := h; exact .inl (br hb)
  case brTable => obtain ⟨_, _, _, hb, rfl⟩ := h; exact .inl (br hb)
  case nop => subst h; exact .inl rfl

theorem Fit.step {H : FloatHost} {P : Prog} {len : Nat} {W : Cls → Nat} {nl : Nat} {s : VM} {i : Instr} {o : Out} (h : Fit W nl s)
    (hw : InWindow W nl i) (hs : Model.step H P len s i = .ok o) : Fit W nl o.vm := by
  have hk := step_keeps hs
  refine ⟨Room.writes h.room hk.writes, hk.locals.trans h.locals, ?_, hk.ptr h.ptr⟩
  rcases step_ret hs with h1 | h1
  · rw [h1]; exact h.ret
  · exact fun r hr => hw.regs r (h1 r hr)

/-- calls pass as many arguments as the callee has parameters -/
def ArgsP (P : Prog) : Instr → Prop
  | .call f ps _ => ∀ fi, P.funcs[f]? = some fi → ps.length = fi.type.params.length
  | .callIndirect ty _ _ ps _ => ∀ t, P.types[ty]? = some t → ps.length = t.params.length
  | _ => True

/-- what a handler asks the runtime to do is within the window too -/
def YieldIn (P : Prog) (W : Cls → Nat) : Yield → Prop
  | .ret => True
  | .wasi _ _ r => ∀ x, r = some x → x.idx < W x.cls
  | .invoke g vs rs => (∀ r ∈ rs, r.idx < W r.cls) ∧ ∀ fi, P.funcs[g]? = some fi → vs.length = fi.type.params.length

theorem step_yieldIn {H : FloatHost} {P : Prog} {len : Nat} {W : Cls → Nat} {nl : Nat} {s s' : VM} {i : Instr} {y : Yield}
    (hw : InWindow W nl i) (ha : ArgsP P i) (h : step H P len s i = .ok (.yield y s')) : YieldIn P W y := by
  have hr := hw.regs
  cases i <;> simp only [step, Res.bind_eq_ok, Res.pure_eq, Res.ok_inj, VM.next, reduceCtorEq, and_false, exists_false,
    Out.yield.injEq] at h
  case memInit =>
    obtain ⟨_, _, h⟩ := h
    split at h
    · cases h
    · simp [Res.bind_eq_ok] at h
  case globalGet => split at h <;> simp [Res.bind_eq_ok] at h
  case refLocalGet =>
    split at h
    · cases h
    · split at h <;> simp [Res.bind_eq_ok] at h
  case tableGet =>
    split at h
    · cases h
    · simp only [Res.bind_eq_ok] at h
      obtain ⟨_, _, h⟩ := h
      split at h
      · cases h
      · simp [Res.bind_eq_ok] at h
  case tableSet =>
    split at h
    · cases h
    · simp only [Res.bind_eq_ok] at h
      obtain ⟨_, _, _, _, h⟩ := h
      split at h <;> cases h
  case tableFill =>
    split at h
    · cases h
    · simp [Res.bind_eq_ok] at h
  case callIndirect ty t idx ps rs =>
    obtain ⟨_, _, h⟩ := h
    split at h
    · cases h
    split at h
    · split at h
      · rename_i fi want hfi hty
        split at h
        · rename_i heq
          simp only [Res.bind_eq_ok, Res.ok_inj, Out.yield.injEq] at h
          obtain ⟨vs, hvs, rs', hrs, rfl, _⟩ := h
          refine ⟨fun r hr' => hr r ?_, fun fi' hfi' => ?_⟩
          · rw [cap8_eq hrs] at hr'
            simp only [Instr.regs, List.mem_cons, List.mem_append]; exact .inr (.inr hr')
          · rw [hfi] at hfi'; cases hfi'
            rw [getVals_length hvs, heq]
            exact ha want hty
        · cases h
      · cases h
    · cases h
  case call f ps rs =>
    split at h
    · cases h
    · simp only [Res.bind_eq_ok, Res.ok_inj, Out.yield.injEq] at h
      obtain ⟨vs, hvs, rs', hrs, rfl, _⟩ := h
      refine ⟨fun r hr' => hr r ?_, fun fi' hfi' => ?_⟩
      · rw [cap8_eq hrs] at hr'
        simp only [Instr.regs, List.mem_append]; exact .inr hr'
      · rw [getVals_length hvs]
        exact ha _ hfi'
  case callWasi id ps r =>
    obtain ⟨_, _, rfl, rfl⟩ := h
    rintro x rfl
    exact hr x (by simp [Instr.regs])
  case ite =>
    obtain ⟨_, _, h⟩ := h
    split at h
    · cases h
    · split at h <;> cases h
  case fin =>
    split at h
    · simp [Res.bind_eq_ok] at h
    · simp only [Res.bind_eq_ok] at h
      obtain ⟨_, _, h⟩ := h
      split at h
      · simp [Res.bind_eq_ok] at h
      · cases h
  case brIf =>
    obtain ⟨_, _, h⟩ := h
    split at h <;> simp [Res.bind_eq_ok] at h
  case ret =>
    first
    | (obtain ⟨_, _, rfl, _⟩ := h; trivial)
    | (obtain ⟨rfl, _⟩ := h; trivial)

end Verif.Lemmas
