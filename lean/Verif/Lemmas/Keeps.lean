import Verif.Lemmas.VM
import Verif.Lemmas.Mem
/-
What no handler changes: the shape of the register file, the number of locals, the types of globals, the sizes of
tables; how the memory and the cached memory pointer may change.
-/
namespace Verif.Model
open Verif.Spec (LoadOp StoreOp)

/-- `r'` comes from `r` by writing registers of the current window -/
inductive Writes : RegFile → RegFile → Prop
  | refl (r) : Writes r r
  | step {r r1 r2 : RegFile} {c : Cls} {i : Nat} {v : c.Carrier} (h : r.set c i v = .ok r1) (k : Writes r1 r2) :
    Writes r r2

theorem Writes.trans {a b c : RegFile} (h : Writes a b) (k : Writes b c) : Writes a c := by
  induction h with
  | refl => exact k
  | step h _ ih => exact .step h (ih k)

theorem Writes.set {r r' : RegFile} {c : Cls} {i : Nat} {v : c.Carrier} (h : r.set c i v = .ok r') :
    Writes r r' := .step h (.refl _)

/-- same windows, same bank sizes -/
structure SameShape (r r' : RegFile) : Prop where
  frames : r'.frames = r.frames
  cached : r'.cached = r.cached
  len : ∀ c, (r'.regs c).length = (r.regs c).length

theorem SameShape.set {r r' : RegFile} {c : Cls} {i : Nat} {v : c.Carrier} (h : r.set c i v = .ok r') :
    SameShape r r' := by
  unfold RegFile.set at h
  split at h
  · cases h
    refine ⟨rfl, rfl, fun d => ?_⟩
    by_cases hd : d = c
    · subst hd; simp
    · simp [hd]
  · cases h

theorem Writes.shape {r r' : RegFile} (h : Writes r r') : SameShape r r' := by
  induction h with
  | refl => exact ⟨rfl, rfl, fun _ => rfl⟩
  | step h _ ih =>
    have := SameShape.set h
    exact ⟨ih.frames.trans this.frames, ih.cached.trans this.cached, fun x => (ih.len x).trans (this.len x)⟩

theorem Writes.copyReg {r r' : RegFile} {a b : Reg} (h : r.copyReg a b = .ok r') : Writes r r' := by
  unfold RegFile.copyReg at h
  split at h
  · rw [Res.bind_eq_ok] at h
    obtain ⟨_, _, h⟩ := h
    exact Writes.set h
  · cases h; exact Writes.refl _

theorem Writes.copyRegs : ∀ {a b : List Reg} {r r' : RegFile}, r.copyRegs a b = .ok r' → Writes r r'
  | [], _, r, r', h => by simp only [RegFile.copyRegs, Res.ok_inj] at h; subst h; exact Writes.refl _
  | _ :: _, [], r, r', h => by simp only [RegFile.copyRegs, Res.ok_inj] at h; subst h; exact Writes.refl _
  | x :: xs, y :: ys, r, r', h => by
    simp only [RegFile.copyRegs, Res.bind_eq_ok] at h
    obtain ⟨r1, h1, h2⟩ := h
    exact (Writes.copyReg h1).trans (Writes.copyRegs h2)

theorem Writes.copyIf {a b : List Reg} {r r' : RegFile} (h : r.copyIf a b = .ok r') : Writes r r' := by
  unfold RegFile.copyIf at h
  split at h
  · exact Writes.copyRegs h
  · cases h; exact Writes.refl _

theorem Writes.setVal {r r' : RegFile} {x : Reg} {v : Val} (h : r.setVal x v = .ok r') : Writes r r' := by
  unfold RegFile.setVal at h
  split at h
  · cases h; exact Writes.refl _
  · split at h
    · exact Writes.set h
    · cases h; exact Writes.refl _
  · split at h <;> exact Writes.set h

theorem Writes.setVals : ∀ {a : List Reg} {b : List Val} {r r' : RegFile}, r.setVals a b = .ok r' → Writes r r'
  | [], _, r, r', h => by simp only [RegFile.setVals, Res.ok_inj] at h; subst h; exact Writes.refl _
  | _ :: _, [], r, r', h => by simp only [RegFile.setVals, Res.ok_inj] at h; subst h; exact Writes.refl _
  | x :: xs, y :: ys, r, r', h => by
    simp only [RegFile.setVals, Res.bind_eq_ok] at h
    obtain ⟨r1, h1, h2⟩ := h
    exact (Writes.setVal h1).trans (Writes.setVals h2)

/-- a memory after one instruction: same size, or grown by an accepted `memory.grow` -/
def MemStep (m m' : Mem) : Prop :=
  m'.data.length = m.data.length ∧ m'.max = m.max ∨ ∃ delta : BitVec 32, delta.msb = false ∧ m' = (m.grow delta).2

theorem writeAt_len {d d' : List Byte} {pos : Nat} {bs : List Byte} (h : writeAt d pos bs = .ok d') :
    d'.length = d.length := by
  unfold writeAt at h
  split at h
  · injection h with h; subst h; exact Verif.Lemmas.overwrite_length ‹_›
  · cases h

theorem MemStep.store {m m' : Mem} {op : StoreOp} {p : BitVec 32} {o : BitVec 64} {v : op.cls.Carrier}
    (h : m.store op p o v = .ok m') : MemStep m m' := by
  simp only [Mem.store, Res.bind_eq_ok, Res.pure_eq, Res.ok_inj] at h
  obtain ⟨d, hd, rfl⟩ := h
  exact .inl ⟨writeAt_len hd, rfl⟩

theorem MemStep.copy {m m' : Mem} {a b c : BitVec 32} (h : m.copy a b c = .ok m') : MemStep m m' := by
  unfold Mem.copy at h
  split at h
  · cases h; exact .inl ⟨rfl, rfl⟩
  · simp only [Res.bind_eq_ok, Res.pure_eq, Res.ok_inj] at h
    obtain ⟨_, _, d, hd, rfl⟩ := h
    exact .inl ⟨writeAt_len hd, rfl⟩

theorem MemStep.fill {m m' : Mem} {a b c : BitVec 32} (h : m.fill a b c = .ok m') : MemStep m m' := by
  unfold Mem.fill at h
  split at h
  · cases h; exact .inl ⟨rfl, rfl⟩
  · simp only [Res.bind_eq_ok, Res.pure_eq, Res.ok_inj] at h
    obtain ⟨d, hd, rfl⟩ := h
    exact .inl ⟨writeAt_len hd, rfl⟩

theorem Mem.init_len {m m' : Mem} {o : Nat} {bs : List Byte} (ho : o < 2 ^ 32) (hb : bs.length < 2 ^ 32)
    (h : m.init o bs = .ok m') : m'.data.length = m.data.length ∧ m'.max = m.max := by
  unfold Mem.init at h
  simp only at h
  split at h
  · rename_i hc
    cases h
    refine ⟨Verif.Lemmas.overwrite_length ?_, rfl⟩
    by_cases hlt : o + bs.length < 2 ^ 32
    · rw [Nat.mod_eq_of_lt hlt] at hc; exact hc.2
    · have : (o + bs.length) % 2 ^ 32 = o + bs.length - 2 ^ 32 := by
        rw [Nat.mod_eq_sub_mod (by omega), Nat.mod_eq_of_lt (by omega)]
      omega
  · cases h

theorem MemStep.initInstr {m m' : Mem} {s : List Byte} {a b c : BitVec 32} (h : m.initInstr s a b c = .ok m') :
    MemStep m m' := by
  unfold Mem.initInstr at h
  dsimp only at h
  split at h
  · cases h; exact .inl ⟨rfl, rfl⟩
  · split at h
    · refine .inl (Mem.init_len a.isLt ?_ h)
      have := (b + c).isLt
      simp only [List.length_take]
      omega
    · cases h

/-- the type of a global -/
def Global.ty (g : Global) : Bool × Cls × Bool := (g.mutable_, g.value.ty)

theorem setGlobal_ty {gs gs' : List Global} {g : Nat} {v : Val} (h : setGlobal gs g v = .ok gs') :
    gs'.map Global.ty = gs.map Global.ty := by
  unfold setGlobal at h
  split at h
  · cases h
  · rename_i old ho
    split at h
    · rename_i hc
      cases h
      rw [List.map_set]
      apply List.ext_getElem?
      intro j
      rw [List.getElem?_set]
      split
      · rename_i hj
        subst hj
        simp only [List.getElem?_map, ho, Option.map_some, List.length_map]
        rw [if_pos (List.getElem?_eq_some_iff.mp ho).1]
        simp [Global.ty, hc]
      · rfl
    · cases h

theorem fillTable_len {t t' : List Ref} {i : BitVec 32} {r : Ref} {n : BitVec 32} (h : fillTable t i r n = .ok t') :
    t'.length = t.length := by
  unfold fillTable at h
  simp only at h
  split at h
  · cases h; rfl
  · split at h
    · cases h
      simp only [List.length_append, List.length_take, List.length_replicate, List.length_drop]
      omega
    · cases h

/-- memory 0 of the instance after one instruction -/
def OptMemStep : Option Mem → Option Mem → Prop
  | none, none => True
  | some m, some m' => MemStep m m'
  | _, _ => False

theorem OptMemStep.refl : ∀ o, OptMemStep o o
  | none => trivial
  | some _ => .inl ⟨rfl, rfl⟩

/-- what every handler leaves alone -/
structure Keeps (s s' : VM) : Prop where
  writes : Writes s.rf s'.rf
  locals : s'.locals.length = s.locals.length
  ptr : s.memPtr = s.inst.ptr → s'.memPtr = s'.inst.ptr
  mem : OptMemStep s.inst.mem s'.inst.mem
  globals : s'.inst.globals.map Global.ty = s.inst.globals.map Global.ty
  tables : s'.inst.tables.map List.length = s.inst.tables.map List.length
  datas : s'.inst.datas.length = s.inst.datas.length

theorem Keeps.inst {s s' : VM} (h : Writes s.rf s'.rf) (hl : s'.locals.length = s.locals.length)
    (hi : s'.inst = s.inst) (hp : s'.memPtr = s.memPtr) : Keeps s s' :=
  ⟨h, hl, fun h => by rw [hi, hp, h], by rw [hi]; exact .refl _, by rw [hi], by rw [hi], by rw [hi]⟩

theorem Keeps.setMem {s : VM} {m m' : Mem} (hm : s.inst.mem = some m) (h : MemStep m m') : Keeps s (s.setMem m').next :=
  ⟨.refl _, rfl, fun h => by simpa [VM.setMem, VM.next, Inst.ptr, hm] using h,
    by simpa [VM.setMem, VM.next, hm, OptMemStep] using h, rfl, rfl, rfl⟩

theorem VM.write_keeps {s s' : VM} {c : Cls} {d : Dst} {v : c.Carrier} (h : s.write c d v = .ok s') :
    Keeps s s'.next := by
  cases d with
  | reg i =>
    simp only [VM.write, Res.bind_eq_ok, Res.pure_eq, Res.ok_inj] at h
    obtain ⟨rf, h, rfl⟩ := h
    exact .inst (Writes.set h) rfl rfl rfl
  | loc i =>
    simp only [VM.write] at h
    split at h
    · cases h; exact .inst (.refl _) (by simp [VM.next]) rfl rfl
    · cases h

theorem VM.branch_keeps {s s' : VM} {a b : Nat} {x y : List Reg} (h : s.branch a b x y = .ok s') : Keeps s s' := by
  simp only [VM.branch, Res.bind_eq_ok, Res.pure_eq, Res.ok_inj] at h
  obtain ⟨rf, h, rfl⟩ := h
  exact .inst (Writes.copyIf h) rfl rfl rfl

theorem VM.rawMem_eq {s : VM} {m : Mem} (h : s.rawMem = .ok m) : s.inst.mem = some m := by
  unfold VM.rawMem at h
  split at h
  · split at h
    · cases h; assumption
    · cases h
  · cases h

theorem VM.mem0_eq {s : VM} {m : Mem} (h : s.mem0 = .ok m) : s.inst.mem = some m := by
  unfold VM.mem0 at h
  split at h
  · cases h; assumption
  · cases h

/-- the state a handler leaves -/
def Out.vm : Out → VM
  | .cont s => s
  | .yield _ s => s

theorem step_keeps {H : FloatHost} {P : Prog} {len : Nat} {s : VM} {i : Instr} {o : Out}
    (h : step H P len s i = .ok o) : Keeps s o.vm := by
  cases i <;> simp only [step, Res.bind_eq_ok, Res.pure_eq, Res.ok_inj, reduceCtorEq] at h
  case op1 op dst src => obtain ⟨_, _, _, _, s1, hw, rfl⟩ := h; exact VM.write_keeps hw
  case op2 op dst x y => obtain ⟨_, _, _, _, _, _, s1, hw, rfl⟩ := h; exact VM.write_keeps hw
  case load => obtain ⟨_, _, _, _, _, _, s1, hw, rfl⟩ := h; exact VM.write_keeps hw
  case store =>
    obtain ⟨_, _, _, _, m, hm, m', hs, rfl⟩ := h
    exact .setMem (VM.rawMem_eq hm) (.store hs)
  case memSize => obtain ⟨_, _, _, hs, rfl⟩ := h; exact .inst (Writes.set hs) rfl rfl rfl
  case memGrow =>
    obtain ⟨m, hm, d, _, ⟨r, m'⟩, hg, rf, hs, rfl⟩ := h
    refine ⟨Writes.set hs, rfl, fun _ => by simp [Out.vm, VM.next, Inst.ptr], ?_, rfl, rfl, rfl⟩
    simp only [Out.vm, VM.next, VM.mem0_eq hm, OptMemStep]
    unfold Mem.growInstr at hg
    split at hg
    · cases hg
    · rename_i hmsb
      simp only [Res.ok_inj] at hg
      exact .inr ⟨d, by simpa using hmsb, by rw [hg]⟩
  case memCopy =>
    obtain ⟨m, hm, _, _, _, _, _, _, m', hs, rfl⟩ := h
    exact .setMem (VM.mem0_eq hm) (.copy hs)
  case memInit =>
    obtain ⟨m, hm, h⟩ := h
    split at h
    · cases h
    · simp only [Res.bind_eq_ok, Res.ok_inj] at h
      obtain ⟨_, _, _, _, _, _, m', hs, rfl⟩ := h
      exact .setMem (VM.mem0_eq hm) (.initInstr hs)
  case memFill =>
    obtain ⟨m, hm, _, _, _, _, _, _, m', hs, rfl⟩ := h
    exact .setMem (VM.mem0_eq hm) (.fill hs)
  case select => obtain ⟨_, _, _, _, _, hs, rfl⟩ := h; exact .inst (Writes.set hs) rfl rfl rfl
  case globalGet =>
    split at h
    · cases h
    · simp only [Res.bind_eq_ok, Res.ok_inj] at h
      obtain ⟨s1, hw, rfl⟩ := h
      exact VM.write_keeps hw
  case globalSet =>
    obtain ⟨_, _, gs, hg, rfl⟩ := h
    exact ⟨.refl _, rfl, fun h => h, .refl _, setGlobal_ty hg, rfl, rfl⟩
  case dataDrop => subst h; exact ⟨.refl _, rfl, fun h => h, .refl _, rfl, rfl, by simp [Out.vm, VM.next]⟩
  case refLocalGet =>
    split at h
    · cases h
    · split at h
      · simp only [Res.bind_eq_ok, Res.ok_inj] at h
        obtain ⟨_, hs, rfl⟩ := h; exact .inst (Writes.set hs) rfl rfl rfl
      · cases h; exact .inst (.refl _) rfl rfl rfl
  case refLocalSet => obtain ⟨_, _, s1, hw, rfl⟩ := h; exact VM.write_keeps hw
  case refNull => obtain ⟨_, hs, rfl⟩ := h; exact .inst (Writes.set hs) rfl rfl rfl
  case refIsNull => obtain ⟨_, _, _, hs, rfl⟩ := h; exact .inst (Writes.set hs) rfl rfl rfl
  case tableGet =>
    split at h
    · cases h
    · simp only [Res.bind_eq_ok] at h
      obtain ⟨_, _, h⟩ := h
      split at h
      · cases h
      · simp only [Res.bind_eq_ok, Res.ok_inj] at h
        obtain ⟨_, hs, rfl⟩ := h; exact .inst (Writes.set hs) rfl rfl rfl
  case tableSet =>
    split at h
    · cases h
    · rename_i tb ht
      simp only [Res.bind_eq_ok] at h
      obtain ⟨_, _, _, _, h⟩ := h
      split at h
      · cases h
        refine ⟨.refl _, rfl, fun h => h, .refl _, rfl, ?_, rfl⟩
        simp only [Out.vm, VM.next, List.map_set, List.length_set]
        apply List.ext_getElem?
        intro j
        rw [List.getElem?_set]
        split
        · rename_i hj; subst hj
          simp only [List.getElem?_map, ht, Option.map_some, List.length_map]
          rw [if_pos (List.getElem?_eq_some_iff.mp ht).1]
        · rfl
      · cases h
  case tableFill =>
    split at h
    · cases h
    · rename_i tb ht
      simp only [Res.bind_eq_ok, Res.ok_inj] at h
      obtain ⟨_, _, _, _, _, _, tb', hf, rfl⟩ := h
      refine ⟨.refl _, rfl, fun h => h, .refl _, rfl, ?_, rfl⟩
      simp only [Out.vm, VM.next, List.map_set, fillTable_len hf]
      apply List.ext_getElem?
      intro j
      rw [List.getElem?_set]
      split
      · rename_i hj; subst hj
        simp only [List.getElem?_map, ht, Option.map_some, List.length_map]
        rw [if_pos (List.getElem?_eq_some_iff.mp ht).1]
      · rfl
  case callWasi => obtain ⟨_, _, rfl⟩ := h; exact .inst (.refl _) rfl rfl rfl
  case callIndirect =>
    obtain ⟨_, _, h⟩ := h
    repeat' split at h
    all_goals (try cases h)
    all_goals
      simp only [Res.bind_eq_ok, Res.ok_inj] at h
      obtain ⟨_, _, _, _, rfl⟩ := h; exact .inst (.refl _) rfl rfl rfl
  case call =>
    split at h
    · cases h
    · simp only [Res.bind_eq_ok, Res.ok_inj] at h
      obtain ⟨_, _, _, _, rfl⟩ := h; exact .inst (.refl _) rfl rfl rfl
  case ret => obtain ⟨_, _, rfl⟩ := h; exact .inst (.refl _) rfl rfl rfl
  case jump t => subst h; exact .inst (.refl _) rfl rfl rfl
  case block => subst h; exact .inst (.refl _) rfl rfl rfl
  case ite c t e =>
    obtain ⟨_, _, h⟩ := h
    split at h
    · cases h; exact .inst (.refl _) rfl rfl rfl
    · split at h <;> cases h <;> exact .inst (.refl _) rfl rfl rfl
  case fin src dst =>
    split at h
    · simp only [Res.bind_eq_ok, Res.ok_inj] at h
      obtain ⟨_, _, rfl⟩ := h; exact .inst (.refl _) rfl rfl rfl
    · simp only [Res.bind_eq_ok] at h
      obtain ⟨_, hc, h⟩ := h
      split at h
      · simp only [Res.bind_eq_ok, Res.ok_inj] at h
        obtain ⟨_, _, rfl⟩ := h; exact .inst (Writes.copyRegs hc) rfl rfl rfl
      · cases h; exact .inst (Writes.copyRegs hc) rfl rfl rfl
  case br => obtain ⟨s1, hb, rfl⟩ := h; exact VM.branch_keeps hb
  case brIf =>
    obtain ⟨_, _, h⟩ := h
    split at h
    · cases h; exact .inst (.refl _) rfl rfl rfl
    · simp only [Res.bind_eq_ok, Res.ok_inj] at h
      obtain ⟨s1, hb, rfl⟩ := h; exact VM.branch_keeps hb
  case brTable ts d idx src => obtain ⟨v, _, s1, hb, rfl⟩ := h; exact VM.branch_keeps hb
  case nop => subst h; exact .inst (.refl _) rfl rfl rfl

/-- the state in which a dispatcher call ended -/
def Final.d : Final → DState
  | .halt d => d
  | .yield _ d => d
  | .ckpt d => d

/-- A relation to the starting state that every handler keeps and that ignores pc and labels holds of the state in which
a dispatcher call ends. -/
theorem loop_rel {R : VM → Prop} {E : Env} {code : List Instr}
    (hstep : ∀ s i o, R s → step E.H E.P code.length s i = .ok o → R o.vm)
    (hlab : ∀ s ls pc, R s → R { s with labels := ls, pc := pc })
    (hpoll : ∀ d, (poll E d).2.vm = d.vm) :
    ∀ (n : Nat) (d : DState) (fin : Final), R d.vm → loopRun E code n d = some (.ok fin) → R fin.d.vm
  | 0, _, _, _, h => by simp [loopRun] at h
  | n + 1, d, fin, hr, h => by
    have hp := hpoll d
    rw [loopRun] at h
    split at h
    · rename_i d1 hd
      rw [hd] at hp; cases h; show R d1.vm; simp only at hp; rw [hp]; exact hr
    · rename_i d1 hd
      rw [hd] at hp
      simp only at hp
      have hr1 : R d1.vm := by rw [hp]; exact hr
      split at h
      · split at h
        · split at h
          · cases h; exact hr1
          · refine loop_rel hstep hlab hpoll n _ fin ?_ h; exact hlab d1.vm _ _ hr1
        · cases h; exact hr1
      · split at h
        · rename_i hs; exact loop_rel hstep hlab hpoll n _ fin (hstep _ _ _ hr1 hs) h
        · rename_i hs; cases h; exact hstep _ _ _ hr1 hs
        all_goals cases h

theorem chain_rel {R : VM → Prop} {E : Env} {code : List Instr}
    (hstep : ∀ s i o, R s → step E.H E.P code.length s i = .ok o → R o.vm)
    (hpoll : ∀ d, (poll E d).2.vm = d.vm) :
    ∀ (n : Nat) (d : DState) (fin : Final), R d.vm → tcoChain E code n d = some (.ok fin) → R fin.d.vm
  | 0, _, _, _, h => by simp [tcoChain] at h
  | n + 1, d, fin, hr, h => by
    rw [tcoChain] at h
    split at h
    · split at h
      · cases h; exact hr
      · cases h
    · split at h
      · rename_i vm hs
        have hp := hpoll { d with vm := vm }
        have hr1 := hstep _ _ _ hr hs
        split at h
        · rename_i d1 hd; rw [hd] at hp; cases h; show R d1.vm; simp only at hp; rw [hp]; exact hr1
        · rename_i d1 hd; rw [hd] at hp
          exact chain_rel hstep hpoll n _ fin (by simp only at hp; rw [hp]; exact hr1) h
      · rename_i hs; cases h; exact hstep _ _ _ hr hs
      all_goals cases h

theorem tco_rel {R : VM → Prop} {E : Env} {code : List Instr}
    (hstep : ∀ s i o, R s → step E.H E.P code.length s i = .ok o → R o.vm)
    (hpoll : ∀ d, (poll E d).2.vm = d.vm) (n : Nat) (d : DState) (fin : Final) (hr : R d.vm)
    (h : tcoRun E code n d = some (.ok fin)) : R fin.d.vm := by
  have hp := hpoll d
  unfold tcoRun at h
  split at h
  · rename_i d1 hd; rw [hd] at hp; cases h; show R d1.vm; simp only at hp; rw [hp]; exact hr
  · rename_i d1 hd
    rw [hd] at hp
    simp only at hp
    split at h
    · cases h; show R d1.vm; rw [hp]; exact hr
    · exact chain_rel hstep hpoll n _ fin (by rw [hp]; exact hr) h

end Verif.Model
