import Verif.Lemmas.VM
/-
States that cannot be told apart by execution: different allocation generations of the memory (as long as the cached
pointers are equally valid) and different remembered `ip`s of enclosing labels.
-/
namespace Verif.Model

inductive ResRel {α β : Type} (R : α → β → Prop) : Res α → Res β → Prop
  | ok {a b} (h : R a b) : ResRel R (.ok a) (.ok b)
  | trap (e) : ResRel R (.trap e) (.trap e)
  | panic : ResRel R .panic .panic
  | ub : ResRel R .ub .ub

theorem ResRel.bind {α β γ δ : Type} {R : α → β → Prop} {Q : γ → δ → Prop} {x : Res α} {y : Res β}
    {f : α → Res γ} {g : β → Res δ} (h : ResRel R x y) (hfg : ∀ a b, R a b → ResRel Q (f a) (g b)) :
    ResRel Q (x >>= f) (y >>= g) := by
  cases h with
  | ok h => exact hfg _ _ h
  | trap e => exact .trap e
  | panic => exact .panic
  | ub => exact .ub

theorem ResRel.rfl_eq {α : Type} (x : Res α) : ResRel (· = ·) x x := by
  cases x
  · exact .ok rfl
  · exact .trap _
  · exact .panic
  · exact .ub

/-- same computation, then related continuations -/
theorem ResRel.bindEq {α γ δ : Type} {Q : γ → δ → Prop} {x y : Res α} {f : α → Res γ} {g : α → Res δ} (h : x = y)
    (hfg : ∀ a, ResRel Q (f a) (g a)) : ResRel Q (x >>= f) (y >>= g) := by
  subst h
  exact ResRel.bind (ResRel.rfl_eq x) (fun a b e => by subst e; exact hfg a)

/-- a label without the remembered `ip` -/
def Label.noIp (l : Label) : Label := { l with ip := 0 }

/-- the instance without the allocation counter -/
def Inst.data (i : Inst) : Inst := { i with memGen := 0 }

/-- the cached pointer points at the live memory -/
def PtrLive (i : Inst) (p : Option Nat) : Prop := p = some i.memGen

/-- equal for all purposes of execution -/
structure VSim (s s' : VM) : Prop where
  rf : s.rf = s'.rf
  locals : s.locals = s'.locals
  pc : s.pc = s'.pc
  retRegs : s.retRegs = s'.retRegs
  labels : s.labels.map Label.noIp = s'.labels.map Label.noIp
  inst : s.inst.data = s'.inst.data
  ptr : PtrLive s.inst s.memPtr ↔ PtrLive s'.inst s'.memPtr

theorem VSim.refl (s : VM) : VSim s s := ⟨rfl, rfl, rfl, rfl, rfl, rfl, Iff.rfl⟩

theorem VSim.symm {s s' : VM} (h : VSim s s') : VSim s' s :=
  ⟨h.rf.symm, h.locals.symm, h.pc.symm, h.retRegs.symm, h.labels.symm, h.inst.symm, h.ptr.symm⟩

theorem Inst.data_eq {i j : Inst} (h : i.data = j.data) :
    i.mem = j.mem ∧ i.globals = j.globals ∧ i.tables = j.tables ∧ i.datas = j.datas := by
  cases i; cases j
  simp only [Inst.data, Inst.mk.injEq, true_and] at h
  exact ⟨h.1, h.2.1, h.2.2.1, h.2.2.2⟩

inductive OutSim : Out → Out → Prop
  | cont {s s'} (h : VSim s s') : OutSim (.cont s) (.cont s')
  | yield {y s s'} (h : VSim s s') : OutSim (.yield y s) (.yield y s')

theorem VSim.read {s s' : VM} (h : VSim s s') (c : Cls) (o : Opnd c) : s.read c o = s'.read c o := by
  cases o <;> simp only [VM.read, h.rf, h.locals]

theorem VSim.rawMem {s s' : VM} (h : VSim s s') : s.rawMem = s'.rawMem := by
  have hm := (Inst.data_eq h.inst).1
  have hp := h.ptr
  unfold VM.rawMem
  rw [← hm]
  unfold PtrLive at hp
  cases s.inst.mem with
  | none => rfl
  | some m =>
    simp only
    by_cases hc : s.memPtr = some s.inst.memGen
    · rw [if_pos hc, if_pos (hp.mp hc)]
    · rw [if_neg hc, if_neg (fun x => hc (hp.mpr x))]

theorem VSim.mem0 {s s' : VM} (h : VSim s s') : s.mem0 = s'.mem0 := by
  unfold VM.mem0; rw [(Inst.data_eq h.inst).1]

theorem VSim.next {s s' : VM} (h : VSim s s') : VSim s.next s'.next :=
  { h with pc := by simp only [VM.next, h.pc] }

theorem VSim.setRf {s s' : VM} (h : VSim s s') (rf : RegFile) : VSim { s with rf := rf } { s' with rf := rf } :=
  { h with rf := rfl }

theorem VSim.write {s s' : VM} (h : VSim s s') (c : Cls) (d : Dst) (v : c.Carrier) :
    ResRel VSim (s.write c d v) (s'.write c d v) := by
  cases d with
  | reg i =>
    simp only [VM.write, h.rf]
    exact .bindEq rfl fun rf => .ok (h.setRf rf)
  | loc i =>
    simp only [VM.write, h.locals]
    split
    · exact .ok { h with locals := rfl }
    · exact .ub

theorem VSim.setMem {s s' : VM} (h : VSim s s') (m : Mem) : VSim (s.setMem m) (s'.setMem m) := by
  have hd := Inst.data_eq h.inst
  exact { h with
    inst := by simp only [VM.setMem, Inst.data, hd.2.1, hd.2.2.1, hd.2.2.2]
    ptr := h.ptr }

theorem VSim.setLabels {s s' : VM} (h : VSim s s') {ls ls' : List Label} (hl : ls.map Label.noIp = ls'.map Label.noIp)
    (pc : Nat) : VSim { s with labels := ls, pc := pc } { s' with labels := ls', pc := pc } :=
  { h with labels := hl, pc := rfl }

theorem VSim.len {s s' : VM} (h : VSim s s') : s.labels.length = s'.labels.length := by
  have := congrArg List.length h.labels
  simpa using this

theorem map_drop_eq {ls ls' : List Label} (h : ls.map Label.noIp = ls'.map Label.noIp) (n : Nat) :
    (ls.drop n).map Label.noIp = (ls'.drop n).map Label.noIp := by
  rw [List.map_drop, List.map_drop, h]

theorem map_tail_eq {ls ls' : List Label} (h : ls.map Label.noIp = ls'.map Label.noIp) :
    ls.tail.map Label.noIp = ls'.tail.map Label.noIp := by
  rw [List.map_tail, List.map_tail, h]

theorem VSim.branch {s s' : VM} (h : VSim s s') (depth target : Nat) (src dst : List Reg) :
    ResRel VSim (s.branch depth target src dst) (s'.branch depth target src dst) := by
  simp only [VM.branch, h.rf]
  refine .bindEq rfl fun rf => .ok ?_
  rw [h.len]
  exact (h.setRf rf).setLabels (map_drop_eq h.labels _) target

theorem VSim.setInst {s s' : VM} (h : VSim s s') {i i' : Inst} (hi : i.data = i'.data) (hg : i.memGen = s.inst.memGen)
    (hg' : i'.memGen = s'.inst.memGen) : VSim { s with inst := i } { s' with inst := i' } :=
  { h with inst := hi, ptr := by simpa only [PtrLive, hg, hg'] using h.ptr }

/-- every handler treats related states alike -/
theorem step_sim (H : FloatHost) (P : Prog) (len : Nat) {s s' : VM} (h : VSim s s') (i : Instr) :
    ResRel OutSim (step H P len s i) (step H P len s' i) := by
  obtain ⟨dm, dg, dt, dd⟩ := Inst.data_eq h.inst
  have hlen := h.len
  have hlab := h.labels
  obtain ⟨rf, locals, pc, labels, ret, p, mem, gen, gl, tb, da⟩ := s
  obtain ⟨rf', locals', pc', labels', ret', p', mem', gen', gl', tb', da'⟩ := s'
  obtain ⟨e1, e2, e3, e4, e5, -, e7⟩ := id h
  simp only at e1 e2 e3 e4 e5 e7 dm dg dt dd hlen hlab
  subst e1 e2 e3 e4 dm dg dt dd
  generalize hs : (⟨rf, locals, pc, labels, ret, p, ⟨mem, gen, gl, tb, da⟩⟩ : VM) = s at h
  generalize hs' : (⟨rf, locals, pc, labels', ret, p', ⟨mem, gen', gl, tb, da⟩⟩ : VM) = s' at h
  have wr : ∀ (c : Cls) (d : Dst) (v : c.Carrier), ResRel OutSim
      (s.write c d v >>= fun s => (pure (.cont s.next) : Res Out)) (s'.write c d v >>= fun s => (pure (.cont s.next) : Res Out)) :=
    fun c d v => .bind (h.write c d v) fun a b hab => .ok (.cont hab.next)
  have sr : ∀ (c : Cls) (d : Nat) (v : c.Carrier), ResRel OutSim
      (s.rf.set c d v >>= fun rf => (pure (.cont { s with rf := rf }.next) : Res Out))
      (s.rf.set c d v >>= fun rf => (pure (.cont { s' with rf := rf }.next) : Res Out)) :=
    fun c d v => .bindEq rfl fun rf => .ok (.cont (h.setRf rf).next)
  subst hs hs'
  cases i <;> simp only [step, ← hlen]
  case op1 => exact .bindEq (h.read _ _) fun _ => .bindEq rfl fun _ => wr _ _ _
  case op2 => exact .bindEq (h.read _ _) fun _ => .bindEq (h.read _ _) fun _ => .bindEq rfl fun _ => wr _ _ _
  case load => exact .bindEq (h.read _ _) fun _ => .bindEq h.rawMem fun _ => .bindEq rfl fun _ => wr _ _ _
  case store =>
    exact .bindEq (h.read _ _) fun _ => .bindEq rfl fun _ => .bindEq h.rawMem fun _ => .bindEq rfl fun m =>
      .ok (.cont (h.setMem m).next)
  case memSize => exact .bindEq h.mem0 fun _ => sr _ _ _
  case memGrow =>
    refine .bindEq h.mem0 fun _ => .bindEq rfl fun _ => .bindEq rfl fun p => .bindEq rfl fun rf => .ok (.cont ?_)
    exact ⟨rfl, rfl, rfl, h.retRegs, hlab, rfl, by simp [PtrLive, VM.next]⟩
  case memCopy =>
    exact .bindEq h.mem0 fun _ => .bindEq rfl fun _ => .bindEq rfl fun _ => .bindEq rfl fun _ => .bindEq rfl fun m =>
      .ok (.cont (h.setMem m).next)
  case memInit =>
    refine .bindEq h.mem0 fun _ => ?_
    split
    · exact .trap _
    · exact .bindEq rfl fun _ => .bindEq rfl fun _ => .bindEq rfl fun _ => .bindEq rfl fun m =>
        .ok (.cont (h.setMem m).next)
  case memFill =>
    exact .bindEq h.mem0 fun _ => .bindEq rfl fun _ => .bindEq rfl fun _ => .bindEq rfl fun _ => .bindEq rfl fun m =>
      .ok (.cont (h.setMem m).next)
  case select => exact .bindEq rfl fun _ => .bindEq rfl fun _ => sr _ _ _
  case globalGet =>
    split
    · exact .panic
    · exact wr _ _ _
  case globalSet =>
    refine .bindEq (h.read _ _) fun _ => .bindEq rfl fun gs => .ok (.cont (VSim.next ?_))
    exact h.setInst (rfl) rfl rfl
  case dataDrop =>
    refine .ok (.cont (VSim.next ?_))
    exact h.setInst (rfl) rfl rfl
  case refLocalGet =>
    split
    · exact .ub
    · split
      · exact sr _ _ _
      · exact .ok (.cont h.next)
  case refLocalSet => exact .bindEq rfl fun _ => wr _ _ _
  case refNull => exact sr _ _ _
  case refIsNull => exact .bindEq rfl fun _ => sr _ _ _
  case tableGet =>
    split
    · exact .trap _
    · refine .bindEq rfl fun _ => ?_
      split
      · exact .panic
      · exact sr _ _ _
  case tableSet =>
    split
    · exact .trap _
    · refine .bindEq rfl fun _ => .bindEq rfl fun _ => ?_
      split
      · exact .ok (.cont (VSim.next (h.setInst rfl rfl rfl)))
      · exact .panic
  case tableFill =>
    split
    · exact .trap _
    · exact .bindEq rfl fun _ => .bindEq rfl fun _ => .bindEq rfl fun _ => .bindEq rfl fun _ =>
        .ok (.cont (VSim.next (h.setInst rfl rfl rfl)))
  case callWasi => exact .bindEq rfl fun _ => .ok (.yield h.next)
  case callIndirect =>
    refine .bindEq rfl fun _ => ?_
    split
    · exact .trap _
    · split
      · split
        · split
          · exact .bindEq rfl fun _ => .bindEq rfl fun _ => .ok (.yield h.next)
          · exact .trap _
        · exact .panic
      · exact .panic
  case call =>
    split
    · exact .trap _
    · exact .bindEq rfl fun _ => .bindEq rfl fun _ => .ok (.yield h.next)
  case ret => exact .bindEq rfl fun rs => .ok (.yield { h with retRegs := rfl })
  case jump t =>
    refine .ok (.cont (h.setLabels ?_ t))
    split
    · exact map_tail_eq hlab
    · exact hlab
  case block => exact .ok (.cont (h.setLabels (by simp only [List.map_cons, hlab]) _))
  case ite =>
    refine .bindEq rfl fun _ => ?_
    split
    · exact .ok (.cont (h.setLabels (by simp only [List.map_cons, hlab]) _))
    · split
      · exact .ok (.cont (h.setLabels (by simp only [List.map_cons, hlab]) _))
      · exact .ok (.cont { h with pc := rfl })
  case fin src dst =>
    split
    · exact .bindEq rfl fun rs => .ok (.cont { h with retRegs := rfl, pc := rfl })
    · refine .bindEq rfl fun rf => ?_
      have hl : labels.tail.length = labels'.tail.length := by simp [hlen]
      rw [← hl]
      split
      · exact .bindEq rfl fun rs => .ok (.cont ⟨rfl, h.locals, rfl, rfl, map_tail_eq hlab, h.inst, h.ptr⟩)
      · refine .ok (.cont (VSim.next ?_))
        exact ⟨rfl, h.locals, h.pc, h.retRegs, map_tail_eq hlab, h.inst, h.ptr⟩
  case br => exact .bind (h.branch _ _ _ _) fun a b hab => .ok (.cont hab)
  case brIf =>
    refine .bindEq rfl fun _ => ?_
    split
    · exact .ok (.cont h.next)
    · exact .bind (h.branch _ _ _ _) fun a b hab => .ok (.cont hab)
  case brTable => exact .bindEq rfl fun _ => .bind (h.branch _ _ _ _) fun a b hab => .ok (.cont hab)
  case nop => exact .ok (.cont h.next)
  case unreachable => exact .panic

end Verif.Model
