import Verif.Model.Runtime
/-
Facts about single handlers: which parts of the state each of them leaves alone.
-/
namespace Verif.Model

theorem Res.bind_eq_ok {α β : Type} {x : Res α} {f : α → Res β} {v : β} :
    (x >>= f) = Res.ok v ↔ ∃ a, x = .ok a ∧ f a = .ok v := by
  cases x with
  | ok a => simp
  | trap e => simp
  | panic => simp
  | ub => simp

/-- `x` succeeded: its result -/
theorem Res.ok_inj {α : Type} {a b : α} : (Res.ok a = Res.ok b) ↔ a = b := by
  constructor
  · intro h; cases h; rfl
  · intro h; rw [h]

theorem VM.write_frame {s s' : VM} {c : Cls} {d : Dst} {v : c.Carrier} (h : s.write c d v = .ok s') :
    s'.pc = s.pc ∧ s'.labels = s.labels ∧ s'.inst = s.inst ∧ s'.memPtr = s.memPtr ∧ s'.retRegs = s.retRegs := by
  cases d with
  | reg i =>
    simp only [VM.write, Res.bind_eq_ok, Res.pure_eq, Res.ok_inj] at h
    obtain ⟨rf, _, rfl⟩ := h
    exact ⟨rfl, rfl, rfl, rfl, rfl⟩
  | loc i =>
    simp only [VM.write] at h
    split at h
    · cases h; exact ⟨rfl, rfl, rfl, rfl, rfl⟩
    · cases h

theorem VM.branch_pc {s s' : VM} {depth target : Nat} {src dst : List Reg}
    (h : s.branch depth target src dst = .ok s') :
    s'.pc = target ∧ s'.inst = s.inst ∧ s'.memPtr = s.memPtr ∧ s'.locals = s.locals ∧
    s'.labels = s.labels.drop (s.labels.length - max (s.labels.length - 1 - depth) 1) ∧ s'.retRegs = s.retRegs := by
  simp only [VM.branch, Res.bind_eq_ok, Res.pure_eq, Res.ok_inj] at h
  obtain ⟨rf, _, rfl⟩ := h
  exact ⟨rfl, rfl, rfl, rfl, rfl, rfl⟩

/-- program counters an instruction may jump to -/
def Instr.targets : Instr → List Nat
  | .jump t => [t]
  | .ite _ t _ => [t]
  | .br _ t _ _ => [t]
  | .brIf _ t _ _ _ => [t]
  | .brTable ts d _ _ => d.2.1 :: ts.map (·.2.1)
  | _ => []

/-- every jump stays inside the body (or goes to its end) -/
def Inside (code : List Instr) : Prop := ∀ i ∈ code, ∀ t ∈ i.targets, t ≤ code.length

theorem step_pc {H : FloatHost} {P : Prog} {len : Nat} {s s' : VM} {i : Instr} (hpc : s.pc < len)
    (ht : ∀ t ∈ i.targets, t ≤ len) (h : step H P len s i = .ok (.cont s')) : s'.pc ≤ len := by
  cases i <;> simp only [step, Res.bind_eq_ok, Res.pure_eq, Res.ok_inj, Out.cont.injEq, VM.next, reduceCtorEq,
    and_false, exists_false] at h
  case op1 op dst src =>
    obtain ⟨_, _, _, _, s1, hw, rfl⟩ := h
    have := VM.write_frame hw; simp only [this.1]; omega
  case op2 op dst x y =>
    obtain ⟨_, _, _, _, _, _, s1, hw, rfl⟩ := h
    have := VM.write_frame hw; simp only [this.1]; omega
  case load =>
    obtain ⟨_, _, _, _, _, _, s1, hw, rfl⟩ := h
    have := VM.write_frame hw; simp only [this.1]; omega
  case store => obtain ⟨_, _, _, _, _, _, _, _, rfl⟩ := h; simp only [VM.setMem]; omega
  case memSize => obtain ⟨_, _, _, _, rfl⟩ := h; simp only; omega
  case memGrow => obtain ⟨_, _, _, _, _, _, _, _, rfl⟩ := h; simp only; omega
  case memCopy => obtain ⟨_, _, _, _, _, _, _, _, _, _, rfl⟩ := h; simp only [VM.setMem]; omega
  case memInit =>
    obtain ⟨_, _, h⟩ := h
    split at h
    · cases h
    · simp only [Res.bind_eq_ok, Res.ok_inj, Out.cont.injEq] at h
      obtain ⟨_, _, _, _, _, _, _, _, rfl⟩ := h; simp only [VM.setMem]; omega
  case memFill => obtain ⟨_, _, _, _, _, _, _, _, _, _, rfl⟩ := h; simp only [VM.setMem]; omega
  case select => obtain ⟨_, _, _, _, _, _, rfl⟩ := h; simp only; omega
  case globalGet =>
    split at h
    · cases h
    · simp only [Res.bind_eq_ok, Res.ok_inj, Out.cont.injEq] at h
      obtain ⟨s1, hw, rfl⟩ := h
      have := VM.write_frame hw; simp only [this.1]; omega
  case globalSet => obtain ⟨_, _, _, _, rfl⟩ := h; simp only; omega
  case dataDrop => subst h; simp only; omega
  case refLocalGet =>
    split at h
    · cases h
    · split at h
      · simp only [Res.bind_eq_ok, Res.ok_inj, Out.cont.injEq] at h
        obtain ⟨_, _, rfl⟩ := h; simp only; omega
      · cases h; simp only; omega
  case refLocalSet =>
    obtain ⟨_, _, s1, hw, rfl⟩ := h
    have := VM.write_frame hw; simp only [this.1]; omega
  case refNull => obtain ⟨_, _, rfl⟩ := h; simp only; omega
  case refIsNull => obtain ⟨_, _, _, _, rfl⟩ := h; simp only; omega
  case tableGet =>
    split at h
    · cases h
    · simp only [Res.bind_eq_ok] at h
      obtain ⟨_, _, h⟩ := h
      split at h
      · cases h
      · simp only [Res.bind_eq_ok, Res.ok_inj, Out.cont.injEq] at h
        obtain ⟨_, _, rfl⟩ := h; simp only; omega
  case tableSet =>
    split at h
    · cases h
    · simp only [Res.bind_eq_ok] at h
      obtain ⟨_, _, _, _, h⟩ := h
      split at h
      · cases h; simp only; omega
      · cases h
  case tableFill =>
    split at h
    · cases h
    · simp only [Res.bind_eq_ok, Res.ok_inj, Out.cont.injEq] at h
      obtain ⟨_, _, _, _, _, _, _, _, rfl⟩ := h; simp only; omega
  case callIndirect =>
    obtain ⟨_, _, h⟩ := h
    repeat' split at h
    all_goals (try cases h)
    all_goals simp [Res.bind_eq_ok] at h
  case call =>
    split at h
    · cases h
    · simp [Res.bind_eq_ok] at h
  case jump t => subst h; exact ht t (by simp [Instr.targets])
  case block => subst h; simp only; omega
  case ite c t e =>
    obtain ⟨_, _, h⟩ := h
    have := ht t (by simp [Instr.targets])
    split at h
    · cases h; simp only; omega
    · split at h <;> cases h <;> simpa using this
  case fin src dst =>
    split at h
    · simp only [Res.bind_eq_ok, Res.ok_inj, Out.cont.injEq] at h
      obtain ⟨_, _, rfl⟩ := h; simp
    · simp only [Res.bind_eq_ok] at h
      obtain ⟨_, _, h⟩ := h
      split at h
      · simp only [Res.bind_eq_ok, Res.ok_inj, Out.cont.injEq] at h
        obtain ⟨_, _, rfl⟩ := h; simp
      · cases h; simp only; omega
  case br =>
    obtain ⟨s1, hb, rfl⟩ := h
    rw [(VM.branch_pc hb).1]; exact ht _ (by simp [Instr.targets])
  case brIf =>
    obtain ⟨_, _, h⟩ := h
    split at h
    · cases h; simp only; omega
    · simp only [Res.bind_eq_ok, Res.ok_inj, Out.cont.injEq] at h
      obtain ⟨s1, hb, rfl⟩ := h
      rw [(VM.branch_pc hb).1]; exact ht _ (by simp [Instr.targets])
  case brTable ts d idx src =>
    obtain ⟨v, _, s1, hb, rfl⟩ := h
    rw [(VM.branch_pc hb).1]
    apply ht
    simp only [Instr.targets]
    cases hg : ts[BitVec.toNat (w := 32) v]? with
    | none => simp
    | some t =>
      have := List.mem_of_getElem? hg
      simp only [Option.getD_some, List.mem_cons, List.mem_map]
      exact Or.inr ⟨t, this, rfl⟩
  case nop => subst h; simp only; omega

end Verif.Model
