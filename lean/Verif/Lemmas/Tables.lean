import Verif.Lemmas.Keeps
import Verif.Lemmas.Flow
/-
Instructions that change neither tables nor data segments (the parts of an instance a checkpoint does not save).
-/
namespace Verif.Model

/-- `table.set`, `table.fill`, `data.drop` -/
def Instr.unsaved : Instr → Bool
  | .tableSet _ _ _ => true
  | .tableFill _ _ _ _ => true
  | .dataDrop _ => true
  | _ => false

/-- same tables and data segments -/
structure SameSeg (i j : Inst) : Prop where
  tables : i.tables = j.tables
  datas : i.datas = j.datas

theorem SameSeg.of {i j : Inst} (h : i = j) : SameSeg i j := by subst h; exact ⟨rfl, rfl⟩

theorem VM.write_seg {s s' : VM} {c : Cls} {d : Dst} {v : c.Carrier} (h : s.write c d v = .ok s') :
    SameSeg s'.next.inst s.inst := by
  cases d with
  | reg i =>
    simp only [VM.write, Res.bind_eq_ok, Res.pure_eq, Res.ok_inj] at h
    obtain ⟨rf, h, rfl⟩ := h
    exact ⟨rfl, rfl⟩
  | loc i =>
    simp only [VM.write] at h
    split at h
    · cases h; exact ⟨rfl, rfl⟩
    · cases h

theorem VM.branch_seg {s s' : VM} {a b : Nat} {x y : List Reg} (h : s.branch a b x y = .ok s') :
    SameSeg s'.inst s.inst := by
  simp only [VM.branch, Res.bind_eq_ok, Res.pure_eq, Res.ok_inj] at h
  obtain ⟨rf, h, rfl⟩ := h
  exact ⟨rfl, rfl⟩

theorem step_seg {H : FloatHost} {P : Prog} {len : Nat} {s : VM} {i : Instr} {o : Out} (hi : i.unsaved = false)
    (h : step H P len s i = .ok o) : SameSeg o.vm.inst s.inst := by
  cases i <;> simp only [step, Res.bind_eq_ok, Res.pure_eq, Res.ok_inj, reduceCtorEq] at h
  case op1 op dst src => obtain ⟨_, _, _, _, s1, hw, rfl⟩ := h; exact VM.write_seg (s' := s1) hw
  case op2 op dst x y => obtain ⟨_, _, _, _, _, _, s1, hw, rfl⟩ := h; exact VM.write_seg (s' := s1) hw
  case load => obtain ⟨_, _, _, _, _, _, s1, hw, rfl⟩ := h; exact VM.write_seg (s' := s1) hw
  case store => obtain ⟨_, _, _, _, m, hm, m', hs, rfl⟩ := h; exact ⟨rfl, rfl⟩
  case memSize => obtain ⟨_, _, _, hs, rfl⟩ := h; exact ⟨rfl, rfl⟩
  case memGrow => obtain ⟨m, hm, d, _, ⟨r, m'⟩, hg, rf, hs, rfl⟩ := h; exact ⟨rfl, rfl⟩
  case memCopy => obtain ⟨m, hm, _, _, _, _, _, _, m', hs, rfl⟩ := h; exact ⟨rfl, rfl⟩
  case memInit =>
    obtain ⟨m, hm, h⟩ := h
    split at h
    · cases h
    · simp only [Res.bind_eq_ok, Res.ok_inj] at h
      obtain ⟨_, _, _, _, _, _, m', hs, rfl⟩ := h
      exact ⟨rfl, rfl⟩
  case memFill => obtain ⟨m, hm, _, _, _, _, _, _, m', hs, rfl⟩ := h; exact ⟨rfl, rfl⟩
  case select => obtain ⟨_, _, _, _, _, hs, rfl⟩ := h; exact ⟨rfl, rfl⟩
  case globalGet =>
    split at h
    · cases h
    · simp only [Res.bind_eq_ok, Res.ok_inj] at h
      obtain ⟨s1, hw, rfl⟩ := h
      exact VM.write_seg (s' := s1) hw
  case globalSet => obtain ⟨_, _, gs, hg, rfl⟩ := h; exact ⟨rfl, rfl⟩
  case dataDrop => cases hi
  case refLocalGet =>
    split at h
    · cases h
    · split at h
      · simp only [Res.bind_eq_ok, Res.ok_inj] at h
        obtain ⟨_, hs, rfl⟩ := h; exact ⟨rfl, rfl⟩
      · cases h; exact ⟨rfl, rfl⟩
  case refLocalSet => obtain ⟨_, _, s1, hw, rfl⟩ := h; exact VM.write_seg (s' := s1) hw
  case refNull => obtain ⟨_, hs, rfl⟩ := h; exact ⟨rfl, rfl⟩
  case refIsNull => obtain ⟨_, _, _, hs, rfl⟩ := h; exact ⟨rfl, rfl⟩
  case tableGet =>
    split at h
    · cases h
    · simp only [Res.bind_eq_ok] at h
      obtain ⟨_, _, h⟩ := h
      split at h
      · cases h
      · simp only [Res.bind_eq_ok, Res.ok_inj] at h
        obtain ⟨_, hs, rfl⟩ := h; exact ⟨rfl, rfl⟩
  case tableSet => cases hi
  case tableFill => cases hi
  case callWasi => obtain ⟨_, _, rfl⟩ := h; exact ⟨rfl, rfl⟩
  case callIndirect =>
    obtain ⟨_, _, h⟩ := h
    repeat' split at h
    all_goals (try cases h)
    all_goals
      simp only [Res.bind_eq_ok, Res.ok_inj] at h
      obtain ⟨_, _, _, _, rfl⟩ := h; exact ⟨rfl, rfl⟩
  case call =>
    split at h
    · cases h
    · simp only [Res.bind_eq_ok, Res.ok_inj] at h
      obtain ⟨_, _, _, _, rfl⟩ := h; exact ⟨rfl, rfl⟩
  case ret => obtain ⟨_, _, rfl⟩ := h; exact ⟨rfl, rfl⟩
  case jump t => subst h; exact ⟨rfl, rfl⟩
  case block => subst h; exact ⟨rfl, rfl⟩
  case ite c t e =>
    obtain ⟨_, _, h⟩ := h
    split at h
    · cases h; exact ⟨rfl, rfl⟩
    · split at h <;> cases h <;> exact ⟨rfl, rfl⟩
  case fin src dst =>
    split at h
    · simp only [Res.bind_eq_ok, Res.ok_inj] at h
      obtain ⟨_, _, rfl⟩ := h; exact ⟨rfl, rfl⟩
    · simp only [Res.bind_eq_ok] at h
      obtain ⟨_, hc, h⟩ := h
      split at h
      · simp only [Res.bind_eq_ok, Res.ok_inj] at h
        obtain ⟨_, _, rfl⟩ := h; exact ⟨rfl, rfl⟩
      · cases h; exact ⟨rfl, rfl⟩
  case br => obtain ⟨s1, hb, rfl⟩ := h; exact VM.branch_seg hb
  case brIf =>
    obtain ⟨_, _, h⟩ := h
    split at h
    · cases h; exact ⟨rfl, rfl⟩
    · simp only [Res.bind_eq_ok, Res.ok_inj] at h
      obtain ⟨s1, hb, rfl⟩ := h; exact VM.branch_seg hb
  case brTable ts d idx src => obtain ⟨v, _, s1, hb, rfl⟩ := h; exact VM.branch_seg hb
  case nop => subst h; exact ⟨rfl, rfl⟩

/-- a handler never empties the label stack -/
theorem step_labels {H : FloatHost} {P : Prog} {len : Nat} {s : VM} {i : Instr} {o : Out}
    (h : step H P len s i = .ok o) (hl : s.labels ≠ []) : o.vm.labels ≠ [] := by
  cases o with
  | yield y s' =>
    show s'.labels ≠ []
    have : s'.labels = s.labels := by
      cases i <;> simp only [step, Res.bind_eq_ok, Res.pure_eq, Res.ok_inj, reduceCtorEq, and_false, exists_false] at h
      case memInit =>
        obtain ⟨m, hm, h⟩ := h
        split at h
        · cases h
        · simp [Res.bind_eq_ok] at h
      case globalGet => split at h <;> simp [Res.bind_eq_ok] at h
      case refLocalGet =>
        split at h
        · cases h
        · split at h <;> simp [Res.bind_eq_ok] at h
      case tableGet =>
        split at h
        · cases h
        · simp only [Res.bind_eq_ok] at h
          obtain ⟨_, _, h⟩ := h
          split at h <;> simp [Res.bind_eq_ok] at h
      case tableSet =>
        split at h
        · cases h
        · simp only [Res.bind_eq_ok] at h
          obtain ⟨_, _, _, _, h⟩ := h
          split at h <;> simp at h
      case tableFill => split at h <;> simp [Res.bind_eq_ok] at h
      case callWasi => obtain ⟨_, _, h⟩ := h; cases h; rfl
      case callIndirect =>
        obtain ⟨_, _, h⟩ := h
        repeat' split at h
        all_goals (try cases h)
        all_goals
          simp only [Res.bind_eq_ok, Res.ok_inj] at h
          obtain ⟨_, _, _, _, h⟩ := h; cases h; rfl
      case call =>
        split at h
        · cases h
        · simp only [Res.bind_eq_ok, Res.ok_inj] at h
          obtain ⟨_, _, _, _, h⟩ := h; cases h; rfl
      case ret => obtain ⟨_, _, h⟩ := h; cases h; rfl
      case ite c t e =>
        obtain ⟨_, _, h⟩ := h
        split at h
        · simp at h
        · split at h <;> simp at h
      case fin src dst =>
        split at h
        · simp [Res.bind_eq_ok] at h
        · simp only [Res.bind_eq_ok] at h
          obtain ⟨_, hc, h⟩ := h
          split at h <;> simp [Res.bind_eq_ok] at h
      case brIf =>
        obtain ⟨_, _, h⟩ := h
        split at h <;> simp [Res.bind_eq_ok] at h
    rw [this]; exact hl
  | cont s' =>
    have hf := step_flow h
    show s'.labels ≠ []
    have hlen : 1 ≤ s.labels.length := by
      cases hs : s.labels with
      | nil => exact absurd hs hl
      | cons a l => simp
    have hcut : ∀ d, cut d s.labels ≠ [] := by
      intro d hc
      have := cut_length d s.labels hlen
      rw [hc] at this
      simp at this
      omega
    have htail : 1 < s.labels.length → s.labels.tail ≠ [] := by
      intro h1 h2
      have := congrArg List.length h2
      simp at this; omega
    cases i <;> simp only [flow, List.mem_cons, List.not_mem_nil, or_false, Prod.mk.injEq] at hf
    case fin =>
      split at hf
      · simp only [List.mem_singleton, Prod.mk.injEq] at hf; rw [hf.2]; exact hl
      · rename_i h1
        split at hf <;> (simp only [List.mem_singleton, Prod.mk.injEq] at hf; rw [hf.2]; exact htail (by omega))
    case jump => rw [hf.2]; split
                 · exact htail ‹_›
                 · exact hl
    case block => rw [hf.2]; simp
    case ite =>
      rcases hf with hf | hf
      · rw [hf.2]; simp
      · split at hf
        · simp only [Prod.mk.injEq] at hf; rw [hf.2]; simp
        · simp only [Prod.mk.injEq] at hf; rw [hf.2]; exact hl
    case br => rw [hf.2]; exact hcut _
    case brIf =>
      rcases hf with hf | hf
      · rw [hf.2]; exact hl
      · rw [hf.2]; exact hcut _
    case brTable =>
      rcases hf with hf | hf
      · rw [hf.2]; exact hcut _
      · simp only [List.mem_map, Prod.mk.injEq] at hf
        obtain ⟨t, _, _, h2⟩ := hf
        rw [← h2]; exact hcut _
    all_goals (rw [hf.2]; exact hl)

end Verif.Model
