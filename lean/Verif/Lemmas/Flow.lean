import Verif.Lemmas.VM
/-
Control flow of single handlers: where an instruction can continue and with which labels.
-/
namespace Verif.Model

/-- labels left after a branch of the given depth -/
def cut (depth : Nat) (ls : List Label) : List Label := ls.drop (ls.length - max (ls.length - 1 - depth) 1)

theorem cut_length (depth : Nat) (ls : List Label) (h : 1 ≤ ls.length) :
    (cut depth ls).length = max (ls.length - 1 - depth) 1 := by
  simp only [cut, List.length_drop]; omega

/-- possible continuations (pc and labels) of an instruction that does not leave the frame -/
def flow (len : Nat) (pc : Nat) (ls : List Label) : Instr → List (Nat × List Label)
  | .jump t => [(t, if 1 < ls.length then ls.tail else ls)]
  | .block l => [(pc + 1, ⟨l, pc + 1, pc + 1⟩ :: ls)]
  | .ite _ t e => [(pc + 1, ⟨false, t, pc + 1⟩ :: ls), if e then (t, ⟨false, t, t⟩ :: ls) else (t, ls)]
  | .fin _ _ =>
    if ls.length ≤ 1 then [(len, ls)]
    else if len ≤ pc + 1 ∧ ls.tail.length = 1 then [(len, ls.tail)] else [(pc + 1, ls.tail)]
  | .br d t _ _ => [(t, cut d ls)]
  | .brIf d t _ _ _ => [(pc + 1, ls), (t, cut d ls)]
  | .brTable ts d _ _ => (d.2.1, cut d.1 ls) :: ts.map fun t => (t.2.1, cut t.1 ls)
  | .ret _ | .callWasi _ _ _ | .call _ _ _ | .callIndirect _ _ _ _ _ | .unreachable => []
  | _ => [(pc + 1, ls)]

theorem step_flow {H : FloatHost} {P : Prog} {len : Nat} {s s' : VM} {i : Instr}
    (h : step H P len s i = .ok (.cont s')) : (s'.pc, s'.labels) ∈ flow len s.pc s.labels i := by
  cases i <;> simp only [step, Res.bind_eq_ok, Res.pure_eq, Res.ok_inj, Out.cont.injEq, VM.next, reduceCtorEq,
    and_false, exists_false] at h
  case op1 op dst src =>
    obtain ⟨_, _, _, _, s1, hw, rfl⟩ := h
    have := VM.write_frame hw; simp [flow, this.1, this.2.1]
  case op2 op dst x y =>
    obtain ⟨_, _, _, _, _, _, s1, hw, rfl⟩ := h
    have := VM.write_frame hw; simp [flow, this.1, this.2.1]
  case load =>
    obtain ⟨_, _, _, _, _, _, s1, hw, rfl⟩ := h
    have := VM.write_frame hw; simp [flow, this.1, this.2.1]
  case store => obtain ⟨_, _, _, _, _, _, _, _, rfl⟩ := h; simp [flow, VM.setMem]
  case memSize => obtain ⟨_, _, _, _, rfl⟩ := h; simp [flow]
  case memGrow => obtain ⟨_, _, _, _, _, _, _, _, rfl⟩ := h; simp [flow]
  case memCopy => obtain ⟨_, _, _, _, _, _, _, _, _, _, rfl⟩ := h; simp [flow, VM.setMem]
  case memInit =>
    obtain ⟨_, _, h⟩ := h
    split at h
    · cases h
    · simp only [Res.bind_eq_ok, Res.ok_inj, Out.cont.injEq] at h
      obtain ⟨_, _, _, _, _, _, _, _, rfl⟩ := h; simp [flow, VM.setMem]
  case memFill => obtain ⟨_, _, _, _, _, _, _, _, _, _, rfl⟩ := h; simp [flow, VM.setMem]
  case select => obtain ⟨_, _, _, _, _, _, rfl⟩ := h; simp [flow]
  case globalGet =>
    split at h
    · cases h
    · simp only [Res.bind_eq_ok, Res.ok_inj, Out.cont.injEq] at h
      obtain ⟨s1, hw, rfl⟩ := h
      have := VM.write_frame hw; simp [flow, this.1, this.2.1]
  case globalSet => obtain ⟨_, _, _, _, rfl⟩ := h; simp [flow]
  case dataDrop => subst h; simp [flow]
  case refLocalGet =>
    split at h
    · cases h
    · split at h
      · simp only [Res.bind_eq_ok, Res.ok_inj, Out.cont.injEq] at h
        obtain ⟨_, _, rfl⟩ := h; simp [flow]
      · cases h; simp [flow]
  case refLocalSet =>
    obtain ⟨_, _, s1, hw, rfl⟩ := h
    have := VM.write_frame hw; simp [flow, this.1, this.2.1]
  case refNull => obtain ⟨_, _, rfl⟩ := h; simp [flow]
  case refIsNull => obtain ⟨_, _, _, _, rfl⟩ := h; simp [flow]
  case tableGet =>
    split at h
    · cases h
    · simp only [Res.bind_eq_ok] at h
      obtain ⟨_, _, h⟩ := h
      split at h
      · cases h
      · simp only [Res.bind_eq_ok, Res.ok_inj, Out.cont.injEq] at h
        obtain ⟨_, _, rfl⟩ := h; simp [flow]
  case tableSet =>
    split at h
    · cases h
    · simp only [Res.bind_eq_ok] at h
      obtain ⟨_, _, _, _, h⟩ := h
      split at h
      · cases h; simp [flow]
      · cases h
  case tableFill =>
    split at h
    · cases h
    · simp only [Res.bind_eq_ok, Res.ok_inj, Out.cont.injEq] at h
      obtain ⟨_, _, _, _, _, _, _, _, rfl⟩ := h; simp [flow]
  case callIndirect =>
    obtain ⟨_, _, h⟩ := h
    repeat' split at h
    all_goals (try cases h)
    all_goals simp [Res.bind_eq_ok] at h
  case call =>
    split at h
    · cases h
    · simp [Res.bind_eq_ok] at h
  case jump t => subst h; simp [flow]
  case block => subst h; simp [flow]
  case ite c t e =>
    obtain ⟨_, _, h⟩ := h
    split at h
    · cases h; simp [flow]
    · split at h <;> cases h <;> simp_all [flow]
  case fin src dst =>
    split at h
    · rename_i hle
      simp only [Res.bind_eq_ok, Res.ok_inj, Out.cont.injEq] at h
      obtain ⟨_, _, rfl⟩ := h; simp [flow, hle]
    · rename_i hle
      simp only [Res.bind_eq_ok] at h
      obtain ⟨_, _, h⟩ := h
      split at h
      · rename_i hc
        simp only [Res.bind_eq_ok, Res.ok_inj, Out.cont.injEq] at h
        obtain ⟨_, _, rfl⟩ := h
        simp only [flow, hle, if_false]; rw [if_pos hc]; simp
      · rename_i hc
        cases h
        simp only [flow, hle, if_false]; rw [if_neg hc]; simp
  case br =>
    obtain ⟨s1, hb, rfl⟩ := h
    have := VM.branch_pc hb
    simp [flow, this.1, this.2.2.2.2.1, cut]
  case brIf =>
    obtain ⟨_, _, h⟩ := h
    split at h
    · cases h; simp [flow]
    · simp only [Res.bind_eq_ok, Res.ok_inj, Out.cont.injEq] at h
      obtain ⟨s1, hb, rfl⟩ := h
      have := VM.branch_pc hb
      simp [flow, this.1, this.2.2.2.2.1, cut]
  case brTable ts d idx src =>
    obtain ⟨v, _, s1, hb, rfl⟩ := h
    have hh := VM.branch_pc hb
    rw [hh.1, hh.2.2.2.2.1]
    simp only [flow]
    cases hg : ts[BitVec.toNat (w := 32) v]? with
    | none => simp [cut]
    | some t =>
      have := List.mem_of_getElem? hg
      simp only [Option.getD_some, List.mem_cons, List.mem_map]
      exact Or.inr ⟨t, this, rfl⟩
  case nop => subst h; simp [flow]

end Verif.Model
