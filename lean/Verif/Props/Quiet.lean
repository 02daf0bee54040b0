import Verif.Props.Dispatch
/-
C31 and the run-level half of C17: when no checkpoint trigger is raised, the dispatcher used and the checkpoint setting
do not influence what a program computes.
-/
namespace Verif.Props
open Verif.Model

/-- no checkpoint trigger is ever raised -/
def Quiet (E : Env) : Prop := ∀ k, E.trig k = false

/-- A body executed with no checkpoint machinery at all: one handler after the other until the end of the body (`none`)
or a call/return (`some y`).  What is left of a finished frame are registers, locals, result registers and the module
instance; pc and labels are dropped. -/
def plainRun (H : FloatHost) (P : Prog) (code : List Instr) : Nat → VM → Option (Res (Option Yield × VM))
  | 0, _ => none
  | n + 1, vm =>
    match code[vm.pc]? with
    | none => some (.ok (none, { vm with pc := 0, labels := [] }))
    | some i =>
      match step H P code.length vm i with
      | .ok (.cont vm) => plainRun H P code n vm
      | .ok (.yield y vm) => some (.ok (some y, vm))
      | .trap e => some (.trap e)
      | .panic => some .panic
      | .ub => some .ub

/-- the part of a dispatcher's result that a checkpoint-free execution has as well -/
def obsF : Res Final → Res (Option Yield × VM)
  | .ok (.halt d) => .ok (none, { d.vm with pc := 0, labels := [] })
  | .ok (.yield y d) => .ok (some y, d.vm)
  | .ok (.ckpt _) => .trap .checkpointRequested
  | .trap e => .trap e
  | .panic => .panic
  | .ub => .ub

theorem quiet_poll {E : Env} (hq : Quiet E) (d : DState) : (poll E d).1 = false := by
  unfold poll
  split
  · rfl
  · split
    · exact hq _
    · simp only; split
      · rfl
      · split
        · exact hq _
        · rfl

/-- past the end of the body the loop dispatcher only unwinds labels -/
theorem loop_overflow {E : Env} (hq : Quiet E) (code : List Instr) : ∀ (ls : List Label) (d : DState),
    d.vm.labels = ls → code.length ≤ d.vm.pc →
    ∃ n r, loopRun E code n d = some r ∧ obsF r = .ok (none, { d.vm with pc := 0, labels := [] })
  | ls, d, hl, hpc => by
    have hqp := quiet_poll hq d
    have hvm := poll_vm E d
    obtain ⟨d1, hd1⟩ : ∃ d1, poll E d = (false, d1) := ⟨(poll E d).2, by rw [← hqp]⟩
    rw [hd1] at hvm
    simp only at hvm
    have hnone : code[d1.vm.pc]? = none := List.getElem?_eq_none_iff.mpr (by rw [hvm]; exact hpc)
    match ls, hl with
    | [], hl =>
      refine ⟨1, .ok (.halt d1), ?_, by simp [obsF, hvm]⟩
      rw [loopRun, hd1]; simp only [hnone]; rw [show d1.vm.labels = [] by rw [hvm, hl]]
    | [l], hl =>
      refine ⟨1, .ok (.halt d1), ?_, by simp [obsF, hvm]⟩
      rw [loopRun, hd1]; simp only [hnone]; rw [show d1.vm.labels = [l] by rw [hvm, hl]]
    | l :: l2 :: rest, hl =>
      by_cases hc : l.returnIp ≤ d1.vm.pc ∧ l.isLoop = false
      · refine ⟨1, .ok (.halt d1), ?_, by simp [obsF, hvm]⟩
        rw [loopRun, hd1]; simp only [hnone]; rw [show d1.vm.labels = l :: l2 :: rest by rw [hvm, hl]]
        simp only [hc, and_self, if_true]
      · have hpc1 : code.length ≤ d1.vm.pc := by rw [hvm]; exact hpc
        obtain ⟨n, r, h1, h2⟩ := loop_overflow hq code (l2 :: rest)
          { d1 with vm := { d1.vm with labels := l2 :: rest, pc := if l.isLoop then d1.vm.pc + 1 else l.returnIp } }
          rfl (by
            simp only
            split
            · omega
            · rename_i hlp
              simp only [Bool.not_eq_true] at hlp
              simp only [hlp, and_true, Nat.not_le] at hc
              omega)
        refine ⟨n + 1, r, ?_, by simpa [hvm] using h2⟩
        rw [loopRun, hd1]; simp only [hnone]; rw [show d1.vm.labels = l :: l2 :: rest by rw [hvm, hl]]
        simp only [hc, if_false]
        exact h1

theorem loop_mono (E : Env) (code : List Instr) : ∀ (n : Nat) (d : DState) (r : Res Final),
    loopRun E code n d = some r → loopRun E code (n + 1) d = some r
  | 0, _, _, h => by simp [loopRun] at h
  | n + 1, d, r, h => by
    rw [loopRun] at h ⊢
    cases hp : poll E d with
    | mk b d1 =>
      rw [hp] at h
      cases b with
      | true => exact h
      | false =>
        simp only at h ⊢
        cases hc : code[d1.vm.pc]? with
        | none =>
          rw [hc] at h
          simp only at h ⊢
          split at h
          · split at h
            · rename_i hx; simpa [hx] using h
            · rename_i hx; simp only [hx, if_false]; exact loop_mono E code n _ r h
          · exact h
        | some i =>
          rw [hc] at h
          simp only at h ⊢
          cases hs : step E.H E.P code.length d1.vm i with
          | ok o =>
            rw [hs] at h
            cases o with
            | cont vm => exact loop_mono E code n _ r h
            | yield y vm => exact h
          | trap e => rw [hs] at h; exact h
          | panic => rw [hs] at h; exact h
          | ub => rw [hs] at h; exact h

theorem chain_mono (E : Env) (code : List Instr) : ∀ (n : Nat) (d : DState) (r : Res Final),
    tcoChain E code n d = some r → tcoChain E code (n + 1) d = some r
  | 0, _, _, h => by simp [tcoChain] at h
  | n + 1, d, r, h => by
    rw [tcoChain] at h ⊢
    cases hc : code[d.vm.pc]? with
    | none => rw [hc] at h; exact h
    | some i =>
      rw [hc] at h
      simp only at h ⊢
      cases hs : step E.H E.P code.length d.vm i with
      | ok o =>
        rw [hs] at h
        cases o with
        | cont vm =>
          simp only at h ⊢
          cases hp : poll E { d with vm := vm } with
          | mk b d1 =>
            rw [hp] at h
            cases b with
            | true => exact h
            | false => exact chain_mono E code n _ r h
        | yield y vm => exact h
      | trap e => rw [hs] at h; exact h
      | panic => rw [hs] at h; exact h
      | ub => rw [hs] at h; exact h

theorem tco_mono (E : Env) (code : List Instr) (n : Nat) (d : DState) (r : Res Final)
    (h : tcoRun E code n d = some r) : tcoRun E code (n + 1) d = some r := by
  unfold tcoRun at h ⊢
  cases hp : poll E d with
  | mk b d1 =>
    rw [hp] at h
    cases b with
    | true => exact h
    | false =>
      simp only at h ⊢
      split
      · rename_i hx; simpa [hx] using h
      · rename_i hx; simp only [hx, if_false] at h; exact chain_mono E code n _ r h

/-- `D` computes, on every body of the program, what the checkpoint-free execution computes -/
structure Faithful (E : Env) (D : Dispatcher) : Prop where
  mono : ∀ n code d r, D n code d = some r → D (n + 1) code d = some r
  fwd : ∀ n code d r, Inside code → D n code d = some r →
    ∃ k, plainRun E.H E.P code k d.vm = some (obsF r)
  bwd : ∀ k code d o, Inside code → plainRun E.H E.P code k d.vm = some o →
    ∃ n r, D n code d = some r ∧ obsF r = o

theorem loop_fwd {E : Env} (hq : Quiet E) (code : List Instr) : ∀ (n : Nat) (d : DState) (r : Res Final),
    loopRun E code n d = some r → ∃ k, plainRun E.H E.P code k d.vm = some (obsF r)
  | 0, _, _, h => by simp [loopRun] at h
  | n + 1, d, r, h => by
    have hqp := quiet_poll hq d
    have hvm := poll_vm E d
    obtain ⟨d1, hd1⟩ : ∃ d1, poll E d = (false, d1) := ⟨(poll E d).2, by rw [← hqp]⟩
    rw [hd1] at hvm
    simp only at hvm
    cases hc : code[d1.vm.pc]? with
    | none =>
      have hle := List.getElem?_eq_none_iff.mp hc
      obtain ⟨m, r2, h1, h2⟩ := loop_overflow hq code d.vm.labels d rfl (by rw [← hvm]; exact hle)
      have hr : r = r2 := by
        have a : loopRun E code (n + 1 + m) d = some r := by
          clear h1 h2
          induction m with
          | zero => exact h
          | succ m ih => exact loop_mono E code _ d r ih
        have b : loopRun E code (m + (n + 1)) d = some r2 := by
          clear a h h2
          generalize n + 1 = q
          induction q with
          | zero => exact h1
          | succ q ih => exact loop_mono E code _ d r2 ih
        rw [Nat.add_comm] at a
        rw [a] at b
        exact Option.some.inj b
      subst hr
      refine ⟨1, ?_⟩
      rw [plainRun, show code[d.vm.pc]? = none by rw [← hvm]; exact hc, h2]
    | some i =>
      rw [loopRun, hd1] at h
      simp only [hc] at h
      have hlt := (List.getElem?_eq_some_iff.mp hc).1
      cases hs : step E.H E.P code.length d1.vm i with
      | ok o =>
        rw [hs] at h
        cases o with
        | cont vm =>
          obtain ⟨k, hk⟩ := loop_fwd hq code n { d1 with vm := vm } r h
          refine ⟨k + 1, ?_⟩
          rw [plainRun, ← hvm, hc]
          simp only [hs]; exact hk
        | yield y vm =>
          simp only [Option.some.injEq] at h
          subst h
          exact ⟨1, by rw [plainRun, ← hvm, hc]; simp only [hs]; rfl⟩
      | trap e =>
        simp only [hs, Option.some.injEq] at h; subst h
        exact ⟨1, by rw [plainRun, ← hvm, hc]; simp only [hs]; rfl⟩
      | panic =>
        simp only [hs, Option.some.injEq] at h; subst h
        exact ⟨1, by rw [plainRun, ← hvm, hc]; simp only [hs]; rfl⟩
      | ub =>
        simp only [hs, Option.some.injEq] at h; subst h
        exact ⟨1, by rw [plainRun, ← hvm, hc]; simp only [hs]; rfl⟩

theorem loop_bwd {E : Env} (hq : Quiet E) (code : List Instr) : ∀ (k : Nat) (d : DState)
    (o : Res (Option Yield × VM)), plainRun E.H E.P code k d.vm = some o →
    ∃ n r, loopRun E code n d = some r ∧ obsF r = o
  | 0, _, _, h => by simp [plainRun] at h
  | k + 1, d, o, h => by
    have hqp := quiet_poll hq d
    have hvm := poll_vm E d
    obtain ⟨d1, hd1⟩ : ∃ d1, poll E d = (false, d1) := ⟨(poll E d).2, by rw [← hqp]⟩
    rw [hd1] at hvm
    simp only at hvm
    rw [plainRun] at h
    cases hc : code[d.vm.pc]? with
    | none =>
      obtain ⟨m, r2, h1, h2⟩ := loop_overflow hq code d.vm.labels d rfl (List.getElem?_eq_none_iff.mp hc)
      rw [hc] at h
      simp only [Option.some.injEq] at h
      exact ⟨m, r2, h1, by rw [h2, h]⟩
    | some i =>
      rw [hc] at h
      simp only at h
      have hlt := (List.getElem?_eq_some_iff.mp hc).1
      have hc1 : code[d1.vm.pc]? = some i := by rw [hvm]; exact hc
      cases hs : step E.H E.P code.length d.vm i with
      | ok ou =>
        rw [hs] at h
        cases ou with
        | cont vm =>
          obtain ⟨n, r, h1, h2⟩ := loop_bwd hq code k { d1 with vm := vm } o h
          refine ⟨n + 1, r, ?_, h2⟩
          rw [loopRun, hd1]; simp only [hvm, hc, hs]; exact h1
        | yield y vm =>
          simp only [Option.some.injEq] at h
          refine ⟨1, .ok (.yield y { d1 with vm := vm }), ?_, by simpa [obsF] using h⟩
          rw [loopRun, hd1]; simp only [hvm, hc, hs]
      | trap e =>
        simp only [hs, Option.some.injEq] at h
        exact ⟨1, .trap e, by rw [loopRun, hd1]; simp only [hvm, hc, hs], by simpa [obsF] using h⟩
      | panic =>
        simp only [hs, Option.some.injEq] at h
        exact ⟨1, .panic, by rw [loopRun, hd1]; simp only [hvm, hc, hs], by simpa [obsF] using h⟩
      | ub =>
        simp only [hs, Option.some.injEq] at h
        exact ⟨1, .ub, by rw [loopRun, hd1]; simp only [hvm, hc, hs], by simpa [obsF] using h⟩

theorem chain_fwd {E : Env} (hq : Quiet E) (code : List Instr) (hin : Inside code) : ∀ (n : Nat) (d : DState)
    (r : Res Final), d.vm.pc ≤ code.length → tcoChain E code n d = some r →
    plainRun E.H E.P code n d.vm = some (obsF r)
  | 0, _, _, _, h => by simp [tcoChain] at h
  | n + 1, d, r, hpc, h => by
    rw [tcoChain] at h
    rw [plainRun]
    cases hc : code[d.vm.pc]? with
    | none =>
      have hle := List.getElem?_eq_none_iff.mp hc
      rw [hc] at h
      simp only [show d.vm.pc = code.length by omega, if_true, Option.some.injEq] at h
      subst h; rfl
    | some i =>
      rw [hc] at h
      simp only at h ⊢
      have hlt := (List.getElem?_eq_some_iff.mp hc).1
      cases hs : step E.H E.P code.length d.vm i with
      | ok o =>
        rw [hs] at h
        cases o with
        | cont vm =>
          simp only at h ⊢
          have hqp := quiet_poll hq { d with vm := vm }
          have hvm := poll_vm E { d with vm := vm }
          obtain ⟨d1, hd1⟩ : ∃ d1, poll E { d with vm := vm } = (false, d1) := ⟨(poll E { d with vm := vm }).2, by rw [← hqp]⟩
          rw [hd1] at hvm h
          simp only at hvm h
          have := chain_fwd hq code hin n d1 r
            (by rw [hvm]; exact step_pc hlt (hin i (List.mem_of_getElem? hc)) hs) h
          rw [hvm] at this; exact this
        | yield y vm => simp only [Option.some.injEq] at h; subst h; rfl
      | trap e => simp only [hs, Option.some.injEq] at h; subst h; rfl
      | panic => simp only [hs, Option.some.injEq] at h; subst h; rfl
      | ub => simp only [hs, Option.some.injEq] at h; subst h; rfl

theorem chain_bwd {E : Env} (hq : Quiet E) (code : List Instr) (hin : Inside code) : ∀ (n : Nat) (d : DState)
    (o : Res (Option Yield × VM)), d.vm.pc ≤ code.length → plainRun E.H E.P code n d.vm = some o →
    ∃ r, tcoChain E code n d = some r ∧ obsF r = o
  | 0, _, _, _, h => by simp [plainRun] at h
  | n + 1, d, o, hpc, h => by
    rw [plainRun] at h
    rw [tcoChain]
    cases hc : code[d.vm.pc]? with
    | none =>
      have hle := List.getElem?_eq_none_iff.mp hc
      rw [hc] at h
      simp only [Option.some.injEq] at h
      exact ⟨.ok (.halt d), by simp [show d.vm.pc = code.length by omega], by simpa [obsF] using h⟩
    | some i =>
      rw [hc] at h
      simp only at h ⊢
      have hlt := (List.getElem?_eq_some_iff.mp hc).1
      cases hs : step E.H E.P code.length d.vm i with
      | ok ou =>
        rw [hs] at h
        cases ou with
        | cont vm =>
          simp only at h ⊢
          have hqp := quiet_poll hq { d with vm := vm }
          have hvm := poll_vm E { d with vm := vm }
          obtain ⟨d1, hd1⟩ : ∃ d1, poll E { d with vm := vm } = (false, d1) := ⟨(poll E { d with vm := vm }).2, by rw [← hqp]⟩
          rw [hd1] at hvm ⊢
          simp only at hvm ⊢
          exact chain_bwd hq code hin n d1 o
            (by rw [hvm]; exact step_pc hlt (hin i (List.mem_of_getElem? hc)) hs) (by rw [hvm]; exact h)
        | yield y vm => exact ⟨_, rfl, by simpa [obsF] using h⟩
      | trap e => exact ⟨_, rfl, by simpa [obsF, hs] using h⟩
      | panic => exact ⟨_, rfl, by simpa [obsF, hs] using h⟩
      | ub => exact ⟨_, rfl, by simpa [obsF, hs] using h⟩

theorem loop_faithful {E : Env} (hq : Quiet E) : Faithful E (loopD E) where
  mono n code d r h := loop_mono E code n d r h
  fwd n code d r _ h := loop_fwd hq code n d r h
  bwd k code d o _ h := loop_bwd hq code k d o h

theorem tco_faithful {E : Env} (hq : Quiet E) : Faithful E (tcoD E) where
  mono n code d r h := tco_mono E code n d r h
  fwd n code d r hin h := by
    simp only [tcoD, tcoRun] at h
    have hqp := quiet_poll hq d
    have hvm := poll_vm E d
    obtain ⟨d1, hd1⟩ : ∃ d1, poll E d = (false, d1) := ⟨(poll E d).2, by rw [← hqp]⟩
    rw [hd1] at hvm h
    simp only at hvm h
    split at h
    · rename_i hle
      simp only [Option.some.injEq] at h; subst h
      refine ⟨1, ?_⟩
      rw [plainRun, ← hvm, List.getElem?_eq_none_iff.mpr hle]; rfl
    · rename_i hlt
      have := chain_fwd hq code hin n d1 r (by omega) h
      rw [hvm] at this; exact ⟨n, this⟩
  bwd k code d o hin h := by
    simp only [tcoD, tcoRun]
    have hqp := quiet_poll hq d
    have hvm := poll_vm E d
    obtain ⟨d1, hd1⟩ : ∃ d1, poll E d = (false, d1) := ⟨(poll E d).2, by rw [← hqp]⟩
    rw [hd1] at hvm ⊢
    simp only at hvm ⊢
    split
    · rename_i hle
      refine ⟨0, _, rfl, ?_⟩
      cases k with
      | zero => simp [plainRun] at h
      | succ k =>
        rw [plainRun, ← hvm, List.getElem?_eq_none_iff.mpr hle] at h
        simpa [obsF] using h
    · rename_i hlt
      obtain ⟨r, h1, h2⟩ := chain_bwd hq code hin k d1 o (by omega) (by rw [hvm]; exact h)
      exact ⟨k, r, h1, h2⟩

end Verif.Props
