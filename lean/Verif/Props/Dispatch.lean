import Verif.Lemmas.VM
/-
C17: the loop dispatcher and the tail-call dispatcher agree.
-/
namespace Verif.Props
open Verif.Model

theorem poll_vm (E : Env) (d : DState) : (poll E d).2.vm = d.vm := by
  unfold poll
  split
  · rfl
  · split
    · rfl
    · simp only; split
      · rfl
      · split <;> rfl

theorem poll_vm' {E : Env} {d d' : DState} {b : Bool} (h : poll E d = (b, d')) : d'.vm = d.vm := by
  have := poll_vm E d; rw [h] at this; exact this

/-- dispatcher states reachable from `d` by executing instructions (poll not firing, then one instruction) -/
inductive Reaches (E : Env) (code : List Instr) : DState → DState → Prop
  | refl (d) : Reaches E code d d
  | step {d d1 d2 i vm} (h : poll E d = (false, d1)) (hi : code[d1.vm.pc]? = some i)
      (hs : step E.H E.P code.length d1.vm i = .ok (.cont vm)) (hr : Reaches E code { d1 with vm := vm } d2) :
      Reaches E code d d2

/-- execution reaches the end of the body only with the function label left (every block was exited before) -/
def FlatEnd (E : Env) (code : List Instr) (d : DState) : Prop :=
  ∀ d', Reaches E code d d' → d'.vm.pc = code.length → d'.vm.labels.length ≤ 1

theorem tco_to_loop_aux (E : Env) (code : List Instr) (hin : Inside code) (r : Res Final) : ∀ (n : Nat) (d d' : DState),
    poll E d = (false, d') → d.vm.pc ≤ code.length → FlatEnd E code d → tcoChain E code n d' = some r →
    loopRun E code (n + 1) d = some r
  | 0, _, _, _, _, _, h => by simp [tcoChain] at h
  | n + 1, d, d', hp, hpc, hf, h => by
    have hvm := poll_vm' hp
    rw [tcoChain] at h
    rw [loopRun, hp]
    simp only
    cases hc : code[d'.vm.pc]? with
    | none =>
      rw [hc] at h
      simp only at h
      have hlen : d'.vm.pc = code.length := by
        have := List.getElem?_eq_none_iff.mp hc
        rw [hvm] at this ⊢; omega
      rw [if_pos hlen] at h
      have hl := hf d (Reaches.refl d) (by rw [← hvm]; exact hlen)
      rw [← hvm] at hl
      simp only
      match hd : d'.vm.labels, hl with
      | [], _ => exact h
      | [_], _ => exact h
      | _ :: _ :: _, hl => simp [hd] at hl
    | some i =>
      rw [hc] at h
      simp only at h ⊢
      cases hs : step E.H E.P code.length d'.vm i with
      | ok o =>
        rw [hs] at h
        cases o with
        | cont vm =>
          simp only at h ⊢
          have hpc' : vm.pc ≤ code.length := by
            have hlt := (List.getElem?_eq_some_iff.mp hc).1
            exact step_pc hlt (hin i (List.mem_of_getElem? hc)) hs
          cases hq : poll E { d' with vm := vm } with
          | mk b d'' =>
            rw [hq] at h
            cases b with
            | true => rw [loopRun, hq]; exact h
            | false =>
              exact tco_to_loop_aux E code hin r n _ d'' hq hpc'
                (fun x hx => hf x (Reaches.step hp hc hs hx)) h
        | yield y vm => exact h
      | trap e => rw [hs] at h; exact h
      | panic => rw [hs] at h; exact h
      | ub => rw [hs] at h; exact h

theorem loop_to_tco_aux (E : Env) (code : List Instr) (hin : Inside code) (r : Res Final) : ∀ (n : Nat) (d d' : DState),
    poll E d = (false, d') → d.vm.pc ≤ code.length → FlatEnd E code d → loopRun E code n d = some r →
    tcoChain E code n d' = some r
  | 0, _, _, _, _, _, h => by simp [loopRun] at h
  | n + 1, d, d', hp, hpc, hf, h => by
    have hvm := poll_vm' hp
    rw [loopRun, hp] at h
    rw [tcoChain]
    simp only at h
    cases hc : code[d'.vm.pc]? with
    | none =>
      rw [hc] at h
      simp only at h ⊢
      have hlen : d'.vm.pc = code.length := by
        have := List.getElem?_eq_none_iff.mp hc
        rw [hvm] at this ⊢; omega
      rw [if_pos hlen]
      have hl := hf d (Reaches.refl d) (by rw [← hvm]; exact hlen)
      rw [← hvm] at hl
      match hd : d'.vm.labels, hl with
      | [], _ => rw [hd] at h; exact h
      | [_], _ => rw [hd] at h; exact h
      | _ :: _ :: _, hl => simp [hd] at hl
    | some i =>
      rw [hc] at h
      simp only at h ⊢
      cases hs : step E.H E.P code.length d'.vm i with
      | ok o =>
        rw [hs] at h
        cases o with
        | cont vm =>
          simp only at h ⊢
          have hpc' : vm.pc ≤ code.length := by
            have hlt := (List.getElem?_eq_some_iff.mp hc).1
            exact step_pc hlt (hin i (List.mem_of_getElem? hc)) hs
          cases hq : poll E { d' with vm := vm } with
          | mk b d'' =>
            cases b with
            | true =>
              cases n with
              | zero => simp [loopRun] at h
              | succ n => rw [loopRun, hq] at h; exact h
            | false =>
              exact loop_to_tco_aux E code hin r n _ d'' hq hpc'
                (fun x hx => hf x (Reaches.step hp hc hs hx)) h
        | yield y vm => exact h
      | trap e => rw [hs] at h; exact h
      | panic => rw [hs] at h; exact h
      | ub => rw [hs] at h; exact h

/-- **C17**, exact form: for every body whose jumps stay inside it, every state and every schedule of checkpoint
triggers, both dispatchers end in the same way, in the same final state (register file, locals, labels, pc, memory,
poll counter), after the same number of instructions: `n` units of fuel suffice for one iff they (give or take the final
poll) suffice for the other. -/
theorem dispatchers_agree (E : Env) (code : List Instr) (d : DState) (hin : Inside code)
    (hpc : d.vm.pc ≤ code.length) (hf : FlatEnd E code d) (n : Nat) (r : Res Final) :
    (loopRun E code (n + 1) d = some r → tcoRun E code (n + 1) d = some r) ∧
    (tcoRun E code n d = some r → loopRun E code (n + 1) d = some r) := by
  constructor
  · intro h
    unfold tcoRun
    cases hp : poll E d with
    | mk b d' =>
      cases b with
      | true => rw [loopRun, hp] at h; exact h
      | false =>
        simp only
        have hc := loop_to_tco_aux E code hin r (n + 1) d d' hp hpc hf h
        split
        · rename_i hle
          rw [tcoChain, List.getElem?_eq_none_iff.mpr hle] at hc
          have hlen : d'.vm.pc = code.length := by rw [poll_vm' hp] at hle ⊢; omega
          simpa [hlen] using hc
        · exact hc
  · intro h
    unfold tcoRun at h
    cases hp : poll E d with
    | mk b d' =>
      rw [hp] at h
      cases b with
      | true => rw [loopRun, hp]; exact h
      | false =>
        simp only at h
        split at h
        · rename_i hle
          have hlen : d'.vm.pc = code.length := by rw [poll_vm' hp] at hle ⊢; omega
          rw [loopRun, hp]
          simp only [List.getElem?_eq_none_iff.mpr hle]
          have hl := hf d (Reaches.refl d) (by rw [← poll_vm' hp]; exact hlen)
          rw [← poll_vm' hp] at hl
          match hd : d'.vm.labels, hl with
          | [], _ => exact h
          | [_], _ => exact h
          | _ :: _ :: _, hl => simp [hd] at hl
        · exact tco_to_loop_aux E code hin r n d d' hp hpc hf h

end Verif.Props
