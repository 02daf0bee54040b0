import Verif.Props.Session
/-
C77, groundwork: the points at which an execution can be stopped do not depend on triggers, builds or earlier stops.
-/
namespace Verif.Props
open Verif.Model Verif.Spec Verif.Lemmas

/-- iterations of the interpreter loop -/
inductive Ticks (H : FloatHost) (P : Prog) (code : List Instr) : Nat → VM → VM → Prop
  | refl (s) : Ticks H P code 0 s s
  | step {n s s1 s2 i} (hi : code[s.pc]? = some i) (hs : Model.step H P code.length s i = .ok (.cont s1)) (k : Ticks H P code n s1 s2) :
      Ticks H P code (n + 1) s s2
  | pop {n s s2 l l2 rest} (hi : code[s.pc]? = none) (hl : s.labels = l :: l2 :: rest)
      (hc : ¬ (l.returnIp ≤ s.pc ∧ l.isLoop = false))
      (k : Ticks H P code n { s with labels := l2 :: rest, pc := if l.isLoop then s.pc + 1 else l.returnIp } s2) :
      Ticks H P code (n + 1) s s2

theorem Ticks.trans {H : FloatHost} {P : Prog} {code : List Instr} {n k : Nat} {s s1 s2 : VM} (h : Ticks H P code n s s1)
    (g : Ticks H P code k s1 s2) : ∃ j, Ticks H P code j s s2 := by
  induction h with
  | refl => exact ⟨_, g⟩
  | step hi hs _ ih => obtain ⟨j, hj⟩ := ih g; exact ⟨_, .step hi hs hj⟩
  | pop hi hl hc _ ih => obtain ⟨j, hj⟩ := ih g; exact ⟨_, .pop hi hl hc hj⟩

theorem Ticks.plain {E : Env} {code : List Instr} {n : Nat} {s s' : VM} (h : Ticks E.H E.P code n s s')
    (o : Res (Option Yield × VM)) : PlainTo E code s o ↔ PlainTo E code s' o := by
  induction h with
  | refl => exact Iff.rfl
  | step hi hs _ ih => exact (plainTo_step hi hs o).trans ih
  | @pop n s s2 l l2 rest hi hl hc _ ih =>
    refine Iff.trans ?_ ih
    rw [plainTo_end hi, plainTo_end]
    have hle := List.getElem?_eq_none_iff.mp hi
    apply List.getElem?_eq_none_iff.mpr
    simp only
    split
    · omega
    · rename_i hlp
      simp only [Bool.not_eq_true] at hlp
      simp only [hlp, and_true, Nat.not_le] at hc
      omega

theorem Ticks.labelled {H : FloatHost} {P : Prog} {code : List Instr} {n : Nat} {s s' : VM} (h : Ticks H P code n s s')
    (hl : s.labels ≠ []) : s'.labels ≠ [] := by
  induction h with
  | refl => exact hl
  | step hi hs _ ih => exact ih (step_labels hs hl)
  | pop hi hl hc _ ih => exact ih (by simp)

theorem Ticks.sim {H : FloatHost} {P : Prog} {code : List Instr} {n : Nat} {s s' : VM} (h : Ticks H P code n s s') :
    ∀ {t : VM}, VSim s t → ∃ t', Ticks H P code n t t' ∧ VSim s' t' := by
  induction h with
  | refl => exact fun hv => ⟨_, .refl _, hv⟩
  | @step n s s1 s2 i hi hs _ ih =>
    intro t hv
    have hst := step_sim H P code.length hv i
    rw [hs] at hst
    generalize hb : Model.step H P code.length t i = b at hst
    cases hst with
    | ok ho =>
      cases ho with
      | cont hv1 =>
        obtain ⟨t', h1, h2⟩ := ih hv1
        exact ⟨t', .step (by rw [← hv.pc]; exact hi) hb h1, h2⟩
  | @pop n s s2 l l2 rest hi hl hc _ ih =>
    intro t hv
    have hlab := hv.labels
    rw [hl] at hlab
    cases ht : t.labels with
    | nil => rw [ht] at hlab; simp at hlab
    | cons a as =>
      cases as with
      | nil => rw [ht] at hlab; simp at hlab
      | cons b bs =>
        rw [ht] at hlab
        simp only [List.map_cons, List.cons.injEq, Label.noIp, Label.mk.injEq] at hlab
        obtain ⟨⟨e1, e2, -⟩, ⟨e3, e4, -⟩, e5⟩ := hlab
        obtain ⟨t', h1, h2⟩ := ih (t := { t with labels := b :: bs, pc := if a.isLoop then t.pc + 1 else a.returnIp }) (by
          rw [← e1, ← e2, ← hv.pc]
          refine VSim.setLabels hv ?_ _
          simp only [List.map_cons, Label.noIp, e3, e4]
          rw [e5])
        refine ⟨t', .pop (by rw [← hv.pc]; exact hi) ht (by rw [← e1, ← e2, ← hv.pc]; exact hc) h1, h2⟩

/-! ### wherever a dispatcher stops for a checkpoint, the loop can stop -/

theorem loop_ticks {E : Env} {code : List Instr} : ∀ (n : Nat) (d d' : DState),
    loopRun E code n d = some (.ok (.ckpt d')) → ∃ k, Ticks E.H E.P code k d.vm d'.vm
  | 0, _, _, h => by simp [loopRun] at h
  | n + 1, d, d', h => by
    rw [loopRun] at h
    split at h
    · rename_i d1 hd; cases h; exact ⟨0, by rw [poll_vm' hd]; exact .refl _⟩
    · rename_i d1 hd
      rw [← poll_vm' hd]
      split at h
      · rename_i hi
        split at h
        · rename_i l l2 rest hl
          split at h
          · cases h
          · rename_i hc
            obtain ⟨k, hk⟩ := loop_ticks n _ d' h
            exact ⟨k + 1, .pop hi hl hc hk⟩
        · cases h
      · rename_i i hi
        split at h
        · rename_i vm hs
          obtain ⟨k, hk⟩ := loop_ticks n _ d' h
          exact ⟨k + 1, .step hi hs hk⟩
        · cases h
        · cases h
        · cases h
        · cases h

theorem chain_ticks {E : Env} {code : List Instr} : ∀ (n : Nat) (d d' : DState),
    tcoChain E code n d = some (.ok (.ckpt d')) → ∃ k, Ticks E.H E.P code k d.vm d'.vm
  | 0, _, _, h => by simp [tcoChain] at h
  | n + 1, d, d', h => by
    rw [tcoChain] at h
    split at h
    · split at h
      · cases h
      · cases h
    · rename_i i hi
      split at h
      · rename_i vm hs
        split at h
        · rename_i d1 hd; cases h
          exact ⟨1, .step hi hs (by rw [poll_vm' hd]; exact .refl _)⟩
        · rename_i d1 hd
          obtain ⟨k, hk⟩ := chain_ticks n d1 d' h
          rw [poll_vm' hd] at hk
          exact ⟨k + 1, .step hi hs hk⟩
      · cases h
      · cases h
      · cases h
      · cases h

theorem disp_ticks {E : Env} {D : Dispatcher} (hD : IsD E D) {code : List Instr} {n : Nat} {d d' : DState}
    (h : D n code d = some (.ok (.ckpt d'))) : ∃ k, Ticks E.H E.P code k d.vm d'.vm := by
  cases hD with
  | loop => exact loop_ticks n d d' h
  | tco =>
    simp only [tcoD, tcoRun] at h
    split at h
    · rename_i d1 hd; cases h; exact ⟨0, by rw [poll_vm' hd]; exact .refl _⟩
    · rename_i d1 hd
      split at h
      · cases h
      · obtain ⟨k, hk⟩ := chain_ticks n d1 d' h
        rw [poll_vm' hd] at hk
        exact ⟨k, hk⟩

theorem poll_false {H : FloatHost} {trig : Nat → Bool} {P : Prog} {w : Bool} {d : DState} (he : d.enable = true)
    (ht : trig d.looks = false) : poll (envOf H true trig P w) d = (false, { d with looks := d.looks + 1 }) := by
  simp [poll, he, envOf, ht]

theorem poll_true {H : FloatHost} {trig : Nat → Bool} {P : Prog} {w : Bool} {d : DState} (he : d.enable = true)
    (ht : trig d.looks = true) : poll (envOf H true trig P w) d = (true, { d with looks := d.looks + 1 }) := by
  simp [poll, he, envOf, ht]

/-- a trigger raised at the right moment stops the loop after so many iterations -/
theorem Ticks.stops {H : FloatHost} {P : Prog} {w : Bool} {code : List Instr} {n : Nat} {s s2 : VM} (h : Ticks H P code n s s2)
    {trig : Nat → Bool} : ∀ {d : DState}, d.vm = s → d.enable = true → (∀ j, d.looks ≤ j → j < d.looks + n → trig j = false) →
    trig (d.looks + n) = true →
    ∃ d2, loopRun (envOf H true trig P w) code (n + 1) d = some (.ok (.ckpt d2)) ∧ d2.vm = s2 := by
  induction h with
  | refl s =>
    intro d hd he _ ht
    refine ⟨{ d with looks := d.looks + 1 }, ?_, hd⟩
    rw [loopRun, poll_true he ht]
  | @step n s s1 s2 i hi hs _ ih =>
    intro d hd he hf ht
    subst hd
    obtain ⟨d2, h1, h2⟩ := ih (d := { d with looks := d.looks + 1, vm := s1 }) rfl he
      (fun j a b => hf j (by simp only at a; omega) (by simp only at b; omega)) (by simp only; rw [Nat.add_assoc, Nat.add_comm 1]; exact ht)
    refine ⟨d2, ?_, h2⟩
    rw [loopRun, poll_false he (hf _ (Nat.le_refl _) (by omega))]
    simp only [hi]
    rw [show Model.step (envOf H true trig P w).H (envOf H true trig P w).P code.length d.vm i = .ok (.cont s1) from hs]
    exact h1
  | @pop n s s2 l l2 rest hi hl hc _ ih =>
    intro d hd he hf ht
    subst hd
    obtain ⟨d2, h1, h2⟩ := ih (d := { d with
        looks := d.looks + 1, vm := { d.vm with labels := l2 :: rest, pc := if l.isLoop then d.vm.pc + 1 else l.returnIp } }) rfl he
      (fun j a b => hf j (by simp only at a; omega) (by simp only at b; omega)) (by simp only; rw [Nat.add_assoc, Nat.add_comm 1]; exact ht)
    refine ⟨d2, ?_, h2⟩
    rw [loopRun, poll_false he (hf _ (Nat.le_refl _) (by omega))]
    simp only [hi, hl]
    rw [if_neg hc]
    exact h1

/-- until a trigger is raised, the loop goes as it goes without any -/
theorem loop_until {H : FloatHost} {P : Prog} {w : Bool} {code : List Instr} {trig : Nat → Bool} : ∀ (n : Nat) (d : DState) (fin : Final),
    d.enable = true → loopRun (envOf H true never P w) code n d = some (.ok fin) →
    d.looks ≤ fin.d.looks ∧
    ((∀ j, d.looks ≤ j → j < fin.d.looks → trig j = false) → loopRun (envOf H true trig P w) code n d = some (.ok fin))
  | 0, _, _, _, h => by simp [loopRun] at h
  | n + 1, d, fin, he, h => by
    rw [loopRun, poll_false he rfl] at h
    simp only at h
    rw [loopRun]
    split at h
    · rename_i hi
      split at h
      · rename_i l l2 rest hl
        split at h
        · rename_i hc
          cases h
          refine ⟨by simp only [Final.d]; omega, fun hf => ?_⟩
          rw [poll_false he (hf _ (Nat.le_refl _) (by simp only [Final.d]; omega))]
          simp only [hi, hl]
          rw [if_pos hc]
        · rename_i hc
          obtain ⟨h1, h2⟩ := loop_until (trig := trig) n _ fin (by exact he) h
          simp only at h1 h2
          refine ⟨by omega, fun hf => ?_⟩
          rw [poll_false he (hf _ (Nat.le_refl _) (by omega))]
          simp only [hi, hl]
          rw [if_neg hc]
          exact h2 fun j a b => hf j (by omega) b
      · rename_i hl
        cases h
        refine ⟨by simp only [Final.d]; omega, fun hf => ?_⟩
        rw [poll_false he (hf _ (Nat.le_refl _) (by simp only [Final.d]; omega))]
        simp only [hi]
    · rename_i i hi
      split at h
      · rename_i vm hs
        obtain ⟨h1, h2⟩ := loop_until (trig := trig) n _ fin (by exact he) h
        simp only at h1 h2
        refine ⟨by omega, fun hf => ?_⟩
        rw [poll_false he (hf _ (Nat.le_refl _) (by omega))]
        simp only [hi]
        rw [show Model.step (envOf H true trig P w).H (envOf H true trig P w).P code.length d.vm i = .ok (.cont vm) from hs]
        exact h2 fun j a b => hf j (by omega) b
      · rename_i y vm hs
        cases h
        refine ⟨by simp only [Final.d]; omega, fun hf => ?_⟩
        rw [poll_false he (hf _ (Nat.le_refl _) (by simp only [Final.d]; omega))]
        simp only [hi]
        rw [show Model.step (envOf H true trig P w).H (envOf H true trig P w).P code.length d.vm i = .ok (.yield y vm) from hs]
      · cases h
      · cases h
      · cases h

end Verif.Props
