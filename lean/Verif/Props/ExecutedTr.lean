import Verif.Model.Executed
import Verif.Props.Untouched
import Verif.Props.UntouchedAsks
/-
C79, groundwork: which instructions an execution executes does not depend on triggers, builds or dispatchers.
-/
namespace Verif.Props
open Verif.Model Verif.Spec Verif.Lemmas

/-- `Tr H P code b l s`: in state `s`, the instructions at the positions `l` come next, and, if `b`, then the body comes to an end -/
inductive Tr (H : FloatHost) (P : Prog) (code : List Instr) : Bool → List Nat → VM → Prop
  | cut (s) : Tr H P code false [] s
  | over {s} (hi : code[s.pc]? = none) : Tr H P code true [] s
  | last {s i} (hi : code[s.pc]? = some i) (hs : ∀ s1, Model.step H P code.length s i ≠ .ok (.cont s1)) : Tr H P code true [s.pc] s
  | step {b l s s1 i} (hi : code[s.pc]? = some i) (hs : Model.step H P code.length s i = .ok (.cont s1)) (k : Tr H P code b l s1) :
      Tr H P code b (s.pc :: l) s

theorem Tr.beyond {H : FloatHost} {P : Prog} {code : List Instr} {s : VM} (hi : code[s.pc]? = none) (b : Bool) : Tr H P code b [] s := by
  cases b
  · exact .cut s
  · exact .over hi

theorem Tr.at_end {H : FloatHost} {P : Prog} {code : List Instr} {b : Bool} {l : List Nat} {s : VM} (h : Tr H P code b l s)
    (hi : code[s.pc]? = none) : l = [] := by
  cases h with
  | cut => rfl
  | over => rfl
  | last hi' => rw [hi] at hi'; cases hi'
  | step hi' => rw [hi] at hi'; cases hi'

theorem Tr.sim {H : FloatHost} {P : Prog} {code : List Instr} {b : Bool} {l : List Nat} {s : VM} (h : Tr H P code b l s) :
    ∀ {t : VM}, VSim s t → Tr H P code b l t := by
  induction h with
  | cut => exact fun _ => .cut _
  | over hi => exact fun hv => .over (by rw [← hv.pc]; exact hi)
  | @last s i hi hs =>
    intro t hv
    rw [hv.pc]
    refine .last (by rw [← hv.pc]; exact hi) fun t1 ht => ?_
    have hst := step_sim H P code.length hv i
    rw [ht] at hst
    generalize hb : Model.step H P code.length s i = a at hst
    cases hst with
    | ok ho => cases ho with | cont => exact hs _ hb
  | @step b l s s1 i hi hs _ ih =>
    intro t hv
    have hst := step_sim H P code.length hv i
    rw [hs] at hst
    generalize hb : Model.step H P code.length t i = a at hst
    cases hst with
    | ok ho =>
      cases ho with
      | cont hv1 => rw [hv.pc]; exact .step (by rw [← hv.pc]; exact hi) hb (ih hv1)

/-- two lists of what comes next: one is the beginning of the other -/
theorem Tr.comparable {H : FloatHost} {P : Prog} {code : List Instr} {b : Bool} {l : List Nat} {s : VM} (h : Tr H P code b l s) :
    ∀ {c : Bool} {j : List Nat}, Tr H P code c j s → (b = false ∧ l <+: j) ∨ (c = false ∧ j <+: l) ∨ l = j := by
  induction h with
  | cut s => exact fun _ => .inl ⟨rfl, List.nil_prefix⟩
  | over hi => intro c j k; exact .inr (.inr (k.at_end hi).symm)
  | @last s i hi hs =>
    intro c j k
    cases k with
    | cut => exact .inr (.inl ⟨rfl, List.nil_prefix⟩)
    | over hi' => rw [hi] at hi'; cases hi'
    | last => exact .inr (.inr rfl)
    | step hi' hs' => rw [hi] at hi'; cases hi'; exact absurd hs' (hs _)
  | @step b l s s1 i hi hs _ ih =>
    intro c j k
    cases k with
    | cut => exact .inr (.inl ⟨rfl, List.nil_prefix⟩)
    | over hi' => rw [hi] at hi'; cases hi'
    | last hi' hs' => rw [hi] at hi'; cases hi'; exact absurd hs (hs' _)
    | step hi' hs' k' =>
      rw [hi] at hi'; cases hi'
      rw [hs] at hs'; cases hs'
      rcases ih k' with ⟨h1, h2⟩ | ⟨h1, h2⟩ | rfl
      · exact .inl ⟨h1, List.cons_prefix_cons.mpr ⟨rfl, h2⟩⟩
      · exact .inr (.inl ⟨h1, List.cons_prefix_cons.mpr ⟨rfl, h2⟩⟩)
      · exact .inr (.inr rfl)

/-- what a dispatcher call notes, according to how it ends -/
def Notes (H : FloatHost) (P : Prog) (code : List Instr) (l : List Nat) (s : VM) : Option (Res Final) → Prop
  | none => Tr H P code false l s
  | some (.ok (.ckpt d)) => ∀ b j, Tr H P code b j d.vm → Tr H P code b (l ++ j) s
  | some _ => Tr H P code true l s

theorem Notes.step {H : FloatHost} {P : Prog} {code : List Instr} {l : List Nat} {s s1 : VM} {i : Instr} {r : Option (Res Final)}
    (hi : code[s.pc]? = some i) (hs : Model.step H P code.length s i = .ok (.cont s1)) (h : Notes H P code l s1 r) :
    Notes H P code (s.pc :: l) s r := by
  unfold Notes at h ⊢
  split at h
  · exact .step hi hs h
  · exact fun b j k => .step hi hs (h b j k)
  · exact .step hi hs h

theorem loop_beyond {E : Env} {code : List Instr} : ∀ (n : Nat) (d : DState), code.length ≤ d.vm.pc →
    loopPcs E code n d = [] ∧ ∀ d', loopRun E code n d = some (.ok (.ckpt d')) → code.length ≤ d'.vm.pc
  | 0, _, _ => ⟨rfl, fun _ h => by simp [loopRun] at h⟩
  | n + 1, d, hd => by
    rw [loopPcs, loopRun]
    generalize hp : poll E d = pd
    obtain ⟨b, d1⟩ := pd
    have hv := poll_vm' hp
    rw [← hv] at hd
    cases b with
    | true => exact ⟨rfl, fun d' h => by cases h; exact hd⟩
    | false =>
      simp only [List.getElem?_eq_none_iff.mpr hd]
      cases hl : d1.vm.labels with
      | nil => exact ⟨rfl, fun _ h => by cases h⟩
      | cons l ls =>
        cases ls with
        | nil => exact ⟨rfl, fun _ h => by cases h⟩
        | cons l2 ls =>
          simp only
          by_cases hc : l.returnIp ≤ d1.vm.pc ∧ l.isLoop = false
          · rw [if_pos hc, if_pos hc]; exact ⟨rfl, fun _ h => by cases h⟩
          · rw [if_neg hc, if_neg hc]
            refine loop_beyond n _ ?_
            simp only
            split
            · omega
            · rename_i hlp
              simp only [Bool.not_eq_true] at hlp
              simp only [hlp, and_true, Nat.not_le] at hc
              omega

theorem loop_notes {E : Env} {code : List Instr} : ∀ (n : Nat) (d : DState),
    Notes E.H E.P code (loopPcs E code n d) d.vm (loopRun E code n d)
  | 0, d => .cut _
  | n + 1, d => by
    by_cases hle : code.length ≤ d.vm.pc
    · obtain ⟨h1, h2⟩ := loop_beyond (E := E) (n + 1) d hle
      have hi := List.getElem?_eq_none_iff.mpr hle
      rw [h1]
      unfold Notes
      split
      · exact .cut _
      · rename_i d' he
        intro b j k
        rw [k.at_end (List.getElem?_eq_none_iff.mpr (h2 d' he))]
        exact .beyond hi b
      · exact .over hi
    · rw [loopPcs, loopRun]
      generalize hp : poll E d = pd
      obtain ⟨b, d1⟩ := pd
      have hv := poll_vm' hp
      rw [← hv] at hle ⊢
      cases b with
      | true => exact fun b j k => k
      | false =>
        cases hi : code[d1.vm.pc]? with
        | none => exact absurd (List.getElem?_eq_none_iff.mp hi) hle
        | some i =>
          have last : (∀ s1, Model.step E.H E.P code.length d1.vm i ≠ .ok (.cont s1)) → Tr E.H E.P code true [d1.vm.pc] d1.vm := .last hi
          simp only [hi]
          cases hs : Model.step E.H E.P code.length d1.vm i with
          | ok o =>
            cases o with
            | cont vm => exact Notes.step hi hs (loop_notes n { d1 with vm := vm })
            | yield y vm => exact last (fun s1 h => by rw [hs] at h; cases h)
          | trap e => exact last (fun s1 h => by rw [hs] at h; cases h)
          | panic => exact last (fun s1 h => by rw [hs] at h; cases h)
          | ub => exact last (fun s1 h => by rw [hs] at h; cases h)

theorem chain_notes {E : Env} {code : List Instr} : ∀ (n : Nat) (d : DState),
    Notes E.H E.P code (chainPcs E code n d) d.vm (tcoChain E code n d)
  | 0, d => .cut _
  | n + 1, d => by
    rw [chainPcs, tcoChain]
    cases hi : code[d.vm.pc]? with
    | none =>
      have over : Tr E.H E.P code true [] d.vm := .over hi
      simp only [hi]
      split
      · exact over
      · exact over
    | some i =>
      have last : (∀ s1, Model.step E.H E.P code.length d.vm i ≠ .ok (.cont s1)) → Tr E.H E.P code true [d.vm.pc] d.vm := .last hi
      simp only [hi]
      cases hs : Model.step E.H E.P code.length d.vm i with
      | ok o =>
        cases o with
        | cont vm =>
          simp only
          generalize hp : poll E { d with vm := vm } = pd
          obtain ⟨b, d1⟩ := pd
          have hv : d1.vm = vm := poll_vm' hp
          cases b with
          | true => exact fun b j k => Tr.step hi hs (by rw [← hv]; exact k)
          | false => exact Notes.step hi hs (by rw [← hv]; exact chain_notes n d1)
        | yield y vm => exact last (fun s1 h => by rw [hs] at h; cases h)
      | trap e => exact last (fun s1 h => by rw [hs] at h; cases h)
      | panic => exact last (fun s1 h => by rw [hs] at h; cases h)
      | ub => exact last (fun s1 h => by rw [hs] at h; cases h)

/-- a dispatcher and the list of what it executes -/
inductive IsDT (E : Env) : Dispatcher → Tracer → Prop
  | loop : IsDT E (loopD E) (fun n c d => loopPcs E c n d)
  | tco : IsDT E (tcoD E) (fun n c d => tcoPcs E c n d)

theorem IsDT.isD {E : Env} {D : Dispatcher} {T : Tracer} (h : IsDT E D T) : IsD E D := by
  cases h
  · exact .loop
  · exact .tco

theorem disp_notes {E : Env} {D : Dispatcher} {T : Tracer} (h : IsDT E D T) (n : Nat) (code : List Instr) (d : DState) :
    Notes E.H E.P code (T n code d) d.vm (D n code d) := by
  cases h with
  | loop => exact loop_notes n d
  | tco =>
    simp only [tcoD, tcoRun, tcoPcs]
    generalize hp : poll E d = pd
    obtain ⟨b, d1⟩ := pd
    have hv := poll_vm' hp
    rw [← hv]
    cases b with
    | true => exact fun b j k => k
    | false =>
      simp only
      split
      · rename_i hle
        exact Tr.over (List.getElem?_eq_none_iff.mpr hle)
      · exact chain_notes n d1

end Verif.Props
