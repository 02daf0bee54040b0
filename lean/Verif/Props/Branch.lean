import Verif.Lemmas.CompPos
import Verif.Props.Programs
/-
C18: where branches lead, and the label stack after them.
-/
namespace Verif.Props
open Verif.Model Verif.Lemmas Verif.Spec

/-- **C18**, first half: whatever operators a body consists of, if the preprocessor accepts it then the targets it computes
are those WebAssembly designates — for `br` and `br_if` without exception, for `br_table` except for entries naming the
function's own label, for both arms of `if`. -/
theorem branch_targets_partial {K : FnCtx} {ops : List WOp} {code : Code} (h : compileFn K ops = some code) : Routed code.body :=
  compile_routed h

theorem enclosing_lt (code : List Instr) : ∀ p, ∀ s ∈ enclosing code p, s < p
  | 0, s, h => by simp [enclosing] at h
  | p + 1, s, h => by
    have ih := enclosing_lt code p
    rw [enclosing] at h
    split at h
    · rcases List.mem_cons.1 h with rfl | h
      · omega
      · have := ih s h; omega
    · rcases List.mem_cons.1 h with rfl | h
      · omega
      · have := ih s h; omega
    · have := ih s (List.mem_of_mem_tail h); omega
    · have := ih s h; omega

theorem enclosing_drop (code : List Instr) : ∀ p (d : Nat) (s : Nat), (enclosing code p)[d]? = some s →
    enclosing code s = (enclosing code p).drop (d + 1)
  | 0, d, s, h => by simp [enclosing] at h
  | p + 1, d, s, h => by
    have ih := enclosing_drop code p
    have push : (p :: enclosing code p)[d]? = some s → enclosing code s = (p :: enclosing code p).drop (d + 1) := by
      intro h
      cases d with
      | zero => simp only [List.getElem?_cons_zero, Option.some.injEq] at h; subst h; simp
      | succ d => simp only [List.getElem?_cons_succ] at h; simpa using ih d s h
    rw [enclosing] at h ⊢
    split at h
    · exact push h
    · exact push h
    · rw [List.getElem?_tail] at h
      rw [ih (d + 1) s h, List.drop_tail]
    · exact ih d s h

/-- how a bracket that was open ceases to be: some `end` in between closed it -/
theorem enclosing_gone (code : List Instr) (s : Nat) : ∀ n p, s ∈ enclosing code p → s ∉ enclosing code (p + n) →
    ∃ e, p ≤ e ∧ e < p + n ∧ Closes code s e
  | 0, p, h1, h2 => absurd h1 h2
  | n + 1, p, h1, h2 => by
    by_cases h : s ∈ enclosing code (p + n)
    · rw [show p + (n + 1) = (p + n) + 1 from rfl, enclosing] at h2
      split at h2
      · exact absurd (List.mem_cons_of_mem _ h) h2
      · exact absurd (List.mem_cons_of_mem _ h) h2
      · rename_i a b hh
        refine ⟨p + n, by omega, by omega, ⟨_, _, hh⟩, ?_⟩
        cases he : enclosing code (p + n) with
        | nil => rw [he] at h; cases h
        | cons x xs =>
          rw [he] at h h2
          rcases List.mem_cons.1 h with rfl | h
          · rfl
          · exact absurd h h2
      · exact absurd h h2
    · obtain ⟨e, h3, h4, h5⟩ := enclosing_gone code s n p h1 h
      exact ⟨e, h3, by omega, h5⟩

theorem enclosing_nodup (code : List Instr) : ∀ p, (enclosing code p).Nodup
  | 0 => by simp [enclosing]
  | p + 1 => by
    have ih := enclosing_nodup code p
    have hn : p ∉ enclosing code p := fun h => by have := enclosing_lt code p p h; omega
    rw [enclosing]
    split
    · exact List.nodup_cons.2 ⟨hn, ih⟩
    · exact List.nodup_cons.2 ⟨hn, ih⟩
    · exact ih.sublist (List.tail_sublist _)
    · exact ih

/-- once closed, a bracket is not open again -/
theorem closed_stays (code : List Instr) {s e : Nat} (h : Closes code s e) : ∀ n, s ∉ enclosing code (e + 1 + n)
  | 0 => by
    obtain ⟨⟨a, b, h1⟩, h2⟩ := h
    have := enclosing_nodup code e
    rw [Nat.add_zero, enclosing, h1]
    cases he : enclosing code e with
    | nil => rw [he] at h2; cases h2
    | cons x xs =>
      rw [he] at h2 this
      cases h2
      exact (List.nodup_cons.1 this).1
  | n + 1 => by
    have ih := closed_stays code h n
    have hlt : s < e := enclosing_lt code e s (List.mem_of_mem_head? h.2)
    rw [show e + 1 + (n + 1) = (e + 1 + n) + 1 from rfl, enclosing]
    split
    · simp only [List.mem_cons, not_or]; exact ⟨by omega, ih⟩
    · simp only [List.mem_cons, not_or]; exact ⟨by omega, ih⟩
    · exact fun hh => ih (List.mem_of_mem_tail hh)
    · exact ih

/-- the `end` of a bracket is unique -/
theorem closes_unique {code : List Instr} {s e e' : Nat} (h : Closes code s e) (h' : Closes code s e') : e = e' := by
  have aux : ∀ a b, Closes code s a → Closes code s b → ¬ a < b := by
    intro a b ha hb hlt
    have := closed_stays code ha (b - (a + 1))
    rw [show a + 1 + (b - (a + 1)) = b by omega] at this
    exact this (List.mem_of_mem_head? hb.2)
  have h1 := aux e e' h h'
  have h2 := aux e' e h' h
  omega

/-- so the target of a branch is determined by the body, its position and its depth -/
theorem leads_unique {code : List Instr} {p d t t' : Nat} (h : Leads code p d t) (h' : Leads code p d t') : t = t' := by
  unfold Leads at h h'
  split at h
  · rename_i s hs
    rw [hs] at h'
    simp only at h'
    rcases h with ⟨h1, rfl⟩ | ⟨h1, e, h2, rfl⟩ <;> rcases h' with ⟨h3, rfl⟩ | ⟨h3, e', h4, rfl⟩
    · rfl
    · exact absurd h1 h3
    · exact absurd h3 h1
    · rw [closes_unique h2 h4]
  · rename_i hs
    rw [hs] at h'
    simp only at h'
    rw [h, h']

/-! ## labels -/

theorem labelsAt_length {code : List Instr} {p : Nat} {ls : List Label} (h : LabelsAt code p ls) :
    ls.length = (enclosing code p).length + 1 := by
  have := congrArg List.length h
  simpa using this

theorem labelsAt_tail {code : List Instr} {p p' : Nat} {ls : List Label} (h : LabelsAt code p ls) (h1 : 1 < ls.length)
    (h2 : enclosing code p' = (enclosing code p).tail) : LabelsAt code p' ls.tail := by
  unfold LabelsAt at *
  have hl := labelsAt_length h
  rw [List.map_tail, h, h2, List.map_tail]
  cases he : enclosing code p with
  | nil => rw [he] at hl; simp at hl; omega
  | cons x xs => simp

theorem labelsAt_cut {code : List Instr} {p p' d : Nat} {ls : List Label} (h : LabelsAt code p ls)
    (h2 : enclosing code p' = (enclosing code p).drop (d + 1)) : LabelsAt code p' (cut d ls) := by
  have hl := labelsAt_length h
  unfold LabelsAt at *
  rw [Model.cut, List.map_drop, h, h2, List.map_drop, hl]
  by_cases hd : d + 1 ≤ (enclosing code p).length
  · have e1 : (enclosing code p).length + 1 - max ((enclosing code p).length + 1 - 1 - d) 1 = d + 1 := by omega
    rw [e1, List.drop_append_of_le_length (by simpa using hd)]
  · have e1 : (enclosing code p).length + 1 - max ((enclosing code p).length + 1 - 1 - d) 1 = (enclosing code p).length := by omega
    rw [e1, List.drop_eq_nil_of_le (as := (enclosing code p).map _) (by simp; omega)]
    simp

theorem closes_after {code : List Instr} {s e : Nat} (h : Closes code s e) : enclosing code (e + 1) = enclosing code s := by
  obtain ⟨⟨a, b, h1⟩, h2⟩ := h
  have := enclosing_drop code e 0 s (by rw [← List.head?_eq_getElem?]; exact h2)
  rw [this, enclosing, h1]
  simp

theorem leads_enclosing {code : List Instr} (hstop : enclosing code code.length = []) {p d t : Nat} (h : Leads code p d t) :
    enclosing code t = (enclosing code p).drop (d + 1) := by
  unfold Leads at h
  split at h
  · rename_i s hs
    rw [← enclosing_drop code p d s hs]
    rcases h with ⟨_, rfl⟩ | ⟨_, e, h2, rfl⟩
    · rfl
    · exact closes_after h2
  · rename_i hs
    rw [h, hstop, List.drop_eq_nil_of_le]
    have := List.getElem?_eq_none_iff.1 hs
    omega

/-- one instruction keeps the label stack right, wherever it continues -/
theorem labels_flow {code : List Instr} (hr : Routed code) {p : Nat} {i : Instr} (hi : code[p]? = some i) {ls : List Label}
    (hl : LabelsAt code p ls) : ∀ q ∈ flow code.length p ls i, LabelsAt code q.1 q.2 := by
  intro q hq
  have hlen := labelsAt_length hl
  have same : enclosing code (p + 1) = enclosing code p → LabelsAt code (p + 1) ls := by
    intro h; unfold LabelsAt at *; rw [hl, h]
  have push : ∀ (l : Label), enclosing code (p + 1) = p :: enclosing code p → labelOf code p = (l.isLoop, l.returnIp) →
      LabelsAt code (p + 1) (l :: ls) := by
    intro l h1 h2
    unfold LabelsAt at *
    rw [List.map_cons, hl, h1, List.map_cons, h2]
    rfl
  cases hci : i with
  | jump t =>
    subst hci
    simp only [flow, List.mem_singleton] at hq
    subst hq
    obtain ⟨s, e, h1, h2, rfl⟩ := hr.jump p t hi
    have hne : 1 < ls.length := by
      rw [hlen]
      cases he : enclosing code p with
      | nil => have := h1.2; rw [he] at this; cases this
      | cons x xs => simp
    simp only [if_pos hne]
    refine labelsAt_tail hl hne ?_
    rw [closes_after h2, enclosing_drop code p 0 s (by rw [← List.head?_eq_getElem?]; exact h1.2)]
    simp
  | block l =>
    subst hci
    simp only [flow, List.mem_singleton] at hq
    subst hq
    exact push _ (by rw [enclosing, hi]) (by rw [labelOf, hi])
  | ite c t h =>
    subst hci
    obtain ⟨e, h1, h2⟩ := hr.ite p c t h hi
    simp only [flow, List.mem_cons, List.not_mem_nil, or_false] at hq
    rcases hq with rfl | rfl
    · exact push _ (by rw [enclosing, hi]) (by rw [labelOf, hi])
    · rcases h2 with ⟨q, h3, rfl, rfl⟩ | ⟨_, rfl, rfl⟩
      · simp only [if_true]
        have e1 : enclosing code (q + 1) = p :: enclosing code p := by
          obtain ⟨⟨t', h4⟩, h5⟩ := h3
          have h6 := enclosing_drop code q 0 p (by rw [← List.head?_eq_getElem?]; exact h5)
          rw [enclosing, h4]
          cases he : enclosing code q with
          | nil => rw [he] at h5; cases h5
          | cons x xs =>
            rw [he] at h5 h6
            cases h5
            rw [h6]
            simp
        unfold LabelsAt at *
        rw [List.map_cons, hl, e1, List.map_cons]
        simp only [labelOf, hi, List.cons_append]
      · simp only [Bool.false_eq_true, if_false]
        unfold LabelsAt at *
        rw [hl, closes_after h1]
  | fin a b =>
    subst hci
    have e1 : enclosing code (p + 1) = (enclosing code p).tail := by rw [enclosing, hi]
    have hp : p < code.length := (List.getElem?_eq_some_iff.1 hi).1
    have h0 : ∀ ls' : List Label, LabelsAt code (p + 1) ls' → ls'.length = 1 → LabelsAt code code.length ls' := by
      intro ls' h1 h2
      have := labelsAt_length h1
      unfold LabelsAt at *
      rw [h1, hr.stop, List.length_eq_zero_iff.1 (show (enclosing code (p + 1)).length = 0 by omega)]
    simp only [flow] at hq
    split at hq
    · rename_i h1
      simp only [List.mem_singleton] at hq
      subst hq
      have h2 : enclosing code p = [] := List.length_eq_zero_iff.1 (by omega)
      refine h0 ls ?_ (by omega)
      exact same (by rw [e1, h2]; rfl)
    · rename_i h1
      have h2 := labelsAt_tail hl (p' := p + 1) (by omega) e1
      split at hq
      · rename_i h3
        simp only [List.mem_singleton] at hq
        subst hq
        exact h0 _ h2 h3.2
      · simp only [List.mem_singleton] at hq
        subst hq
        exact h2
  | br d t s r =>
    subst hci
    simp only [flow, List.mem_singleton] at hq
    subst hq
    exact labelsAt_cut hl (leads_enclosing hr.stop (hr.br p d t s r hi))
  | brIf d t c s r =>
    subst hci
    simp only [flow, List.mem_cons, List.not_mem_nil, or_false] at hq
    rcases hq with rfl | rfl
    · exact same (by rw [enclosing, hi])
    · exact labelsAt_cut hl (leads_enclosing hr.stop (hr.brIf p d t c s r hi))
  | brTable ts df i0 s =>
    subst hci
    have key : ∀ x ∈ df :: ts, LabelsAt code x.2.1 (Model.cut x.1 ls) := by
      intro x hx
      have := hr.table p ts df i0 s hi x hx
      split at this
      · exact labelsAt_cut hl (leads_enclosing hr.stop this)
      · refine labelsAt_cut hl ?_
        rw [this, List.drop_eq_nil_of_le (by omega)]
        rfl
    simp only [flow, List.mem_cons, List.mem_map] at hq
    rcases hq with rfl | ⟨x, hx, rfl⟩
    · exact key _ List.mem_cons_self
    · exact key _ (List.mem_cons_of_mem _ hx)
  | _ =>
    subst hci
    first
    | (simp only [flow, List.not_mem_nil] at hq; done)
    | (simp only [flow, List.mem_singleton] at hq
       subst hq
       exact same (by rw [enclosing, hi]))

/-- **C18**, second half, for one dispatcher call: at every instruction it executes, the label stack has exactly the labels
of the brackets around that instruction, innermost first, and the function's own label. -/
theorem labels_enclose {E : Env} {code : List Instr} (hr : Routed code) {d d' : DState} (h : Reaches E code d d')
    (h0 : LabelsAt code d.vm.pc d.vm.labels) : LabelsAt code d'.vm.pc d'.vm.labels := by
  induction h with
  | refl => exact h0
  | step hp hi hs _ ih =>
    apply ih
    have hvm := poll_vm' hp
    rw [← hvm] at h0
    exact labels_flow hr hi h0 _ (step_flow hs)

/-! ## whole runs -/

/-- what a dispatcher call leaves behind -/
theorem loop_labels {E : Env} {code : List Instr} (hin : Inside code) (hr : Routed code) : ∀ (n : Nat) (d : DState) (fin : Final),
    d.vm.pc ≤ code.length → LabelsAt code d.vm.pc d.vm.labels → loopRun E code n d = some (.ok fin) →
    (∃ d0, fin = .ckpt d0 ∧ d0.vm.pc ≤ code.length ∧ LabelsAt code d0.vm.pc d0.vm.labels) ∨
    (∃ y d0, fin = .yield y d0 ∧ (y = .ret ∨ (d0.vm.pc ≤ code.length ∧ LabelsAt code d0.vm.pc d0.vm.labels))) ∨
    (∃ d0, fin = .halt d0)
  | 0, _, _, _, _, h => by simp [loopRun] at h
  | n + 1, d, fin, hpc, hl, h => by
    rw [loopRun] at h
    cases hp : poll E d with
    | mk b d1 =>
      rw [hp] at h
      have hvm := poll_vm' hp
      rw [← hvm] at hl hpc
      cases b with
      | true =>
        simp only [Option.some.injEq, Res.ok_inj] at h
        exact .inl ⟨d1, h.symm, hpc, hl⟩
      | false =>
        simp only at h
        cases hc : code[d1.vm.pc]? with
        | none =>
          rw [hc] at h
          simp only at h
          have hlen : d1.vm.pc = code.length := by
            have := List.getElem?_eq_none_iff.mp hc
            omega
          have hl1 := labelsAt_length hl
          rw [hlen, hr.stop] at hl1
          match hd : d1.vm.labels, hl1 with
          | [_], _ =>
            rw [hd] at h
            simp only [Option.some.injEq, Res.ok_inj] at h
            exact .inr (.inr ⟨_, h.symm⟩)
        | some i =>
          rw [hc] at h
          simp only at h
          have hlt := (List.getElem?_eq_some_iff.mp hc).1
          cases hst : step E.H E.P code.length d1.vm i with
          | ok o =>
            rw [hst] at h
            cases o with
            | cont vm =>
              simp only at h
              exact loop_labels hin hr n _ fin (step_pc hlt (hin i (List.mem_of_getElem? hc)) hst)
                (labels_flow hr hc hl _ (step_flow hst)) h
            | yield y' vm =>
              simp only [Option.some.injEq, Res.ok_inj] at h
              subst h
              refine .inr (.inl ⟨y', _, rfl, ?_⟩)
              rcases step_yield hst with h | ⟨h1, h2, h3⟩
              · exact .inl h
              · refine .inr ⟨by simp only [h2]; omega, ?_⟩
                have : enclosing code (d1.vm.pc + 1) = enclosing code d1.vm.pc := by
                  rw [enclosing, hc]
                  cases i <;> simp only [isCall, Bool.false_eq_true] at h1 <;> rfl
                simp only [h2, h3]
                unfold LabelsAt at *
                rw [hl, this]
          | trap e => rw [hst] at h; cases h
          | panic => rw [hst] at h; cases h
          | ub => rw [hst] at h; cases h

/-- a frame stands inside its body with the right labels -/
structure FrameLabels (P : Prog) (f : Frame) : Prop where
  pc : f.at ≤ (P.body f.func).length
  labels : LabelsAt (P.body f.func) f.at f.labels

/-- every function's branches are right -/
def RoutedP (P : Prog) : Prop := ∀ f, Routed (P.body f)

theorem Preprocessed.routed {P : Prog} (h : Preprocessed P) : RoutedP P := by
  intro f
  unfold Prog.body
  split
  · rename_i t code hf
    obtain ⟨K, ops, hc⟩ := h f t code hf
    exact compile_routed hc
  · constructor <;> simp [enclosing]

theorem FrameLabels.leave {P : Prog} {f : Frame} {d : DState}
    (h1 : d.vm.pc ≤ (P.body f.func).length) (h2 : LabelsAt (P.body f.func) d.vm.pc d.vm.labels) (rs : List Reg) :
    FrameLabels P { f with
      locals := d.vm.locals
      labels := match d.vm.labels with | [] => [] | l :: ls => { l with ip := d.vm.pc } :: ls
      resultRegs := rs
      retRegs := d.vm.retRegs
      memPtr := d.vm.memPtr } := by
  match hd : d.vm.labels with
  | [] => rw [hd] at h2; have := labelsAt_length h2; simp at this
  | l :: ls =>
    rw [hd] at h2
    exact ⟨h1, h2⟩

/-- the machine after a round, if it goes on -/
def RoundLabels {S : Wasi} (P : Prog) : Round S → Prop
  | .running m' | .ckpt m' => ∀ f ∈ m'.frames, FrameLabels P f
  | .done _ _ => True

theorem round_labels {S : Wasi} {E : Env} (hin : InsideP E.P) (hr : RoutedP E.P) {en : Bool} {n : Nat} {m : Machine S}
    (hm : ∀ f ∈ m.frames, FrameLabels E.P f) {R : Round S} (h : m.round E (loopD E) en n = some (.ok R)) :
    RoundLabels E.P R := by
  rcases round_inv .loop h with ⟨_, h⟩ | ⟨f, fs, fin, hf, hD, _, hre⟩
  · cases h; trivial
  have hfr := hm f (by rw [hf]; exact List.mem_cons_self)
  have hrest : ∀ g ∈ fs, FrameLabels E.P g := fun g hg => hm g (by rw [hf]; exact List.mem_cons_of_mem _ hg)
  have ret : ∀ d, (m.leave f d).doReturn = .ok R → RoundLabels E.P R := by
    intro d h
    unfold Machine.doReturn at h
    rw [leave_frames hf] at h
    simp only at h
    match fs, hrest with
    | [], _ =>
      simp only [Res.bind_eq_ok, Res.pure_eq, Res.ok_inj] at h
      obtain ⟨_, _, rfl⟩ := h
      trivial
    | c :: cs, hrest =>
      simp only [Res.bind_eq_ok, Res.pure_eq, Res.ok_inj] at h
      obtain ⟨_, _, _, _, rfl⟩ := h
      intro g hg
      rcases List.mem_cons.1 hg with rfl | hg
      · exact ⟨(hrest c List.mem_cons_self).pc, (hrest c List.mem_cons_self).labels⟩
      · exact hrest g (List.mem_cons_of_mem _ hg)
  have key := loop_labels (hin f.func) (hr f.func) n (m.enter f) fin hfr.pc hfr.labels hD
  have left : ∀ d (rs : List Reg), d.vm.pc ≤ (E.P.body f.func).length → LabelsAt (E.P.body f.func) d.vm.pc d.vm.labels →
      ∀ x ∈ (m.leave f d).frames, FrameLabels E.P x := by
    intro d rs h1 h2 x hx
    rw [leave_frames hf] at hx
    rcases List.mem_cons.1 hx with rfl | hx
    · exact FrameLabels.leave h1 h2 f.resultRegs
    · exact hrest x hx
  rcases key with ⟨d, rfl, h1, h2⟩ | ⟨y, d, rfl, hk⟩ | ⟨d, rfl⟩
  · simp only [Machine.react, Res.ok_inj] at hre
    subst hre
    exact left d [] h1 h2
  · cases y with
    | ret => exact ret d hre
    | invoke g ps rs =>
      rcases hk with hk | ⟨h1, h2⟩
      · cases hk
      simp only [Machine.react, Machine.doInvoke] at hre
      split at hre
      · rename_i t code hg
        simp only [Res.bind_eq_ok, Res.pure_eq, Res.ok_inj] at hre
        obtain ⟨_, _, rfl⟩ := hre
        simp only [RoundLabels]
        rw [leave_frames hf]
        intro x hx
        rcases List.mem_cons.1 hx with rfl | hx
        · exact ⟨Nat.zero_le _, rfl⟩
        · rcases List.mem_cons.1 hx with rfl | hx
          · exact FrameLabels.leave h1 h2 rs
          · exact hrest x hx
      · cases hre
      · cases hre
    | wasi id ps r =>
      rcases hk with hk | ⟨h1, h2⟩
      · cases hk
      have hfin := left d [] h1 h2
      simp only [Machine.react, Machine.doWasi] at hre
      split at hre
      · simp only [Res.bind_eq_ok] at hre
        obtain ⟨⟨o, w⟩, _, hre⟩ := hre
        cases o with
        | none => cases hre
        | some res =>
          simp only at hre
          split at hre
          · simp only [Res.bind_eq_ok, Res.pure_eq, Res.ok_inj] at hre
            obtain ⟨_, _, rfl⟩ := hre
            exact hfin
          · simp only [Res.pure_eq, Res.ok_inj] at hre
            subst hre; exact hfin
      · cases hre
  · exact ret d hre

theorem met_labels {S : Wasi} {E : Env} (hin : InsideP E.P) (hr : RoutedP E.P) {m : Machine S} (h : Met E m) :
    ∀ f ∈ m.frames, FrameLabels E.P f := by
  induction h with
  | @start inst w f params m hm =>
    unfold Machine.new at hm
    split at hm
    · split at hm
      · cases hm
      · simp only [Res.ok_inj] at hm
        subst hm
        intro g hg
        simp only [List.mem_singleton] at hg
        subst hg
        exact ⟨Nat.zero_le _, rfl⟩
    · cases hm
  | round _ k ih => exact round_labels hin hr ih k
  | ckpt _ k ih => exact round_labels hin hr ih k
  | restored _ k ih =>
    intro g hg
    have hg' := List.mem_map_of_mem (f := fun f : Frame => (f.func, f.labels)) hg
    rw [k] at hg'
    obtain ⟨g', hg', he⟩ := List.mem_map.1 hg'
    simp only [Prod.mk.injEq] at he
    have h1 := (ih g' hg').pc
    have h2 := (ih g' hg').labels
    simp only [Frame.at, he.1, he.2] at h1 h2
    exact ⟨h1, h2⟩

/-- **C18**, second half: in every run of a preprocessed program — in the middle of any dispatcher call, in every
suspended caller, also after a restore — the label stack has exactly the labels of the brackets around the current
instruction, innermost first, and the function's own label. -/
theorem labels_enclose_compiled {S : Wasi} {E : Env} (hp : Preprocessed E.P) {m : Machine S} (hm : Met E m) {f : Frame}
    (hf : f ∈ m.frames) :
    LabelsAt (E.P.body f.func) f.at f.labels ∧
    ∀ d, Reaches E (E.P.body f.func) (m.enter f) d → LabelsAt (E.P.body f.func) d.vm.pc d.vm.labels := by
  have h := met_labels hp.inside hp.routed hm f hf
  exact ⟨h.labels, fun d hd => labels_enclose (hp.routed f.func) hd h.labels⟩

/-- **C18**, the move itself: a taken `br` of a preprocessed program continues where WebAssembly says, with the labels
around that place. -/
theorem branch_taken {E : Env} {code : List Instr} (hr : Routed code) {s s' : VM} {d t : Nat} {src dst : List Reg}
    (hi : code[s.pc]? = some (.br d t src dst)) (hl : LabelsAt code s.pc s.labels)
    (hs : step E.H E.P code.length s (.br d t src dst) = .ok (.cont s')) :
    Leads code s.pc d s'.pc ∧ LabelsAt code s'.pc s'.labels := by
  have h := step_flow hs
  have h2 := labels_flow hr hi hl _ h
  simp only [flow, List.mem_singleton, Prod.mk.injEq] at h
  rw [h.1] at h2 ⊢
  exact ⟨hr.br _ _ _ _ _ hi, h2⟩

/-- **C18** violated for `br_table` to the function's own label: the preprocessor lets it restart the function. -/
theorem br_table_function_label_violated : ∃ (K : FnCtx) (ops : List WOp) (code : Code) (p : Nat) (df : Nat × Nat × List Reg)
    (i : Nat) (s : List Reg), compileFn K ops = some code ∧ code.body[p]? = some (.brTable [] df i s) ∧
      ¬ Leads code.body p df.1 df.2.1 := by
  refine ⟨⟨⟨[], [], []⟩, [.i32], [], []⟩, [.localGet 0, .brTable [] 0, .fin], _, 1, _, _, _, rfl, rfl, ?_⟩
  intro h
  cases h

/-- a nest of all three brackets: in the `then` arm out of the block, in the `else` arm back to the loop -/
def nestOps : List WOp :=
  [.block .empty, .loop .empty, .localGet 0, .ite .empty, .br 2, .els, .br 1, .fin, .fin, .fin, .fin]

def nestCode : List Instr :=
  [.block false, .block true, .op1 (.mov .i32) (.reg 0) (.param 0), .ite 0 6 true, .br 2 10 [] [], .jump 8, .br 1 1 [] [],
    .fin [] [], .fin [] [], .fin [] [], .fin [] []]

theorem nest_compiles : (compileFn ⟨⟨[], [], []⟩, [.i32], [], []⟩ nestOps).map (·.body) = some nestCode := rfl

example : enclosing nestCode 4 = [3, 1, 0] ∧ Leads nestCode 4 2 10 ∧ Leads nestCode 6 1 1 ∧ Closes nestCode 3 7 ∧
    Divides nestCode 3 5 := by
  refine ⟨rfl, ?_, ?_, ⟨⟨[], [], rfl⟩, rfl⟩, ⟨8, rfl⟩, rfl⟩
  · exact .inr ⟨by simp [nestCode], 9, ⟨⟨[], [], rfl⟩, rfl⟩, rfl⟩
  · exact .inl ⟨rfl, rfl⟩

example : Routed nestCode := by
  obtain ⟨code, h1, h2⟩ := Option.map_eq_some_iff.1 nest_compiles
  rw [← h2]; exact branch_targets_partial h1

/-- labels inside the `else` arm -/
example : LabelsAt nestCode 6 [⟨false, 6, 6⟩, ⟨true, 2, 2⟩, ⟨false, 1, 1⟩, ⟨false, 0, 0⟩] := rfl

end Verif.Props
