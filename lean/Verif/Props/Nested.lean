import Verif.Props.Sample
import Verif.Lemmas.Flow
/-
C17 for well nested bodies.
-/
namespace Verif.Props
open Verif.Model

/-- A well nested body: every instruction is reached with a fixed number `h pc` of open labels, and the end of the body
with the function label only.  (What a body compiled from structured control instructions satisfies.) -/
structure WellNested (code : List Instr) (h : Nat → Nat) : Prop where
  stop : h code.length = 1
  next : ∀ pc i, code[pc]? = some i → ∀ ls : List Label, ls.length = h pc →
    ∀ q ∈ flow code.length pc ls i, q.2.length = h q.1

theorem nested_reaches {E : Env} {code : List Instr} {h : Nat → Nat} (hn : WellNested code h) {d d' : DState}
    (hr : Reaches E code d d') (h0 : d.vm.labels.length = h d.vm.pc) : d'.vm.labels.length = h d'.vm.pc := by
  induction hr with
  | refl => exact h0
  | step hp hi hs _ ih =>
    apply ih
    have hvm := poll_vm' hp
    rw [← hvm] at h0
    have := hn.next _ _ hi _ h0 _ (step_flow hs)
    exact this

theorem flatEnd_of_nested {E : Env} {code : List Instr} {h : Nat → Nat} (hn : WellNested code h) {d : DState}
    (h0 : d.vm.labels.length = h d.vm.pc) : FlatEnd E code d := by
  intro d' hr hpc
  have := nested_reaches hn hr h0
  rw [hpc, hn.stop] at this
  omega

/-- **C17**, exact form for well nested bodies: same outcome, same final state, same number of looks at the trigger and
same poll counter, for every trigger schedule. -/
theorem dispatchers_agree_nested (E : Env) (code : List Instr) (h : Nat → Nat) (hn : WellNested code h) (hin : Inside code)
    (d : DState) (hpc : d.vm.pc ≤ code.length) (h0 : d.vm.labels.length = h d.vm.pc) (r : Res Final) :
    (∃ n, loopRun E code n d = some r) ↔ (∃ n, tcoRun E code n d = some r) := by
  have hf : FlatEnd E code d := flatEnd_of_nested hn h0
  constructor
  · rintro ⟨n, hr⟩
    cases n with
    | zero => simp [loopRun] at hr
    | succ n => exact ⟨n + 1, (dispatchers_agree E code d hin hpc hf n r).1 hr⟩
  · rintro ⟨n, hr⟩
    exact ⟨n + 1, (dispatchers_agree E code d hin hpc hf n r).2 hr⟩

/-- label counts of the sample's loop -/
def Sample.levels : Nat → Nat := fun pc => if 1 ≤ pc ∧ pc ≤ 5 then 2 else 1

theorem Sample.nested : WellNested Sample.sum.body Sample.levels := by
  constructor
  · simp [Sample.sum, Sample.levels]
  · intro pc i hi ls hl q hq
    match pc, hi with
    | 0, hi => simp [Sample.sum] at hi; subst hi; simp [flow] at hq; subst hq; simp [Sample.levels] at hl ⊢; omega
    | 1, hi => simp [Sample.sum] at hi; subst hi; simp [flow] at hq; subst hq; simp [Sample.levels] at hl ⊢; omega
    | 2, hi => simp [Sample.sum] at hi; subst hi; simp [flow] at hq; subst hq; simp [Sample.levels] at hl ⊢; omega
    | 3, hi => simp [Sample.sum] at hi; subst hi; simp [flow] at hq; subst hq; simp [Sample.levels] at hl ⊢; omega
    | 4, hi =>
      simp [Sample.sum] at hi; subst hi
      simp [flow] at hq
      rcases hq with rfl | rfl
      · simp [Sample.levels] at hl ⊢; omega
      · simp only [Sample.levels] at hl ⊢
        rw [cut_length _ _ (by simp at hl; omega)]
        simp at hl; rw [hl]; rfl
    | 5, hi =>
      simp [Sample.sum] at hi; subst hi
      simp [Sample.levels] at hl
      simp [flow, hl, Sample.sum] at hq; subst hq
      simp [Sample.levels, hl]
    | 6, hi => simp [Sample.sum] at hi; subst hi; simp [flow] at hq; subst hq; simp [Sample.levels] at hl ⊢; omega
    | 7, hi =>
      simp [Sample.sum] at hi; subst hi
      simp [Sample.levels] at hl
      simp [flow, hl, Sample.sum] at hq; subst hq
      simp [Sample.levels, hl]
    | n + 8, hi => simp [Sample.sum] at hi

/-- the sample's loop meets the assumptions, also with triggers -/
example (k : Nat) (d : DState) (hd : d.vm.pc = 0) (hl : d.vm.labels = [⟨false, 0, 0⟩]) (r : Res Final) :
    (∃ n, loopRun (Sample.envTrig true k) Sample.sum.body n d = some r) ↔
    (∃ n, tcoRun (Sample.envTrig true k) Sample.sum.body n d = some r) :=
  dispatchers_agree_nested _ _ _ Sample.nested Sample.insideSum d (by rw [hd]; exact Nat.zero_le _)
    (by rw [hd, hl]; rfl) r

end Verif.Props
