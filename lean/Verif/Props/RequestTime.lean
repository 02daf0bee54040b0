import Verif.Props.Executed
import Verif.Props.TriggerMain
/-
C32, counted in instructions: on the build with atomics, no instruction is executed once the interpreter has found the flag up.
-/
namespace Verif.Props
open Verif.Model Verif.Spec Verif.Lemmas

/-- `l` has been executed since `d`, which still has to make `N - d.looks` looks before the flag is up; so it is after the call -/
def InTime (N c : Nat) (d : DState) (l : List Nat) (x : Option (Res Final)) : Prop :=
  l.length + d.looks ≤ N + c ∧
  ∀ fin d', x = some (.ok fin) → Final.on fin = some d' → l.length + d.looks ≤ d'.looks + c ∧ d'.looks ≤ N

theorem InTime.ckpt {N c : Nat} {d d1 : DState} (h : d.looks ≤ N + c) : InTime N c d [] (some (.ok (.ckpt d1))) :=
  ⟨by simpa using h, fun fin d' h1 h2 => by cases h1; cases h2⟩

theorem InTime.failed {N c : Nat} {d : DState} {l : List Nat} {r : Res Final} (h : l.length + d.looks ≤ N + c)
    (hr : ∀ fin, r ≠ .ok fin) : InTime N c d l (some r) :=
  ⟨h, fun fin _ h1 _ => absurd (Option.some.inj h1) (hr fin)⟩

theorem InTime.ended {N c : Nat} {d d1 : DState} {l : List Nat} {fin : Final} (hf : Final.on fin = some d1)
    (h : l.length + d.looks ≤ d1.looks + c) (h' : d1.looks ≤ N) : InTime N c d l (some (.ok fin)) :=
  ⟨by omega, fun fin' d' h1 h2 => by cases h1; rw [hf] at h2; cases h2; exact ⟨h, h'⟩⟩

theorem loop_in_time {E : Env} (hat : E.atomics = true) {N : Nat} (hN : E.trig N = true) (code : List Instr) :
    ∀ (n : Nat) (d : DState), d.enable = true → d.looks ≤ N → InTime N 0 d (loopPcs E code n d) (loopRun E code n d)
  | 0, d, _, hl => ⟨by simpa [loopPcs] using hl, fun fin d' h => by simp [loopRun] at h⟩
  | n + 1, d, he, hl => by
    rw [loopPcs, loopRun, poll_atomics hat he]
    cases ht : E.trig d.looks with
    | true => exact .ckpt (by omega)
    | false =>
      have hlt : d.looks < N := by
        rcases Nat.lt_or_ge d.looks N with h | h
        · exact h
        · rw [show d.looks = N by omega, hN] at ht; cases ht
      have silent : ∀ d1 : DState, d1.enable = true → d1.looks = d.looks + 1 → InTime N 0 d (loopPcs E code n d1) (loopRun E code n d1) := by
        intro d1 h1 h2
        obtain ⟨h3, h4⟩ := loop_in_time hat hN code n d1 h1 (by omega)
        exact ⟨by omega, fun fin d' h5 h6 => by have := h4 fin d' h5 h6; omega⟩
      have again : ∀ (pc : Nat) (d1 : DState), d1.enable = true → d1.looks = d.looks + 1 →
          InTime N 0 d (pc :: loopPcs E code n d1) (loopRun E code n d1) := by
        intro pc d1 h1 h2
        obtain ⟨h3, h4⟩ := loop_in_time hat hN code n d1 h1 (by omega)
        exact ⟨by simp only [List.length_cons]; omega, fun fin d' h5 h6 => by
          have := h4 fin d' h5 h6; simp only [List.length_cons]; omega⟩
      have ended : ∀ (pc : List Nat) (d1 : DState), pc.length ≤ 1 → d1.looks = d.looks + 1 → ∀ fin, Final.on fin = some d1 →
          InTime N 0 d pc (some (.ok fin)) := fun pc d1 h1 h2 fin h3 => .ended h3 (by omega) (by omega)
      have failed : ∀ (pc : List Nat) (r : Res Final), pc.length ≤ 1 → (∀ fin, r ≠ .ok fin) → InTime N 0 d pc (some r) :=
        fun pc r h1 h2 => .failed (by omega) h2
      dsimp only
      cases hi : code[d.vm.pc]? with
      | none =>
        simp only
        cases hlb : d.vm.labels with
        | nil => exact ended [] _ (by simp) rfl _ rfl
        | cons l ls =>
          cases ls with
          | nil => exact ended [] _ (by simp) rfl _ rfl
          | cons l2 ls =>
            simp only
            by_cases hc : l.returnIp ≤ d.vm.pc ∧ l.isLoop = false
            · rw [if_pos hc, if_pos hc]; exact ended [] _ (by simp) rfl _ rfl
            · rw [if_neg hc, if_neg hc]; exact silent _ he rfl
      | some i =>
        simp only
        cases hs : step E.H E.P code.length d.vm i with
        | ok o =>
          cases o with
          | cont vm => exact again _ _ he rfl
          | yield y vm => exact ended [_] _ (by simp) rfl _ rfl
        | trap e => exact failed [_] _ (by simp) (fun _ h => by cases h)
        | panic => exact failed [_] _ (by simp) (fun _ h => by cases h)
        | ub => exact failed [_] _ (by simp) (fun _ h => by cases h)

theorem chain_in_time {E : Env} (hat : E.atomics = true) {N : Nat} (hN : E.trig N = true) (code : List Instr) :
    ∀ (n : Nat) (d : DState), d.enable = true → d.looks ≤ N → InTime N 1 d (chainPcs E code n d) (tcoChain E code n d)
  | 0, d, _, hl => ⟨by simp only [chainPcs, List.length_nil]; omega, fun fin d' h => by simp [tcoChain] at h⟩
  | n + 1, d, he, hl => by
    have ended : ∀ (pc : List Nat) (d1 : DState), pc.length ≤ 1 → d1.looks = d.looks → ∀ fin, Final.on fin = some d1 →
        InTime N 1 d pc (some (.ok fin)) := fun pc d1 h1 h2 fin h3 => .ended h3 (by omega) (by omega)
    have failed : ∀ (pc : List Nat) (r : Res Final), pc.length ≤ 1 → (∀ fin, r ≠ .ok fin) → InTime N 1 d pc (some r) :=
      fun pc r h1 h2 => .failed (by omega) h2
    rw [chainPcs, tcoChain]
    cases hi : code[d.vm.pc]? with
    | none =>
      simp only
      split
      · exact ended [] _ (by simp) rfl _ rfl
      · exact failed [] _ (by simp) (fun _ h => by cases h)
    | some i =>
      simp only
      cases hs : step E.H E.P code.length d.vm i with
      | ok o =>
        cases o with
        | cont vm =>
          simp only
          rw [poll_atomics (d := { d with vm := vm }) hat he]
          cases ht : E.trig d.looks with
          | true => exact ⟨by simp only [List.length_cons, List.length_nil]; omega, fun fin d' h1 h2 => by cases h1; cases h2⟩
          | false =>
            have hlt : d.looks < N := by
              rcases Nat.lt_or_ge d.looks N with h | h
              · exact h
              · rw [show d.looks = N by omega, hN] at ht; cases ht
            obtain ⟨h3, h4⟩ := chain_in_time hat hN code n { d with vm := vm, looks := d.looks + 1 } he (by simp only; omega)
            simp only at h3 h4
            exact ⟨by simp only [List.length_cons]; omega, fun fin d' h5 h6 => by
              have := h4 fin d' h5 h6; simp only [List.length_cons]; omega⟩
        | yield y vm => exact ended [_] { d with vm := vm } (by simp) rfl _ rfl
      | trap e => exact failed [_] _ (by simp) (fun _ h => by cases h)
      | panic => exact failed [_] _ (by simp) (fun _ h => by cases h)
      | ub => exact failed [_] _ (by simp) (fun _ h => by cases h)

theorem disp_in_time {E : Env} (hat : E.atomics = true) {N : Nat} (hN : E.trig N = true) {D : Dispatcher} {T : Tracer} (hD : IsDT E D T)
    (code : List Instr) (n : Nat) (d : DState) (he : d.enable = true) (hl : d.looks ≤ N) : InTime N 0 d (T n code d) (D n code d) := by
  cases hD with
  | loop => exact loop_in_time hat hN code n d he hl
  | tco =>
    simp only [tcoD, tcoRun, tcoPcs, poll_atomics hat he]
    cases ht : E.trig d.looks with
    | true => exact .ckpt (by omega)
    | false =>
      have hlt : d.looks < N := by
        rcases Nat.lt_or_ge d.looks N with h | h
        · exact h
        · rw [show d.looks = N by omega, hN] at ht; cases ht
      dsimp only
      split
      · exact .ended rfl (by simp) (by simp only; omega)
      · obtain ⟨h3, h4⟩ := chain_in_time hat hN code n { d with looks := d.looks + 1 } he (by simp only; omega)
        simp only at h3 h4
        exact ⟨by omega, fun fin d' h5 h6 => by have := h4 fin d' h5 h6; omega⟩

theorem run_in_time {S : Wasi} {E : Env} (hat : E.atomics = true) {N : Nat} (hN : E.trig N = true) {D : Dispatcher} {T : Tracer}
    (hD : IsDT E D T) {n : Nat} : ∀ (k : Nat) (m : Machine S), AllOn m → m.looks ≤ N → (m.runLoopPcs E D T true n k).length + m.looks ≤ N
  | 0, m, _, hl => by simpa [Machine.runLoopPcs] using hl
  | k + 1, m, hm, hl => by
    rw [Machine.runLoopPcs]
    cases hf : m.frames with
    | nil => simpa [Machine.roundPcs, Machine.round, hf] using hl
    | cons f fs =>
      have hen : (m.enter f).enable = true := hm f (by rw [hf]; simp)
      obtain ⟨h1, h2⟩ := disp_in_time hat hN hD (E.P.body f.func) n (m.enter f) hen hl
      have hlk : (m.enter f).looks = m.looks := rfl
      rw [hlk] at h1 h2
      have hr : m.roundPcs E T n = tagged f.func (T n (E.P.body f.func) (m.enter f)) := by simp only [Machine.roundPcs, hf]
      rw [hr, List.length_append, List.length_map]
      cases hx : m.round E D true n with
      | none => simpa using h1
      | some y =>
        cases y with
        | ok r =>
          cases r with
          | running m1 =>
            simp only
            unfold Machine.round at hx
            simp only [hf] at hx
            split at hx
            · cases hx
            · rename_i z hz
              obtain ⟨fin, rfl, hre⟩ := Res.bind_eq_ok.1 (Option.some.inj hx)
              obtain ⟨h3, d, h4, h5⟩ := react_on hf hm hre
              have h6 := h2 fin d hz h4
              have := run_in_time hat hN hD (n := n) k m1 h3 (by omega)
              omega
          | done vs m1 => simpa using h1
          | ckpt m1 => simpa using h1
        | trap e => simpa using h1
        | panic => simpa using h1
        | ub => simpa using h1

/-- **C32**, in instructions, for the build with atomics: if a process that is started (not restored) with `--cr` would find the flag up
at its look number `N` (the first look is number 0), it executes no more than `N` instructions, whatever module it runs and however long
it is watched: every instruction comes after a look that has found the flag down. -/
theorem executed_before_request_partial {S : Wasi} {T : FloatText} {lz : Lz} {H : FloatHost} {file : WFile} (p : Process) (o : Options)
    (world : S.W) (ha : p.atomics = true) (hcr : p.cr = true) (ho : o.restore = none) {N : Nat} (hN : p.trig N = true)
    {l : List (Nat × Nat)} (he : p.Executes T lz H file o world l) : l.length ≤ N := by
  obtain ⟨tr, ht, ⟨L, m, hb, rfl⟩ | ⟨_, rfl⟩⟩ := he
  · cases hb with
    | resumed _ ho' => rw [ho] at ho'; cases ho'
    | fresh hload _ hf hp hnew =>
      have hm : AllOn { m with frames := setFirstEnable true m.frames } ∧ m.looks = 0 := by
        unfold Machine.new at hnew
        split at hnew
        · split at hnew
          · cases hnew
          · cases hnew
            refine ⟨fun x hx => ?_, rfl⟩
            simp only [setFirstEnable, List.mem_singleton] at hx
            subst hx; rfl
        · cases hnew
      have := run_in_time (S := S) (E := envOf H p.atomics p.trig L.prog L.hasWasi) ha hN (ht.isDT _) (n := p.fuel) p.fuel
        { m with frames := setFirstEnable true m.frames } hm.1 (by simp only [hm.2]; omega)
      rw [Machine.runPcs, hcr]
      omega
  · exact Nat.zero_le _

end Verif.Props
