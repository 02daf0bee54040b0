import Verif.Spec.Session
import Verif.Lemmas.Sized
import Verif.Props.Accept
/-
C54: a session of checkpoints and restores ends like one uninterrupted process.
-/
namespace Verif.Props
open Verif.Model Verif.Spec Verif.Lemmas

/-! ### A run that comes to an end, with triggers, ends as it would without -/

theorem round_quiet {S : Wasi} {E : Env} (hin : InsideP E.P) {D D' : Dispatcher} (hD : IsD E D)
    (hD' : IsD E.quiet D') {en en' : Bool} {n : Nat} {m : Machine S} {y : Res (Round S)}
    (h : m.round E D en n = some y) (hy : ∀ mc, y ≠ .ok (.ckpt mc)) :
    ∃ n2 b, m.round E.quiet D' en' n2 = some b ∧ ResRel RoundSim y b := by
  have q := quietD hD'
  unfold Machine.round at h
  split at h
  · rename_i hm
    simp only [Option.some.injEq] at h
    subst h
    exact ⟨0, .ok (.done [] m), by simp only [Machine.round, hm], .ok (.done rfl rfl)⟩
  · rename_i f fs hm
    split at h
    · cases h
    · rename_i x hx
      have hcut := disp_cut hD (hin f.func) hx
      simp only [Option.some.injEq] at h
      subst h
      have hp : PlainTo E (E.P.body f.func) (m.enter f).vm (obsF x) := by
        cases x with
        | ok fin =>
          cases fin with
          | ckpt d => exact absurd rfl (hy (m.leave f d))
          | halt d => exact hcut
          | yield y d => exact hcut
        | trap e => exact hcut
        | panic => exact hcut
        | ub => exact hcut
      obtain ⟨j, hj⟩ := hp
      obtain ⟨n2, x', hd', hox⟩ := q.faithful.bwd j _ (m.enter f) _ (hin f.func) hj
      have hne : obsF x ≠ .trap .checkpointRequested := by
        rw [← hox]; exact q.noCk _ _ _ _ hd'
      refine ⟨n2, x' >>= m.react E.quiet en' f, ?_, ?_⟩
      · simp only [Machine.round, hm]
        have hd'' : D' n2 (E.quiet.P.body f.func) (m.enter f) = some x' := hd'
        rw [hd'']
      · exact react_sim (E := E) (en := en) (en' := en') (MSim.refl m) hm hm x x' (by rw [hox]; exact reflSim _) hne

theorem run_end {S : Wasi} {E : Env} (hin : InsideP E.P) {D D' : Dispatcher} (hD : IsD E D)
    (hD' : IsD E.quiet D') {en en' : Bool} {n : Nat} : ∀ (k : Nat) (m : Machine S) (x : Res (End S)),
    m.runLoop E D en n k = some x → (∀ mc, x ≠ .ok (.ckpt mc)) → RunsL E.quiet D' en' m (obsE x)
  | 0, _, _, h, _ => by simp [Machine.runLoop] at h
  | k + 1, m, x, h, hx => by
    rw [Machine.runLoop] at h
    split at h
    · cases h
    · rename_i m1 hr
      exact (runsL_running hin hD hD' hr _).mpr (run_end hin hD hD' k m1 x h hx)
    · rename_i vs m1 hr
      cases h
      obtain ⟨n2, b, hb, hrel⟩ := round_quiet (en' := en') hin hD hD' hr nofun
      cases hrel with
      | ok hrr =>
        cases hrr with
        | @done _ _ q' hqi hqw =>
          exact ⟨n2, 1, .ok (.done vs q'), by rw [Machine.runLoop, hb], by simp [obsE, hqi, hqw]⟩
    · cases h; exact absurd rfl (hx _)
    · rename_i e hr
      cases h
      obtain ⟨n2, b, hb, hrel⟩ := round_quiet (en' := en') hin hD hD' hr nofun
      cases hrel
      exact ⟨n2, 1, .trap e, by rw [Machine.runLoop, hb], rfl⟩
    · rename_i hr
      cases h
      obtain ⟨n2, b, hb, hrel⟩ := round_quiet (en' := en') hin hD hD' hr nofun
      cases hrel
      exact ⟨n2, 1, .panic, by rw [Machine.runLoop, hb], rfl⟩
    · rename_i hr
      cases h
      obtain ⟨n2, b, hb, hrel⟩ := round_quiet (en' := en') hin hD hD' hr nofun
      cases hrel
      exact ⟨n2, 1, .ub, by rw [Machine.runLoop, hb], rfl⟩

theorem quiet_no_ckpt {S : Wasi} {E : Env} {D : Dispatcher} (q : QuietD E D) {en : Bool} {n : Nat} : ∀ (k : Nat) (m mc : Machine S),
    m.runLoop E D en n k ≠ some (.ok (.ckpt mc))
  | 0, _, _, h => by simp [Machine.runLoop] at h
  | k + 1, m, mc, h => by
    rw [Machine.runLoop] at h
    split at h
    · cases h
    · rename_i m1 hr; exact quiet_no_ckpt q k m1 mc h
    · cases h
    · rename_i m1 hr
      unfold Machine.round at hr
      split at hr
      · cases hr
      · rename_i f fs hm
        split at hr
        · cases hr
        · rename_i x hx
          simp only [Option.some.injEq, Res.bind_eq_ok] at hr
          obtain ⟨fin, rfl, hre⟩ := hr
          obtain ⟨d, rfl, _⟩ := react_ckpt hre
          exact q.noCk _ _ _ _ hx rfl
    · cases h
    · cases h
    · cases h

/-! ### Platforms without triggers are alike -/

theorem run_env {S : Wasi} {H : FloatHost} {P : Prog} {w a a' : Bool} {t t' : Nat → Bool} {D : Dispatcher} {en : Bool} {n : Nat} :
    ∀ (k : Nat) (m : Machine S), m.runLoop (envOf H a t P w) D en n k = m.runLoop (envOf H a' t' P w) D en n k
  | 0, _ => rfl
  | k + 1, m => by
    rw [Machine.runLoop, Machine.runLoop]
    have : m.round (envOf H a t P w) D en n = m.round (envOf H a' t' P w) D en n := rfl
    rw [this]
    split
    · rfl
    · exact run_env k _
    all_goals rfl

/-- no trigger is ever raised -/
def never : Nat → Bool := fun _ => false

theorem quiet_any {S : Wasi} {H : FloatHost} {P : Prog} (hin : InsideP P) {w a a' : Bool} {D D' : Dispatcher}
    (hD : IsD (envOf H a never P w) D) (hD' : IsD (envOf H a' never P w) D') {en en' : Bool} {m : Machine S}
    {o : Res (List Val × Inst × S.W)} (h : Runs (envOf H a never P w) D en m o) : Runs (envOf H a' never P w) D' en' m o := by
  have q : QuietD (envOf H a never P w) D := quietD (E := envOf H a never P w) hD
  have q' : QuietD (envOf H a' never P w) D' := quietD (E := envOf H a' never P w) hD'
  have f : Faithful (envOf H a' never P w) D := ⟨q.faithful.mono, q.faithful.fwd, q.faithful.bwd⟩
  obtain ⟨n, r, h, rfl⟩ := h
  rw [Machine.run, run_env (a' := a') (t' := never)] at h
  exact runs_of f q'.faithful q.noCk hin (MSim.refl m) en en' _ ⟨n, r, h, rfl⟩

/-! ### Processes -/

/-- what the user sees of a run -/
def seenRun {S : Wasi} : Res (List Val × Inst × S.W) → Res (Report × Option (Store × S.W))
  | .ok (vs, i, w) => .ok (.result vs.getLast?, some (storeOf i, w))
  | .trap e => .ok (failureReport e, none)
  | .panic => .panic
  | .ub => .ub

theorem seen_failed {S : Wasi} (old : Option (List Byte)) (e : Err) : seen (.ok (Left.failed (S := S) old e)) = .ok (failureReport e, none) := by
  cases e <;> rfl

theorem process_end {S : Wasi} {lz : Lz} {E : Env} {L : Nat → Nat → Nat} (hL : ShapedP E.P L) (hin : InsideP E.P) (hT : SmallTypes E.P)
    (hR : ∀ f, SmallRegs (E.P.body f)) {D D' : Dispatcher} (hD : IsD E D) (hD' : IsD E.quiet D') {en en' : Bool} {fuel : Nat}
    {old : Option (List Byte)} {io : Io} {m : Machine S} (hm : SizedM E.P L m) {r : Res (Left S)}
    (h : m.process lz E D en fuel old io = some r) (hr : Finished r) :
    ∃ o, Runs E.quiet D' en' m o ∧ seen r = seenRun o := by
  have key : ∀ x, m.run E D en fuel = some x → (∀ mc, x ≠ .ok (.ckpt mc)) → Runs E.quiet D' en' m (obsE x) := by
    intro x hx hne
    have h1 := run_end (en' := en') hin hD hD' _ _ x hx hne
    refine (runs_iff (quietD hD').faithful).mpr ?_
    exact runsL_sim (quietD hD') (quietD hD') hin ((setFirst_msim m en).symm.trans (setFirst_msim m en')) h1
  unfold Machine.process at h
  split at h
  · cases h
  · rename_i vs m' hx; cases h; exact ⟨_, key _ hx nofun, rfl⟩
  · rename_i mc hx
    exfalso
    have hmc : SizedM E.P L mc := run_inv (SizedM E.P L) (fun m r n hm hr => sized_round hL hT hR hD hr hm) fuel _ mc
      (hm.setFirst en) hx
    obtain ⟨s, hs⟩ := snapshot_total (lz := lz) hL hmc
    simp only [Machine.checkpoint, hs, saveFile] at h
    cases hb : encode s with
    | none => rw [hb] at h; cases h; exact (hr _ rfl).2.1 rfl
    | some b =>
      rw [hb] at h
      cases io with
      | fine => cases h; exact (hr _ rfl).1 rfl
      | createFails => cases h; exact (hr _ rfl).2.2 rfl
      | stopsAfter k => cases h; exact (hr _ rfl).2.2 rfl
  · rename_i e hx; cases h; exact ⟨_, key _ hx nofun, seen_failed old e⟩
  · rename_i hx; cases h; exact ⟨_, key _ hx nofun, rfl⟩
  · rename_i hx; cases h; exact ⟨_, key _ hx nofun, rfl⟩

theorem process_runs {S : Wasi} {lz : Lz} {E : Env} {D : Dispatcher} (q : QuietD E D) {en : Bool} {old : Option (List Byte)} {io : Io}
    {m : Machine S} {o : Res (List Val × Inst × S.W)} (h : Runs E D en m o) :
    ∃ fuel r, m.process lz E D en fuel old io = some r ∧ seen r = seenRun o := by
  obtain ⟨n, r, h, rfl⟩ := h
  refine ⟨n, ?_⟩
  unfold Machine.process
  rw [h]
  cases r with
  | ok e =>
    cases e with
    | done vs m' => exact ⟨_, rfl, rfl⟩
    | ckpt m' => exact absurd h (quiet_no_ckpt q _ _ _)
  | trap e => exact ⟨_, rfl, seen_failed old e⟩
  | panic => exact ⟨_, rfl, rfl⟩
  | ub => exact ⟨_, rfl, rfl⟩

theorem process_ckpt {S : Wasi} {lz : Lz} {E : Env} {D : Dispatcher} {en : Bool} {fuel : Nat} {old : Option (List Byte)} {io : Io}
    {m : Machine S} {l : Left S} (h : m.process lz E D en fuel old io = some (.ok l)) (hl : l.report = .checkpointed) :
    ∃ mc, m.run E D en fuel = some (.ok (.ckpt mc)) ∧ mc.checkpoint lz E.P old io = (.ok (), l.ckpt) ∧
      l.state = some (mc.inst, mc.world) := by
  unfold Machine.process at h
  split at h
  · cases h
  · cases h; cases hl
  · rename_i mc hx
    refine ⟨mc, hx, ?_⟩
    split at h
    · rename_i file hc; cases h; exact ⟨hc, rfl⟩
    · cases h; cases hl
    · cases h
    · cases h
  · rename_i e _; cases h; cases e <;> cases hl
  · cases h
  · cases h

/-- the limits of a program whose checkpoints can be read back -/
structure Limits (P : Prog) (L : Nat → Nat → Nat) : Prop where
  shaped : ShapedP P L
  types : SmallTypes P
  regs : ∀ f, SmallRegs (P.body f)
  bodies : ∀ f, (P.body f).length < 2 ^ 32
  funcs : P.funcs.length ≤ 2 ^ 32
  kept : KeepsSegments P

theorem Limits.inside {P : Prog} {L : Nat → Nat → Nat} (h : Limits P L) : InsideP P := fun f => (h.shaped f).inside

/-- one process that stops for a checkpoint, and the restore in the next -/
theorem process_moves {S : Wasi} (hS : WasiKeepsSize S) {lz : Lz} {E : Env} {L : Nat → Nat → Nat} (hl : Limits E.P L) {D : Dispatcher}
    (trig : Nat → Bool) (hD : IsD { E with trig := trig } D) {en : Bool} {fuel : Nat} {old : Option (List Byte)} {io : Io} {i : Inst}
    {m : Machine S} (hm : SizedM E.P L m) (hrd : Ready i m) {l : Left S}
    (h : m.process lz { E with trig := trig } D en fuel old io = some (.ok l))
    (hrep : l.report = .checkpointed) {b : List Byte} (hb : l.ckpt = some b) {i' : Inst} {w : S.W} (hs : l.state = some (i', w))
    (hlen : b.length < 2 ^ 32) :
    ∃ st j, restore lz E.P i (some b) = (.ok st, j) ∧ SizedM E.P L (st.resume (S := S) j w) ∧ Ready i (st.resume (S := S) j w) ∧
      ∀ D' D'' en' en'' o, IsD E.quiet D' → IsD E.quiet D'' →
      (Runs E.quiet D' en' m o ↔ Runs E.quiet D'' en'' (st.resume (S := S) j w) o) := by
  obtain ⟨mc, hrun, hck, hst⟩ := process_ckpt h hrep
  rw [hs] at hst
  cases hst
  rw [hb] at hck
  have hmc : SizedM E.P L mc := run_inv (SizedM E.P L)
    (fun m r n hm hr => sized_round (E := { E with trig := trig }) hl.shaped hl.types hl.regs hD hr hm) fuel _ mc (hm.setFirst en) hrun
  have hrc : Ready i mc := run_inv (Ready i)
    (fun m r n hm hr => hm.round hS (E := { E with trig := trig }) hl.kept hD hr) fuel _ mc (hrd.setFirst en) hrun
  obtain ⟨s, b', h1, h2, h3⟩ : ∃ s b', mc.snapshot lz E.P = .ok s ∧ encode s = some b' ∧ some b = some b' := by
    rcases checkpoint_outcomes lz E.P mc old io with ⟨s', b', h1, h2, h3⟩ | ⟨s', b', k, -, -, -, h3⟩ | ⟨-, h3⟩
    · rw [show mc.checkpoint lz E.P old io = _ from hck] at h3
      simp only [Prod.mk.injEq, true_and] at h3
      exact ⟨s', b', h1, h2, h3⟩
    · rw [show mc.checkpoint lz E.P old io = _ from hck] at h3; simp at h3
    · rw [show mc.checkpoint lz E.P old io = _ from hck] at h3; exact absurd rfl h3
  cases h3
  have hf := snapshot_fits hmc hl.bodies hl.funcs h1 h2 hlen
  obtain ⟨st, j, hr, e1, e2, _⟩ := restore_reproduces lz E.P mc s h1 hf old io (some b) hck i hrc.shape
  obtain ⟨k1, k2⟩ := migrates_once hS lz hl.inside hl.kept hrd (.mk (trig := trig) hD hrun h1 hf hck hr)
  exact ⟨st, j, hr, hmc.resumed _ e1 e2, k1, k2⟩

/-- a session that goes on from a checkpoint file -/
theorem session_from {S : Wasi} (hS : WasiKeepsSize S) {T : FloatText} {lz : Lz} {H : FloatHost} {file : WFile} {L : Loaded}
    (hload : loadFile file = .ok L) {lv : Nat → Nat → Nat} (hl : Limits L.prog lv) {o : Options} {world : S.W} {r : Res (Left S)}
    (h : Session T lz H file o world r) : ∀ (b : List Byte) (st : Stacks) (i : Inst), o.restore = some (some b) →
    restore lz L.prog L.inst (some b) = (.ok st, i) → SizedM L.prog lv (st.resume (S := S) i world) →
    Ready L.inst (st.resume (S := S) i world) →
    ∃ q, Runs (envOf H false never L.prog L.hasWasi) (loopD (envOf H false never L.prog L.hasWasi)) false
      (st.resume (S := S) i world) q ∧ seen r = seenRun q := by
  induction h with
  | @last o world r p h hr =>
    intro b st i ho hre hz hrd
    simp only [Process.run, command, hload, ho, hre] at h
    obtain ⟨q, h1, h2⟩ := process_end (D' := loopD (envOf H p.atomics never L.prog L.hasWasi)) (en' := false)
      (E := envOf H p.atomics p.trig L.prog L.hasWasi) hl.shaped hl.inside hl.types hl.regs (p.built.isD _) .loop hz h hr
    exact ⟨q, quiet_any hl.inside .loop .loop h1, h2⟩
  | @move o world r p l b' i' w h hrep hb hs hlen next ih =>
    intro b st i ho hre hz hrd
    simp only [Process.run, command, hload, ho, hre] at h
    obtain ⟨st2, j, k1, k2, k3, k4⟩ := process_moves hS (E := envOf H p.atomics never L.prog L.hasWasi) hl p.trig (p.built.isD _) hz hrd
      h hrep hb hs hlen
    obtain ⟨q, h1, h2⟩ := ih b' st2 j rfl k1 k2 k3
    have h3 := (k4 (loopD (envOf H p.atomics never L.prog L.hasWasi)) (loopD (envOf H p.atomics never L.prog L.hasWasi)) false false q
      .loop .loop).mpr (quiet_any hl.inside .loop .loop h1)
    exact ⟨q, quiet_any hl.inside .loop .loop h3, h2⟩

/-- the same process with no trigger -/
def _root_.Verif.Spec.Process.undisturbed (p : Process) : Process := { p with trig := never }

/-- the machine a process without `--restore` starts, if it gets that far -/
def StartsAs {S : Wasi} (T : FloatText) (L : Loaded) (o : Options) (world : S.W) (m : Machine S) : Prop :=
  ∃ f ps, L.exportFunc o.invoke = .ok f ∧ parseParams T o.params = .ok ps ∧ Machine.new (S := S) L.prog L.inst world f ps = .ok m

/-- Without `--restore`, a process either runs the machine it starts, or fails right away — the same way whatever it was built
for and whenever triggers are raised. -/
theorem command_starts {S : Wasi} {T : FloatText} {lz : Lz} {H : FloatHost} {file : WFile} {L : Loaded} (hload : loadFile file = .ok L)
    {o : Options} (ho : o.restore = none) (world : S.W) :
    (∃ m, StartsAs T L o world m ∧ ∀ p : Process, p.run T lz H file o world =
      m.process lz (envOf H p.atomics p.trig L.prog L.hasWasi) (p.D (envOf H p.atomics p.trig L.prog L.hasWasi)) p.cr p.fuel p.old p.io) ∨
    (∃ x : Res (Report × Option (Store × S.W)), (∀ v, x ≠ .ok (.checkpointed, v)) ∧
      ∀ p : Process, ∃ r, p.run T lz H file o world = some r ∧ seen r = x) := by
  cases hE : L.exportFunc o.invoke with
  | ok f =>
    cases hP : parseParams T o.params with
    | ok ps =>
      cases hM : Machine.new (S := S) L.prog L.inst world f ps with
      | ok m => exact .inl ⟨m, ⟨f, ps, hE, hP, hM⟩, fun p => by simp only [Process.run, command, hload, ho, hE, hP, hM]⟩
      | trap e => exact .inr ⟨.ok (.initFailed e, none), nofun, fun p => ⟨_, by simp only [Process.run, command, hload, ho, hE, hP, hM]; rfl, rfl⟩⟩
      | panic => exact .inr ⟨.panic, nofun, fun p => ⟨_, by simp only [Process.run, command, hload, ho, hE, hP, hM]; rfl, rfl⟩⟩
      | ub => exact .inr ⟨.ub, nofun, fun p => ⟨_, by simp only [Process.run, command, hload, ho, hE, hP, hM]; rfl, rfl⟩⟩
    | trap e => exact .inr ⟨.panic, nofun, fun p => ⟨_, by simp only [Process.run, command, hload, ho, hE, hP]; rfl, rfl⟩⟩
    | panic => exact .inr ⟨.panic, nofun, fun p => ⟨_, by simp only [Process.run, command, hload, ho, hE, hP]; rfl, rfl⟩⟩
    | ub => exact .inr ⟨.panic, nofun, fun p => ⟨_, by simp only [Process.run, command, hload, ho, hE, hP]; rfl, rfl⟩⟩
  | trap e => exact .inr ⟨.ok (.noFunction, none), nofun, fun p => ⟨_, by simp only [Process.run, command, hload, ho, hE]; rfl, rfl⟩⟩
  | panic => exact .inr ⟨.panic, nofun, fun p => ⟨_, by simp only [Process.run, command, hload, ho, hE]; rfl, rfl⟩⟩
  | ub => exact .inr ⟨.ub, nofun, fun p => ⟨_, by simp only [Process.run, command, hload, ho, hE]; rfl, rfl⟩⟩

theorem new_ready {S : Wasi} {P : Prog} {i : Inst} {w : S.W} {f : Nat} {ps : List Val} {m : Machine S}
    (hnew : Machine.new P i w f ps = .ok m) : Ready i m := by
  have hp := new_ptr hnew
  unfold Machine.new at hnew
  split at hnew
  · split at hnew
    · cases hnew
    · cases hnew
      refine ⟨?_, hp, ⟨rfl, rfl⟩, ⟨rfl, rfl⟩⟩
      intro f hf
      simp only [List.mem_singleton] at hf
      subst hf; simp [newFrame]
  · cases hnew

theorem session_any {S : Wasi} (hS : WasiKeepsSize S) {T : FloatText} {lz : Lz} {H : FloatHost} {file : WFile} {L : Loaded}
    (hload : loadFile file = .ok L) {lv : Nat → Nat → Nat} (hl : Limits L.prog lv) {o : Options} (ho : o.restore = none) {world : S.W}
    {r : Res (Left S)} (h : Session T lz H file o world r) (q : Process) :
    ∃ fuel r', ({ q.undisturbed with fuel := fuel }).run T lz H file o world = some r' ∧ seen r' = seen r := by
  rcases command_starts (T := T) (lz := lz) (H := H) hload ho world with ⟨m, ⟨f, ps, -, -, hM⟩, hrun⟩ | ⟨x, hx, hrun⟩
  · have hz : SizedM L.prog lv m := new_sized hl.shaped hl.types hM
    have hrd : Ready L.inst m := new_ready hM
    have key : ∃ v, Runs (envOf H false never L.prog L.hasWasi) (loopD (envOf H false never L.prog L.hasWasi)) false m v ∧
        seen r = seenRun v := by
      cases h with
      | last p h hr =>
        rw [hrun] at h
        obtain ⟨v, h1, h2⟩ := process_end (D' := loopD (envOf H p.atomics never L.prog L.hasWasi)) (en' := false)
          (E := envOf H p.atomics p.trig L.prog L.hasWasi) hl.shaped hl.inside hl.types hl.regs (p.built.isD _) .loop hz h hr
        exact ⟨v, quiet_any hl.inside .loop .loop h1, h2⟩
      | @move o world r p l b' i' w h hrep hb hs hlen next =>
        rw [hrun] at h
        obtain ⟨st2, j, k1, k2, k3, k4⟩ := process_moves hS (E := envOf H p.atomics never L.prog L.hasWasi) hl p.trig (p.built.isD _)
          hz hrd h hrep hb hs hlen
        obtain ⟨v, h1, h2⟩ := session_from hS hload hl next b' st2 j rfl k1 k2 k3
        have h3 := (k4 (loopD (envOf H p.atomics never L.prog L.hasWasi)) (loopD (envOf H p.atomics never L.prog L.hasWasi)) false
          false v .loop .loop).mpr (quiet_any hl.inside .loop .loop h1)
        exact ⟨v, quiet_any hl.inside .loop .loop h3, h2⟩
    obtain ⟨v, h1, h2⟩ := key
    obtain ⟨fuel, r', h3, h4⟩ := process_runs (lz := lz) (old := q.old) (io := q.io)
      (quietD (E := envOf H q.atomics never L.prog L.hasWasi) (q.built.isD _))
      (quiet_any (en' := q.cr) hl.inside .loop (q.built.isD (envOf H q.atomics never L.prog L.hasWasi)) h1)
    exact ⟨fuel, r', by rw [hrun]; exact h3, h4.trans h2.symm⟩
  · cases h with
    | last p h hr =>
      obtain ⟨r1, h1, h2⟩ := hrun p
      rw [h] at h1; cases h1
      obtain ⟨r', h3, h4⟩ := hrun { q.undisturbed with fuel := 0 }
      exact ⟨0, r', h3, h4.trans h2.symm⟩
    | move p h hrep hb hs hlen next =>
      obtain ⟨r1, h1, h2⟩ := hrun p
      rw [h] at h1; cases h1
      simp only [seen, hrep] at h2
      exact absurd h2.symm (hx _)

end Verif.Props
