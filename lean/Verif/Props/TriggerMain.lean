import Verif.Props.SessionEx
import Verif.Props.Trigger
/-
C32 for whole processes: when the command honours a raised checkpoint trigger, and when it never does.
-/
namespace Verif.Props
open Verif.Model Verif.Spec Verif.Lemmas

/-! ### Modules without WASI imports, file-polling build -/

theorem poll_blind {E : Env} (ha : E.atomics = false) (hw : E.hasWasi = false) (t : Nat → Bool) (d : DState) :
    poll E d = poll { E with trig := t } d := by
  unfold poll; simp only [ha, hw]; rfl

theorem loop_blind {E : Env} (ha : E.atomics = false) (hw : E.hasWasi = false) (t : Nat → Bool) (code : List Instr) :
    ∀ (n : Nat) (d : DState), loopRun E code n d = loopRun { E with trig := t } code n d
  | 0, _ => rfl
  | n + 1, d => by
    rw [loopRun, loopRun, ← poll_blind ha hw t]
    dsimp only
    split
    · rfl
    · split
      · split
        · split
          · rfl
          · exact loop_blind ha hw t code n _
        · rfl
      · split
        · exact loop_blind ha hw t code n _
        all_goals rfl

theorem chain_blind {E : Env} (ha : E.atomics = false) (hw : E.hasWasi = false) (t : Nat → Bool) (code : List Instr) :
    ∀ (n : Nat) (d : DState), tcoChain E code n d = tcoChain { E with trig := t } code n d
  | 0, _ => rfl
  | n + 1, d => by
    rw [tcoChain, tcoChain]
    dsimp only
    split
    · rfl
    · split
      · rw [← poll_blind ha hw t]
        split
        · rfl
        · exact chain_blind ha hw t code n _
      all_goals rfl

theorem disp_blind {E : Env} (ha : E.atomics = false) (hw : E.hasWasi = false) (t : Nat → Bool) {D : Env → Dispatcher}
    (hD : Build D) : D E = D { E with trig := t } := by
  cases hD with
  | loop => funext n c d; exact loop_blind ha hw t c n d
  | tco =>
    funext n c d
    show tcoRun E c n d = tcoRun { E with trig := t } c n d
    unfold tcoRun
    rw [← poll_blind ha hw t]
    simp only [chain_blind ha hw t]

/-- C32 is false of the code: on the build that polls for the trigger file (the default one), a module that imports no WASI
function is never checkpointed, whatever is done with the trigger file: the command does exactly what it does without a
trigger, and neither reports a checkpoint nor touches the checkpoint file. -/
theorem trigger_ignored_without_wasi_violated {S : Wasi} {T : FloatText} {lz : Lz} {H : FloatHost} {file : WFile} {L : Loaded}
    (hload : loadFile file = .ok L) (hw : L.hasWasi = false) (p : Process) (ha : p.atomics = false) (o : Options) (world : S.W) :
    p.run T lz H file o world = p.undisturbed.run T lz H file o world ∧
    ∀ l, p.run T lz H file o world = some (.ok l) → l.report ≠ .checkpointed ∧ l.ckpt = p.old := by
  have hproc : ∀ m : Machine S, m.process lz (envOf H p.atomics p.trig L.prog L.hasWasi)
      (p.D (envOf H p.atomics p.trig L.prog L.hasWasi)) p.cr p.fuel p.old p.io =
      m.process lz (envOf H p.atomics never L.prog L.hasWasi) (p.D (envOf H p.atomics never L.prog L.hasWasi)) p.cr p.fuel p.old p.io := by
    intro m
    have e : p.D (envOf H p.atomics p.trig L.prog L.hasWasi) = p.D (envOf H p.atomics never L.prog L.hasWasi) :=
      disp_blind (E := envOf H p.atomics p.trig L.prog L.hasWasi) ha hw never p.built
    unfold Machine.process
    rw [← e, Machine.run, Machine.run, run_env (a' := p.atomics) (t' := never)]
    rfl
  have heq : p.run T lz H file o world = p.undisturbed.run T lz H file o world := by
    simp only [Process.run, command, hload, Process.undisturbed, hproc]
  refine ⟨heq, ?_⟩
  rw [heq]
  have hq : ∀ (m : Machine S) (l : Left S), m.process lz (envOf H p.atomics never L.prog L.hasWasi)
      (p.D (envOf H p.atomics never L.prog L.hasWasi)) p.cr p.fuel p.old p.io = some (.ok l) → l.report ≠ .checkpointed ∧ l.ckpt = p.old := by
    intro m l h
    have q := quietD (E := envOf H p.atomics never L.prog L.hasWasi) (p.built.isD _)
    unfold Machine.process at h
    split at h
    · cases h
    · cases h; exact ⟨nofun, rfl⟩
    · rename_i m' hr
      rw [Machine.run] at hr
      exact absurd hr (quiet_no_ckpt q _ _ _)
    · cases h; unfold Left.failed; split <;> exact ⟨nofun, rfl⟩
    · cases h
    · cases h
  intro l h
  simp only [Process.run, command, hload, Process.undisturbed] at h
  repeat' split at h
  all_goals first
    | exact hq _ _ h
    | (cases h; exact ⟨nofun, rfl⟩)
    | cases h

/-- a module without imports: `loop br 0 end` -/
def lonely : SMod where
  types := [⟨[], []⟩]
  imports := []
  funcs := [⟨0, [], .loop .empty (.op (.br 0) .done) .done⟩]
  tables := []
  mems := []
  globals := []
  exports := [("run", .func 0)]
  start := none
  elems := []
  datas := []

example : ∃ L, loadFile (some lonely.file) = .ok L ∧ L.hasWasi = false := by
  have h : (match loadFile (some lonely.file) with | .ok L => !L.hasWasi | _ => false) = true := by decide +kernel
  split at h
  · rename_i L hL; exact ⟨L, hL, by simpa using h⟩
  · cases h

/-! ### The atomics build -/

/-- state of a dispatcher call that did not stop for a checkpoint -/
def Final.on : Final → Option DState
  | .halt d | .yield _ d => some d
  | .ckpt _ => none

theorem poll_atomics {E : Env} (hat : E.atomics = true) {d : DState} (he : d.enable = true) :
    poll E d = (E.trig d.looks, { d with looks := d.looks + 1 }) := by
  unfold poll; simp [he, hat]

/-- the dispatcher call ends within the fuel, looking at the flag at least once -/
def Stops (d : DState) (x : Option (Res Final)) : Prop :=
  ∃ r, x = some r ∧ ∀ fin d', r = .ok fin → Final.on fin = some d' → d.looks < d'.looks

theorem loop_stops {E : Env} (hat : E.atomics = true) {k : Nat} (hr : ∀ j, k ≤ j → E.trig j = true) (code : List Instr) :
    ∀ (n : Nat) (d : DState), d.enable = true → 0 < n → k < n + d.looks → Stops d (loopRun E code n d)
  | 0, _, _, h0, _ => absurd h0 (by omega)
  | n + 1, d, he, _, hk => by
    rw [loopRun, poll_atomics hat he]
    cases ht : E.trig d.looks with
    | true => exact ⟨_, rfl, fun fin d' h1 h2 => by cases h1; cases h2⟩
    | false =>
      have hlt : d.looks < k := by
        rcases Nat.lt_or_ge d.looks k with h | h
        · exact h
        · rw [hr _ h] at ht; cases ht
      have again : ∀ d1 : DState, d1.enable = true → d1.looks = d.looks + 1 → Stops d (loopRun E code n d1) := by
        intro d1 h1 h2
        obtain ⟨r, h3, h4⟩ := loop_stops hat hr code n d1 h1 (by omega) (by omega)
        exact ⟨r, h3, fun fin d' h5 h6 => by have := h4 fin d' h5 h6; omega⟩
      have stop : ∀ d1 : DState, d1.looks = d.looks + 1 → ∀ fin, Final.on fin = some d1 → Stops d (some (.ok fin)) := by
        intro d1 h1 fin h2
        refine ⟨_, rfl, fun fin' d' h3 h4 => ?_⟩
        cases h3
        rw [h2] at h4; cases h4; omega
      dsimp only
      split
      · split
        · split
          · exact stop _ rfl _ rfl
          · exact again _ he rfl
        · exact stop _ rfl _ rfl
      · split
        · exact again _ he rfl
        · exact stop _ rfl _ rfl
        all_goals exact ⟨_, rfl, fun fin d' h => by cases h⟩

theorem chain_stops {E : Env} (hat : E.atomics = true) {k : Nat} (hr : ∀ j, k ≤ j → E.trig j = true) (code : List Instr) :
    ∀ (n : Nat) (d d0 : DState), d.enable = true → 0 < n → k < n + d.looks → d0.looks < d.looks → Stops d0 (tcoChain E code n d)
  | 0, _, _, _, h0, _, _ => absurd h0 (by omega)
  | n + 1, d, d0, he, _, hk, hd => by
    have stop : ∀ d1 : DState, d0.looks < d1.looks → ∀ fin, Final.on fin = some d1 → Stops d0 (some (.ok fin)) := by
      intro d1 h1 fin h2
      refine ⟨_, rfl, fun fin' d' h3 h4 => ?_⟩
      cases h3
      rw [h2] at h4; cases h4; omega
    rw [tcoChain]
    split
    · split
      · exact stop _ hd _ rfl
      · exact ⟨_, rfl, fun fin d' h => by cases h⟩
    · split
      · rename_i vm _
        rw [poll_atomics (d := { d with vm := vm }) hat he]
        cases ht : E.trig d.looks with
        | true => exact ⟨_, rfl, fun fin d' h1 h2 => by cases h1; cases h2⟩
        | false =>
          have hlt : d.looks < k := by
            rcases Nat.lt_or_ge d.looks k with h | h
            · exact h
            · rw [hr _ h] at ht; cases ht
          exact chain_stops hat hr code n _ d0 he (by omega) (by show k < n + (d.looks + 1); omega) (by show d0.looks < d.looks + 1; omega)
      · exact ⟨_, rfl, fun fin d' h1 h2 => by cases h1; cases h2; exact hd⟩
      all_goals exact ⟨_, rfl, fun fin d' h => by cases h⟩

theorem disp_stops {E : Env} (hat : E.atomics = true) {k : Nat} (hr : ∀ j, k ≤ j → E.trig j = true) {D : Dispatcher} (hD : IsD E D)
    (code : List Instr) (n : Nat) (d : DState) (he : d.enable = true) (h0 : 0 < n) (hk : k < n + d.looks) : Stops d (D n code d) := by
  cases hD with
  | loop => exact loop_stops hat hr code n d he h0 hk
  | tco =>
    show Stops d (tcoRun E code n d)
    unfold tcoRun
    rw [poll_atomics hat he]
    cases ht : E.trig d.looks with
    | true => exact ⟨_, rfl, fun fin d' h1 h2 => by cases h1; cases h2⟩
    | false =>
      dsimp only
      split
      · refine ⟨_, rfl, fun fin d' h1 h2 => ?_⟩
        cases h1; cases h2; exact Nat.lt_succ_self _
      · exact chain_stops hat hr code n _ d he h0 (by show k < n + (d.looks + 1); omega) (Nat.lt_succ_self _)

/-- checkpointing is enabled in every frame -/
def AllOn {S : Wasi} (m : Machine S) : Prop := ∀ f ∈ m.frames, f.enable = true

theorem react_on {S : Wasi} {E : Env} {m m' : Machine S} {f : Frame} {fs : List Frame} (hf : m.frames = f :: fs) (hm : AllOn m)
    {fin : Final} (h : m.react E true f fin = .ok (.running m')) :
    AllOn m' ∧ ∃ d, Final.on fin = some d ∧ m'.looks = d.looks := by
  have hl : ∀ d, AllOn (m.leave f d) ∧ (m.leave f d).looks = d.looks := by
    intro d
    refine ⟨fun x hx => ?_, rfl⟩
    rw [leave_frames hf] at hx
    rcases List.mem_cons.1 hx with rfl | hx
    · exact hm f (by rw [hf]; simp)
    · exact hm x (by rw [hf]; simp [hx])
  have ret : ∀ m1 : Machine S, AllOn m1 → m1.doReturn = .ok (.running m') → AllOn m' ∧ m'.looks = m1.looks := by
    intro m1 h1 h
    unfold Machine.doReturn at h
    split at h
    · cases h
    · rename_i g rest hg
      split at h
      · simp [Res.bind_eq_ok] at h
      · rename_i c rest'
        simp only [Res.bind_eq_ok, Res.pure_eq, Res.ok_inj, Round.running.injEq] at h
        obtain ⟨vs, _, rf, _, rfl⟩ := h
        refine ⟨fun x hx => ?_, rfl⟩
        rcases List.mem_cons.1 hx with rfl | hx
        · exact h1 c (by rw [hg]; simp)
        · exact h1 x (by rw [hg]; simp [hx])
  cases fin with
  | ckpt d => cases h
  | halt d => obtain ⟨a, b⟩ := ret _ (hl d).1 h; exact ⟨a, d, rfl, b⟩
  | yield y d =>
    cases y with
    | ret => obtain ⟨a, b⟩ := ret _ (hl d).1 h; exact ⟨a, d, rfl, b⟩
    | invoke g ps rs =>
      have h' : (m.leave f d).doInvoke E.P true g ps rs = .ok (.running m') := h
      unfold Machine.doInvoke at h'
      split at h'
      · simp only [Res.bind_eq_ok, Res.pure_eq, Res.ok_inj, Round.running.injEq] at h'
        obtain ⟨ls, _, rfl⟩ := h'
        refine ⟨fun x hx => ?_, d, rfl, rfl⟩
        rw [leave_frames hf] at hx
        rcases List.mem_cons.1 hx with rfl | hx
        · rfl
        · rcases List.mem_cons.1 hx with rfl | hx
          · exact hm f (by rw [hf]; simp)
          · exact hm x (by rw [hf]; simp [hx])
      · cases h'
      · cases h'
    | wasi id ps r =>
      have h' : (m.leave f d).doWasi E.hasWasi id ps r = .ok (.running m') := h
      unfold Machine.doWasi at h'
      split at h'
      · simp only [Res.bind_eq_ok] at h'
        obtain ⟨r', _, h'⟩ := h'
        split at h'
        · cases h'
        · split at h'
          · simp only [Res.bind_eq_ok, Res.pure_eq, Res.ok_inj, Round.running.injEq] at h'
            obtain ⟨rf, _, rfl⟩ := h'
            exact ⟨fun x hx => (hl d).1 x hx, d, rfl, rfl⟩
          · simp only [Res.pure_eq, Res.ok_inj, Round.running.injEq] at h'
            subst h'
            exact ⟨fun x hx => (hl d).1 x hx, d, rfl, rfl⟩
      · cases h'

theorem run_stops {S : Wasi} {E : Env} (hat : E.atomics = true) {k : Nat} (hr : ∀ j, k ≤ j → E.trig j = true) {D : Dispatcher}
    (hD : IsD E D) {n : Nat} (hn : k < n) : ∀ (j : Nat) (m : Machine S), AllOn m → 0 < j → k < j + m.looks →
    ∃ r, m.runLoop E D true n j = some r
  | 0, _, _, h0, _ => absurd h0 (by omega)
  | j + 1, m, hm, _, hk => by
    rw [Machine.runLoop]
    cases hf : m.frames with
    | nil =>
      have : m.round E D true n = some (.ok (.done [] m)) := by unfold Machine.round; rw [hf]
      rw [this]; exact ⟨_, rfl⟩
    | cons f fs =>
      have hen : (m.enter f).enable = true := hm f (by rw [hf]; simp)
      obtain ⟨r, h1, h2⟩ := disp_stops hat hr hD (E.P.body f.func) n (m.enter f) hen (by omega) (by omega)
      have hround : m.round E D true n = some (r >>= m.react E true f) := by
        unfold Machine.round; rw [hf]; simp only; rw [h1]
      rw [hround]
      cases hx : r >>= m.react E true f with
      | ok x =>
        cases x with
        | running m' =>
          obtain ⟨fin, rfl, hre⟩ := (Res.bind_eq_ok).1 hx
          obtain ⟨h3, d, h4, h5⟩ := react_on hf hm hre
          have := h2 fin d rfl h4
          have h6 : (m.enter f).looks = m.looks := rfl
          by_cases hj : j = 0
          · subst hj
            -- the flag was already up at this look, so the round ended in a checkpoint
            have hup : E.trig m.looks = true := hr _ (by omega)
            have hc : ∃ d', D n (E.P.body f.func) (m.enter f) = some (.ok (.ckpt d')) := by
              have hp := poll_atomics hat hen
              cases hD with
              | loop =>
                obtain ⟨n', rfl⟩ : ∃ n', n = n' + 1 := ⟨n - 1, by omega⟩
                exact ⟨_, by show loopRun _ _ _ _ = _; rw [loopRun, hp, h6, hup]⟩
              | tco => exact ⟨_, by show tcoRun _ _ _ _ = _; unfold tcoRun; rw [hp, h6, hup]⟩
            obtain ⟨d', hc⟩ := hc
            rw [h1] at hc
            cases hc
            cases h4
          · exact run_stops hat hr hD hn j m' h3 (by omega) (by omega)
        | done vs m' => exact ⟨_, rfl⟩
        | ckpt m' => exact ⟨_, rfl⟩
      | trap e => exact ⟨_, rfl⟩
      | panic => exact ⟨_, rfl⟩
      | ub => exact ⟨_, rfl⟩

/-- C32, for whole processes of the atomics build.  A process started with `--cr` (not with `--restore`) looks at the flag
before every instruction; if the flag is up from its `k`-th look on, the process comes to an end — with a checkpoint, or on its
own — within `k + 1` rounds of `k + 1` looks, whatever the program does: loops, calls and returns do not postpone it. -/
theorem trigger_bound_atomics {S : Wasi} {T : FloatText} {lz : Lz} {H : FloatHost} {file : WFile} (p : Process) (o : Options) (world : S.W)
    (ha : p.atomics = true) (hcr : p.cr = true) (ho : o.restore = none) {k : Nat} (hr : ∀ j, k ≤ j → p.trig j = true)
    (hf : k < p.fuel) : ∃ r, p.run T lz H file o world = some r := by
  cases hload : loadFile file with
  | ok L =>
    rcases command_starts (T := T) (lz := lz) (H := H) hload ho world with ⟨m, ⟨f, ps, _, _, hnew⟩, h⟩ | ⟨x, _, h⟩
    · rw [h p]
      have hm : AllOn { m with frames := setFirstEnable true m.frames } ∧ m.looks = 0 := by
        unfold Machine.new at hnew
        split at hnew
        · split at hnew
          · cases hnew
          · cases hnew
            refine ⟨fun x hx => ?_, rfl⟩
            simp only [setFirstEnable, List.mem_singleton] at hx
            subst hx; rfl
        · cases hnew
      have hr' : ∀ j, k ≤ j → (envOf H p.atomics p.trig L.prog L.hasWasi).trig j = true := hr
      obtain ⟨r, hr1⟩ := run_stops (S := S) (E := envOf H p.atomics p.trig L.prog L.hasWasi) ha hr' (p.built.isD _) hf p.fuel _ hm.1
        (by omega) (by simp only [hm.2]; omega)
      have hrun : m.run (envOf H p.atomics p.trig L.prog L.hasWasi) (p.D (envOf H p.atomics p.trig L.prog L.hasWasi)) p.cr p.fuel = some r := by
        rw [Machine.run, hcr]; exact hr1
      unfold Machine.process
      rw [hrun]
      split
      · rename_i h; cases h
      · exact ⟨_, rfl⟩
      · split <;> exact ⟨_, rfl⟩
      all_goals exact ⟨_, rfl⟩
    · obtain ⟨r, h1, _⟩ := h p
      exact ⟨r, h1⟩
  | trap e => exact ⟨.panic, by simp only [Process.run, command, hload]⟩
  | panic => exact ⟨.panic, by simp only [Process.run, command, hload]⟩
  | ub => exact ⟨.panic, by simp only [Process.run, command, hload]⟩

/-- a process of the session example whose flag goes up at its ninth look and stays up -/
def ready : Process := { SessionEx.stopped 9 with trig := fun j => decide (9 ≤ j) }

example : ∃ r, ready.run (S := SessionEx.wasi) SessionEx.text SessionEx.lz
    Sample.host (some SessionEx.B.file) SessionEx.opts (0 : Nat) = some r :=
  trigger_bound_atomics ready _ _ rfl rfl rfl (k := 9) (fun j h => by simp [ready, h]) (by decide)

/-! ### Restored processes -/

namespace Deaf

/-- function 1 (exported as `run`) calls function 2, which loops for ever; function 0 is imported, so that the file-polling
build looks for the trigger, too -/
def B : SMod where
  types := [⟨[], [.i32]⟩, ⟨[], []⟩]
  imports := [("sched_yield", 0)]
  funcs := [⟨1, [], .op (.call 2) .done⟩, ⟨1, [], .loop .empty (.op (.br 0) .done) .done⟩]
  tables := []
  mems := []
  globals := []
  exports := [("run", .func 1)]
  start := none
  elems := []
  datas := []

/-- `--invoke run` -/
def opts : Options := ⟨"b.wasm".toList, none, "run", [], none, true⟩

/-- the first process stops at its third look, in the loop of function 2 -/
def first : Process := ⟨true, (· == 2), tcoD, .tco, true, none, .fine, 200⟩

/-- the file it writes -/
def saved : Option (List Byte) :=
  match first.run (S := SessionEx.wasi) SessionEx.text SessionEx.lz Sample.host (some B.file) opts (0 : Nat) with
  | some (.ok ⟨0, .checkpointed, some b, some _⟩) => some b
  | _ => none

/-- the code of the loop -/
def spinCode : List Instr → Bool
  | .block true :: .br 0 0 [] [] :: _ => true
  | _ => false

/-- a dispatcher state inside it, with checkpointing disabled -/
def spin (f : Frame) : Bool :=
  !f.enable && match f.labels with
    | [l] => decide (l.ip = 0)
    | [l, _] => decide (l.ip = 1)
    | _ => false

/-- what restoring from the file gives -/
def back (b : List Byte) : Bool :=
  match loadFile (some B.file) with
  | .ok L =>
    match restore SessionEx.lz L.prog L.inst (some b) with
    | (.ok st, _) => match st.frames with
      | f :: _ :: _ => spin f && spinCode (L.prog.body f.func)
      | _ => false
    | _ => false
  | _ => false

theorem saved_back : (match saved with | some b => back b | none => false) = true := by decide +kernel

/-- in the loop, not looking for a trigger -/
def Spins (d : DState) : Prop := d.enable = false ∧ (d.vm.pc = 0 ∧ d.vm.labels.length = 1 ∨ d.vm.pc = 1 ∧ d.vm.labels.length = 2)

theorem step_spins {H : FloatHost} {P : Prog} {rest : List Instr} {len : Nat} {d : DState} (h : Spins d) :
    ∃ i vm, (.block true :: .br 0 0 [] [] :: rest : List Instr)[d.vm.pc]? = some i ∧ step H P len d.vm i = .ok (.cont vm) ∧
      Spins { d with vm := vm } := by
  obtain ⟨he, ⟨h1, h2⟩ | ⟨h1, h2⟩⟩ := h
  · exact ⟨.block true, { d.vm with labels := ⟨true, d.vm.pc + 1, d.vm.pc + 1⟩ :: d.vm.labels, pc := d.vm.pc + 1 },
      by rw [h1]; rfl, rfl, he, .inr ⟨by simp [h1], by simp [h2]⟩⟩
  · refine ⟨.br 0 0 [] [], { d.vm with labels := d.vm.labels.drop (d.vm.labels.length - max (d.vm.labels.length - 1 - 0) 1), pc := 0 },
      by rw [h1]; rfl, rfl, he, .inl ⟨rfl, ?_⟩⟩
    simp [h2]

theorem loop_spins {E : Env} {rest : List Instr} : ∀ (n : Nat) (d : DState), Spins d →
    loopRun E (.block true :: .br 0 0 [] [] :: rest) n d = none
  | 0, _, _ => rfl
  | n + 1, d, h => by
    obtain ⟨i, vm, h1, h2, h3⟩ := step_spins (H := E.H) (P := E.P) (rest := rest) (len := _) h
    rw [loopRun, trigger_ignored_when_disabled_violated E d h.1]
    dsimp only
    rw [h1]; dsimp only
    rw [h2]; dsimp only
    exact loop_spins n _ h3

theorem chain_spins {E : Env} {rest : List Instr} : ∀ (n : Nat) (d : DState), Spins d →
    tcoChain E (.block true :: .br 0 0 [] [] :: rest) n d = none
  | 0, _, _ => rfl
  | n + 1, d, h => by
    obtain ⟨i, vm, h1, h2, h3⟩ := step_spins (H := E.H) (P := E.P) (rest := rest) (len := _) h
    rw [tcoChain, h1]; dsimp only
    rw [h2]; dsimp only
    rw [trigger_ignored_when_disabled_violated E _ h3.1]
    exact chain_spins n _ h3

theorem disp_spins {E : Env} {D : Dispatcher} (hD : IsD E D) {rest : List Instr} (n : Nat) (d : DState) (h : Spins d) :
    D n (.block true :: .br 0 0 [] [] :: rest) d = none := by
  cases hD with
  | loop => exact loop_spins n d h
  | tco =>
    show tcoRun _ _ _ _ = none
    unfold tcoRun
    rw [trigger_ignored_when_disabled_violated E d h.1]
    dsimp only
    split
    · rename_i hpc
      obtain ⟨_, ⟨h1, _⟩ | ⟨h1, _⟩⟩ := h <;> simp [h1] at hpc
    · exact chain_spins n d h

end Deaf

open Deaf in
/-- C32 is false of the code for restored processes: here a first process is checkpointed inside a called function, and the
process restored from that file never stops again, whatever is done with the trigger, with and without `--cr`, in every build:
`enable_checkpoint` is not part of the saved frames, and only the oldest frame gets it back. -/
theorem restored_deaf_violated : ∃ b l, first.run (S := SessionEx.wasi) SessionEx.text SessionEx.lz Sample.host (some Deaf.B.file) Deaf.opts
      (0 : Nat) = some (.ok l) ∧ l.report = .checkpointed ∧ l.ckpt = some b ∧
    ∀ (p : Process) (w : Nat), p.run (S := SessionEx.wasi) SessionEx.text SessionEx.lz Sample.host (some Deaf.B.file)
      { Deaf.opts with restore := some (some b) } w = none := by
  have h := saved_back
  cases hb : saved with
  | none => rw [hb] at h; cases h
  | some b =>
    rw [hb] at h
    simp only at h
    have hs := hb
    unfold saved at hs
    split at hs
    · rename_i c st hrun
      cases hs
      refine ⟨b, _, hrun, rfl, rfl, fun p w => ?_⟩
      unfold back at h
      split at h
      · rename_i L hload
        split at h
        · rename_i st i hre
          split at h
          · rename_i f g fs hfr
            rw [Bool.and_eq_true] at h
            obtain ⟨h1, h2⟩ := h
            simp only [Process.run, command, hload, hre]
            unfold Machine.process
            have hnone : ∀ E : Env, E.P = L.prog → (st.resume (S := SessionEx.wasi) i w).run E (p.D E) p.cr p.fuel = none := by
              intro E hE
              rw [Machine.run]
              cases hfu : p.fuel with
              | zero => rfl
              | succ k =>
                rw [Machine.runLoop]
                have : Machine.round E (p.D E) p.cr (k + 1)
                    ({ st.resume (S := SessionEx.wasi) i w with frames := setFirstEnable p.cr (st.resume (S := SessionEx.wasi) i w).frames }) = none := by
                  have hsf : ∃ rest, setFirstEnable p.cr (st.resume (S := SessionEx.wasi) i w).frames = f :: rest := by
                    simp only [Stacks.resume, hfr, setFirstEnable]; exact ⟨_, rfl⟩
                  obtain ⟨rest, hsf⟩ := hsf
                  unfold Machine.round
                  simp only [hsf, hE]
                  unfold spinCode at h2
                  split at h2
                  · rename_i hcode
                    rw [hcode, disp_spins (p.built.isD E)]
                    simp only [spin, Bool.and_eq_true, Bool.not_eq_true'] at h1
                    refine ⟨h1.1, ?_⟩
                    have h12 := h1.2
                    simp only [Machine.enter]
                    split at h12
                    · rename_i l hl; left; rw [hl]; simpa using h12
                    · rename_i l l2 hl; right; rw [hl]; simpa using h12
                    · cases h12
                  · cases h2
                rw [this]
            rw [hnone _ rfl]
          · cases h
        · cases h
      · cases h
    · cases hs

end Verif.Props
