import Verif.Lemmas.AlarmRun
import Verif.Props.SessionMain
/-
What processes and sessions ask the host (C65).
-/
namespace Verif.Lemmas
open Verif.Model Verif.Spec Verif.Props

variable {S : Wasi} {q : Ask S.W}

/-- what `Machine.process` makes of the end of the run -/
def finish (lz : Lz) (P : Prog) (old : Option (List Byte)) (io : Io) : Option (Res (End S)) → Option (Res (Left S))
  | none => none
  | some (.ok (.done vs m')) => some (.ok ⟨0, .result vs.getLast?, old, some (m'.inst, m'.world)⟩)
  | some (.ok (.ckpt m')) =>
    match m'.checkpoint lz P old io with
    | (.ok (), file) => some (.ok ⟨0, .checkpointed, file, some (m'.inst, m'.world)⟩)
    | (.trap e, file) => some (.ok ⟨0, .runFailed e, file, none⟩)
    | (.panic, _) => some .panic
    | (.ub, _) => some .ub
  | some (.trap e) => some (.ok (Left.failed old e))
  | some .panic => some .panic
  | some .ub => some .ub

theorem process_finish (lz : Lz) (E : Env) (D : Dispatcher) (en : Bool) (fuel : Nat) (old : Option (List Byte)) (io : Io) (m : Machine S) :
    m.process lz E D en fuel old io = finish lz E.P old io (m.run E D en fuel) := by
  unfold Machine.process finish
  rfl

/-- the same file and state -/
noncomputable def ringL (q : Ask S.W) (c : BitVec 32) (l : Left S) : Left (alarm S q c) := ⟨l.status, l.report, l.ckpt, l.state⟩

theorem finish_ring (lz : Lz) (P : Prog) (old : Option (List Byte)) (io : Io) (c : BitVec 32) (y : Option (Res (End S))) :
    finish (S := alarm S q c) lz P old io (y.map (Res.to (ringE q c))) = (finish lz P old io y).map (Res.to (ringL q c)) := by
  cases y with
  | none => rfl
  | some y =>
    cases y with
    | ok x =>
      cases x with
      | done vs m => rfl
      | ckpt m =>
        simp only [Option.map_some, Res.to, ringE, finish]
        rw [show (ring q c m).checkpoint lz P old io = m.checkpoint lz P old io from rfl]
        cases m.checkpoint lz P old io with
        | mk a b => cases a <;> rfl
    | trap e => cases e <;> rfl
    | panic => rfl
    | ub => rfl

variable {lz : Lz} {E : Env} {D : Dispatcher} {en : Bool} {fuel : Nat} {old : Option (List Byte)} {io : Io}

theorem run_asks {m : Machine S} (h : m.Asks E D en fuel q) (c : BitVec 32) :
    (ring q c m).run E D en fuel = some (.trap (.processExit c)) := run_rings c fuel _ h

theorem process_asks {m : Machine S} (h : m.Asks E D en fuel q) (c : BitVec 32) :
    (ring q c m).process lz E D en fuel old io = some (.ok ⟨c.toNat, .exited c, old, none⟩) := by
  rw [process_finish, run_asks h]
  rfl

/-- a process that does not ask: whatever the code of the alarm it does the same, and it is the same without one, if that is no exit -/
theorem process_else {m : Machine S} (h : ¬ m.Asks E D en fuel q) :
    ∃ y, (∀ c, (ring q c m).process lz E D en fuel old io = y.map (Res.to (ringL q c))) ∧
      (y = some .panic ∨ y = m.process lz E D en fuel old io) ∧
      (∀ l, m.process lz E D en fuel old io = some (.ok l) → l.report = .checkpointed → y = some (.ok l)) ∧
      (y = none ↔ m.process lz E D en fuel old io = none) := by
  obtain ⟨y, hy⟩ := run_else fuel _ h
  have hs : ∀ c, (ring q c m).run E D en fuel = y.map (Res.to (ringE q c)) := hy.same
  refine ⟨finish lz E.P old io y, fun c => ?_, ?_, ?_, ?_⟩
  · rw [process_finish, hs c, finish_ring]
  · rw [process_finish]
    cases y with
    | none => exact .inr (by rw [show m.run E D en fuel = none from hy.pending.mp rfl])
    | some y =>
      cases y with
      | ok x => exact .inr (by rw [show m.run E D en fuel = some (.ok x) from (hy.ok x).mp rfl])
      | trap e => exact .inr (by rw [show m.run E D en fuel = some (.trap e) from hy.err e rfl])
      | panic => exact .inl rfl
      | ub => exact .inr (by rw [show m.run E D en fuel = some .ub from hy.ub.mp rfl])
  · intro l hl hr
    obtain ⟨mc, h1, _⟩ := process_ckpt hl hr
    rw [(hy.ok _).mpr h1, ← h1, ← process_finish, hl]
  · rw [process_finish]
    constructor
    · intro k
      have : y = none := by
        cases y with
        | none => rfl
        | some y =>
          cases y with
          | ok x =>
            cases x with
            | done => cases k
            | ckpt m' =>
              simp only [finish] at k
              split at k <;> cases k
          | _ => cases k
      rw [show m.run E D en fuel = none from hy.pending.mp this]
      rfl
    · intro k
      have : m.run E D en fuel = none := by
        cases hx : m.run E D en fuel with
        | none => rfl
        | some x =>
          rw [hx] at k
          cases x with
          | ok x =>
            cases x with
            | done => cases k
            | ckpt m' =>
              simp only [finish] at k
              split at k <;> cases k
          | _ => cases k
      rw [hy.pending.mpr this]
      rfl

theorem alarm_keeps (hS : WasiKeepsSize S) (c : BitVec 32) : WasiKeepsSize (alarm S q c) :=
  fun id ps mem w res mem' w' h => hS id ps mem w res mem' w' (alarm_ok.mp h).2

/-! ### Undisturbed -/

/-- undisturbed, the machine asks `q` sooner or later -/
def Ever (H : FloatHost) (P : Prog) (w : Bool) (m : Machine S) (q : Ask S.W) : Prop :=
  ∃ fuel, m.Asks (envOf H false never P w) (loopD (envOf H false never P w)) false fuel q

theorem asks_iff_runs (qd : QuietD E D) {m : Machine S} :
    (∃ fuel, m.Asks E D en fuel q) ↔ ∀ c, Runs E D en (ring q c m) (.trap (.processExit c)) := by
  constructor
  · rintro ⟨fuel, h⟩ c
    exact ⟨fuel, _, run_asks h c, rfl⟩
  · intro h
    have hx : ∀ c, ∃ n, (ring q c m).run E D en n = some (.trap (.processExit c)) := by
      intro c
      obtain ⟨n, r, h1, h2⟩ := h c
      refine ⟨n, ?_⟩
      cases r with
      | ok x => cases x <;> cases h2
      | trap e => cases h2; exact h1
      | panic => cases h2
      | ub => cases h2
    obtain ⟨n0, h0⟩ := hx 0
    obtain ⟨n1, h1⟩ := hx 1
    refine ⟨max n0 n1, Classical.byContradiction fun hn => ?_⟩
    obtain ⟨y, hy⟩ := run_else _ _ hn
    have h0 := (hy.same 0).symm.trans (runLoop_mono qd.faithful (Nat.le_max_left n0 n1) (Nat.le_max_left n0 n1) h0)
    have h1 := (hy.same 1).symm.trans (runLoop_mono qd.faithful (Nat.le_max_right n0 n1) (Nat.le_max_right n0 n1) h1)
    cases y with
    | none => cases h0
    | some y =>
      cases y with
      | trap e =>
        simp only [Option.map_some, Res.to, Option.some.injEq, Res.trap.injEq] at h0 h1
        rw [h0] at h1
        simp at h1
      | _ => simp [Res.to] at h0

theorem ever_iff_runs {H : FloatHost} {P : Prog} (hin : InsideP P) {w a : Bool} {D : Dispatcher} (hD : IsD (envOf H a never P w) D)
    {en : Bool} {m : Machine S} :
    Ever H P w m q ↔ ∀ c, Runs (envOf H a never P w) D en (ring q c m) (.trap (.processExit c)) := by
  refine (asks_iff_runs (quietD (E := envOf H false never P w) .loop)).trans (forall_congr' fun c => ?_)
  exact ⟨quiet_any hin .loop hD, quiet_any hin hD .loop⟩

/-- it does not matter what the process was built for -/
theorem ever_iff {H : FloatHost} {P : Prog} (hin : InsideP P) {w a : Bool} {D : Dispatcher} (hD : IsD (envOf H a never P w) D)
    {en : Bool} {m : Machine S} : (∃ fuel, m.Asks (envOf H a never P w) D en fuel q) ↔ Ever H P w m q :=
  (asks_iff_runs (quietD (E := envOf H a never P w) hD)).trans (ever_iff_runs hin hD).symm

/-! ### Processes -/

section
variable {H : FloatHost} {P : Prog} {w a : Bool} {trig : Nat → Bool} {lv : Nat → Nat → Nat} {m : Machine S}

theorem sized_ring (c : BitVec 32) (h : SizedM P lv m) : SizedM P lv (ring q c m) := ⟨h.1, h.2⟩

theorem ready_ring {i : Inst} (c : BitVec 32) (h : Ready i m) : Ready i (ring q c m) := ⟨h.1, h.2, h.3, h.4⟩

/-- what a process asks, an undisturbed one would ask -/
theorem process_ever (lz : Lz) (hl : Limits P lv) (hD : IsD (envOf H a trig P w) D) (hz : SizedM P lv m)
    (h : m.Asks (envOf H a trig P w) D en fuel q) : Ever H P w m q := by
  refine (ever_iff_runs (a := a) (en := false) hl.inside .loop).mpr fun c => ?_
  obtain ⟨o, h1, h2⟩ := process_end (E := envOf H a trig P w) (D' := loopD (envOf H a never P w)) (en' := false) hl.shaped hl.inside
    hl.types hl.regs hD .loop (sized_ring c hz)
    (process_asks (lz := lz) (old := none) (io := .fine) h c) (by intro l e; cases e; exact ⟨nofun, nofun, nofun⟩)
  have : o = .trap (.processExit c) := by
    cases o with
    | trap e => cases e <;> simp [seen, seenRun, failureReport] at h2 ⊢; exact h2.symm
    | _ => simp [seen, seenRun] at h2
  rw [this] at h1
  exact h1

/-- a process that comes to an end has asked everything an undisturbed one would ask -/
theorem process_all (hl : Limits P lv) (hD : IsD (envOf H a trig P w) D) (hz : SizedM P lv m) {r : Res (Left S)}
    (h : m.process lz (envOf H a trig P w) D en fuel old io = some r) (hr : Finished r) (he : Ever H P w m q) :
    m.Asks (envOf H a trig P w) D en fuel q := by
  refine Classical.byContradiction fun hn => ?_
  obtain ⟨y, hy, h1, _, _⟩ := process_else (lz := lz) (old := old) (io := io) hn
  have hf : ∃ x, y = some x ∧ Finished x := by
    rcases h1 with rfl | h1
    · exact ⟨_, rfl, nofun⟩
    · rw [h] at h1; exact ⟨r, h1, hr⟩
  obtain ⟨x, rfl, hx⟩ := hf
  have key : ∀ c, seen (Res.to (ringL q c) x) = .ok (.exited c, none) := by
    intro c
    obtain ⟨o, k1, k2⟩ := process_end (E := envOf H a trig P w) (D' := loopD (envOf H a never P w)) (en' := false) hl.shaped hl.inside
      hl.types hl.regs hD .loop (sized_ring c hz) (hy c) (by
        intro l e
        cases x with
        | ok l' => cases e; exact hx l' rfl
        | _ => cases e)
    have e := runs_unique (quietD (E := envOf H a never P w) .loop) k1 ((ever_iff_runs (a := a) (en := false) hl.inside .loop).mp he c)
    rw [k2, e]
    rfl
  have k0 := key 0
  have k1 := key 1
  cases x with
  | ok l =>
    simp only [Res.to, seen, ringL, Res.ok.injEq, Prod.mk.injEq] at k0 k1
    have e := k0.1.symm.trans k1.1
    simp at e
  | _ => cases k0

/-- what is asked from a machine on is what the process asks that stops for a checkpoint, and what is asked after it was restored -/
theorem process_splits (hS : WasiKeepsSize S) (hl : Limits P lv) (hD : IsD (envOf H a trig P w) D) (hz : SizedM P lv m) {i : Inst}
    (hrd : Ready i m) {l : Left S} (h : m.process lz (envOf H a trig P w) D en fuel old io = some (.ok l))
    (hrep : l.report = .checkpointed) {b : List Byte} (hb : l.ckpt = some b) {i' : Inst} {wd : S.W} (hs : l.state = some (i', wd))
    (hlen : b.length < 2 ^ 32) :
    ∃ st j, restore lz P i (some b) = (.ok st, j) ∧ SizedM P lv (st.resume (S := S) j wd) ∧ Ready i (st.resume (S := S) j wd) ∧
      ∀ q, Ever H P w m q ↔ m.Asks (envOf H a trig P w) D en fuel q ∨ Ever H P w (st.resume (S := S) j wd) q := by
  obtain ⟨st, j, k1, k2, k3, _⟩ := process_moves hS (E := envOf H a never P w) hl trig hD hz hrd h hrep hb hs hlen
  refine ⟨st, j, k1, k2, k3, fun q => ?_⟩
  by_cases hq : m.Asks (envOf H a trig P w) D en fuel q
  · exact ⟨fun _ => .inl hq, fun _ => process_ever lz hl hD hz hq⟩
  · obtain ⟨y, hy, _, hy', _⟩ := process_else (lz := lz) (old := old) (io := io) hq
    cases hy' l h hrep
    have e : Ever H P w m q ↔ Ever H P w (st.resume (S := S) j wd) q := by
      rw [ever_iff_runs (a := a) (en := false) hl.inside .loop, ever_iff_runs (a := a) (en := false) hl.inside .loop]
      refine forall_congr' fun c => ?_
      obtain ⟨st', j', k1', _, _, k4⟩ := process_moves (alarm_keeps hS c) (E := envOf H a never P w) hl trig hD (sized_ring c hz)
        (ready_ring c hrd) (hy c) hrep hb hs hlen
      have e : st' = st ∧ j' = j := by
        have := k1'.symm.trans k1
        simp only [Prod.mk.injEq, Res.ok.injEq] at this
        exact this
      obtain ⟨rfl, rfl⟩ := e
      exact k4 _ _ false false _ .loop .loop
    rw [e]
    exact ⟨.inr, fun h => h.resolve_left hq⟩

end

/-! ### Sessions -/

section
variable {T : FloatText} {H : FloatHost} {file : WFile} {L : Loaded}

theorem begins_run {o : Options} {world : S.W} {L : Loaded} {m : Machine S} (h : Begins T lz file o world L m) (p : Process) :
    p.run T lz H file o world =
      m.process lz (envOf H p.atomics p.trig L.prog L.hasWasi) (p.D (envOf H p.atomics p.trig L.prog L.hasWasi)) p.cr p.fuel p.old p.io := by
  cases h with
  | fresh hL ho hf hp hm => simp only [Process.run, command, hL, ho, hf, hp, hm]
  | resumed hL ho hr => simp only [Process.run, command, hL, ho, hr]

theorem begins_unique {o : Options} {world : S.W} {L L' : Loaded} {m m' : Machine S} (h : Begins T lz file o world L m)
    (h' : Begins T lz file o world L' m') : L = L' ∧ m = m' := by
  cases h with
  | fresh hL ho hf hp hm =>
    cases h' with
    | fresh hL' ho' hf' hp' hm' =>
      rw [hL] at hL'; cases hL'
      rw [hf] at hf'; cases hf'
      rw [hp] at hp'; cases hp'
      rw [hm] at hm'; cases hm'
      exact ⟨rfl, rfl⟩
    | resumed hL' ho' hr' => rw [ho] at ho'; cases ho'
  | resumed hL ho hr =>
    cases h' with
    | fresh hL' ho' hf' hp' hm' => rw [ho] at ho'; cases ho'
    | resumed hL' ho' hr' =>
      rw [hL] at hL'; cases hL'
      rw [ho] at ho'; cases ho'
      rw [hr] at hr'; cases hr'
      exact ⟨rfl, rfl⟩

theorem asks_begins {o : Options} {world : S.W} {m : Machine S} (h : Begins T lz file o world L m) (p : Process) :
    p.Asks T lz H file o world q ↔
      m.Asks (envOf H p.atomics p.trig L.prog L.hasWasi) (p.D (envOf H p.atomics p.trig L.prog L.hasWasi)) p.cr p.fuel q := by
  constructor
  · rintro ⟨L', m', hb, ha⟩
    obtain ⟨rfl, rfl⟩ := begins_unique h hb
    exact ha
  · exact fun ha => ⟨L, m, h, ha⟩

theorem undisturbed_begins (hin : InsideP L.prog) {o : Options} {world : S.W} {m : Machine S}
    (h : Begins T lz file o world L m) (p : Process) :
    (∃ fuel, ({ p.undisturbed with fuel := fuel }).Asks T lz H file o world q) ↔ Ever H L.prog L.hasWasi m q := by
  rw [← ever_iff (a := p.atomics) (en := p.cr) hin (p.built.isD _)]
  exact exists_congr fun fuel => asks_begins h _

theorem starts_or {o : Options} (hload : loadFile file = .ok L) (ho : o.restore = none) (world : S.W) :
    (∃ m, Begins T lz file o world L m ∧ StartsAs T L o world m) ∨
    ((∀ L' m, ¬ Begins T lz file o world L' m) ∧ ∀ (H : FloatHost) (p : Process) l, p.run T lz H file o world = some (.ok l) → l.report ≠ .checkpointed) := by
  by_cases h : ∃ m, StartsAs (S := S) T L o world m
  · obtain ⟨m, f, ps, h1, h2, h3⟩ := h
    exact .inl ⟨m, .fresh hload ho h1 h2 h3, f, ps, h1, h2, h3⟩
  · refine .inr ⟨?_, ?_⟩
    · intro L' m hb
      cases hb with
      | fresh hL ho' hf hp hm =>
        rw [hload] at hL; cases hL
        exact h ⟨m, _, _, hf, hp, hm⟩
      | resumed hL ho' => rw [ho] at ho'; cases ho'
    · intro H p l hp hl
      rcases command_starts (T := T) (lz := lz) (H := H) hload ho world with ⟨m, hm, _⟩ | ⟨x, hx, hr⟩
      · exact h ⟨m, hm⟩
      · obtain ⟨r, h1, h2⟩ := hr p
        rw [hp] at h1
        cases h1
        refine hx (l.state.map fun p => (storeOf p.1, p.2)) ?_
        rw [← h2]
        simp only [seen, hl]

/-- where a session stands -/
structure Stands (T : FloatText) (lz : Lz) (H : FloatHost) (file : WFile) (L : Loaded) (lv : Nat → Nat → Nat) (m₀ : Machine S)
    (o' : Options) (w' : S.W) (A : Ask S.W → Prop) (m : Machine S) : Prop where
  begins : Begins T lz file o' w' L m
  sized : SizedM L.prog lv m
  ready : Ready L.inst m
  asks : ∀ q, Ever H L.prog L.hasWasi m₀ q ↔ A q ∨ Ever H L.prog L.hasWasi m q

theorem soFar_stands (hS : WasiKeepsSize S) (hload : loadFile file = .ok L) {lv : Nat → Nat → Nat} (hl : Limits L.prog lv)
    {o : Options} (ho : o.restore = none) {world : S.W} {o' : Options} {w' : S.W} {A : Ask S.W → Prop}
    (h : SoFar T lz H file o world o' w' A) :
    (∃ m₀ m, Begins T lz file o world L m₀ ∧ Stands T lz H file L lv m₀ o' w' A m) ∨
    ((∀ L' m, ¬ Begins T lz file o world L' m) ∧ o' = o ∧ w' = world ∧ ∀ q, ¬ A q) := by
  induction h with
  | start =>
    rcases starts_or (T := T) (lz := lz) hload ho world with ⟨m, hb, f, ps, -, -, hM⟩ | ⟨hn, _⟩
    · exact .inl ⟨m, m, hb, hb, new_sized hl.shaped hl.types hM, new_ready hM, fun q => ⟨.inr, fun h => h.resolve_left id⟩⟩
    · exact .inr ⟨hn, rfl, rfl, fun _ => id⟩
  | @move o' w' A before p l b i w h hrep hb hs hlen ih =>
    rcases ih with ⟨m₀, m, h0, st⟩ | ⟨hn, rfl, rfl, _⟩
    · rw [begins_run st.begins] at h
      obtain ⟨s, j, k1, k2, k3, k4⟩ := process_splits hS hl (p.built.isD _) st.sized st.ready h hrep hb hs hlen
      refine .inl ⟨m₀, s.resume j w, h0, .resumed hload rfl k1, k2, k3, fun q => ?_⟩
      rw [st.asks q, k4 q, or_assoc]
      rw [asks_begins st.begins]
    · rcases starts_or (S := S) (T := T) (lz := lz) hload ho w' with ⟨m, hb', _⟩ | ⟨_, hno⟩
      · exact (hn _ _ hb').elim
      · exact (hno H p l h hrep).elim

/-- Sessions: `SoFar`, with one more process `p` now. -/
theorem session_asks_any (hS : WasiKeepsSize S) (hload : loadFile file = .ok L) {lv : Nat → Nat → Nat} (hl : Limits L.prog lv)
    {o : Options} (ho : o.restore = none) {world : S.W} {o' : Options} {w' : S.W} {A : Ask S.W → Prop}
    (h : SoFar T lz H file o world o' w' A) (p q' : Process) (q : Ask S.W) :
    (A q ∨ p.Asks T lz H file o' w' q → ∃ fuel, ({ q'.undisturbed with fuel := fuel }).Asks T lz H file o world q) ∧
    ((∃ fuel, ({ q'.undisturbed with fuel := fuel }).Asks T lz H file o world q) →
      A q ∨ ∃ fuel, ({ q'.undisturbed with fuel := fuel }).Asks T lz H file o' w' q) ∧
    (∀ r, p.run T lz H file o' w' = some r → Finished r →
      (∃ fuel, ({ q'.undisturbed with fuel := fuel }).Asks T lz H file o world q) → A q ∨ p.Asks T lz H file o' w' q) := by
  rcases soFar_stands hS hload hl ho h with ⟨m₀, m, h0, st⟩ | ⟨hn, rfl, rfl, hA⟩
  · rw [undisturbed_begins hl.inside h0, undisturbed_begins hl.inside st.begins, asks_begins st.begins, st.asks]
    refine ⟨?_, id, ?_⟩
    · rintro (h | h)
      · exact .inl h
      · exact .inr (process_ever lz hl (p.built.isD _) st.sized h)
    · rintro r hr hf (h | h)
      · exact .inl h
      · rw [begins_run st.begins] at hr
        exact .inr (process_all hl (p.built.isD _) st.sized hr hf h)
  · have no : ∀ p : Process, ¬ p.Asks T lz H file o' w' q := fun p ⟨L', m, hb, _⟩ => hn L' m hb
    exact ⟨fun h => (h.elim (hA q) (no p)).elim, fun ⟨_, h⟩ => (no _ h).elim, fun _ _ _ ⟨_, h⟩ => (no _ h).elim⟩
end

end Verif.Lemmas
