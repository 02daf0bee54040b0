import Verif.Spec.Untouched
import Verif.Props.NoTrace
/-
C54, C77 for programs that may contain any instructions, stopped only when tables and data segments are as loaded.
-/
namespace Verif.Props
open Verif.Model Verif.Spec Verif.Lemmas

/-- what `Ready` says of a machine, but for tables and data segments -/
structure Sound3 {S : Wasi} (i : Inst) (m : Machine S) : Prop where
  labelled : Labelled m
  ptr : PtrOk m
  shape : SameShape i m.inst

theorem Sound3.round {S : Wasi} (hS : WasiKeepsSize S) {E : Env} {D : Dispatcher} (hD : IsD E D)
    {en : Bool} {i : Inst} {m : Machine S} {r : Round S} {n : Nat} (h : Sound3 i m)
    (hr : m.round E D en n = some (.ok r)) : Sound3 i r.m :=
  ⟨lab_round hD hr h.labelled, ptr_round hD hr h.ptr, shape_round hS hD hr h.shape⟩

theorem Sound3.setFirst {S : Wasi} {i : Inst} {m : Machine S} (en : Bool) (h : Sound3 i m) :
    Sound3 i { m with frames := setFirstEnable en m.frames } :=
  ⟨setFirst_labelled en h.labelled, setFirst_ptr en h.ptr, h.shape⟩

theorem new_sound3 {S : Wasi} {P : Prog} {i : Inst} {w : S.W} {f : Nat} {ps : List Val} {m : Machine S}
    (hnew : Machine.new P i w f ps = .ok m) : Sound3 i m :=
  have h := new_ready hnew
  ⟨h.labelled, h.ptr, h.shape⟩

/-- `Limits` without the condition on instructions -/
structure Bounds (P : Prog) (L : Nat → Nat → Nat) : Prop where
  shaped : ShapedP P L
  types : SmallTypes P
  regs : ∀ f, SmallRegs (P.body f)
  bodies : ∀ f, (P.body f).length < 2 ^ 32
  funcs : P.funcs.length ≤ 2 ^ 32

theorem Bounds.inside {P : Prog} {L : Nat → Nat → Nat} (h : Bounds P L) : InsideP P := fun f => (h.shaped f).inside

theorem small_bounds {Q : SProg} {globals : List Cls} {P : Prog} (h : Q.compile globals = some P) (hm : Small Q) : ∃ lv, Bounds P lv := by
  obtain ⟨lv, hlv⟩ := (compile_preprocessed h).shaped
  refine ⟨lv, hlv, ?_, ?_, ?_, Nat.le_trans (compile_count h) hm.funcs⟩
  · intro f t code hf
    obtain ⟨ls, b, h1, _⟩ := compile_code h hf
    exact hm.results t ls b h1
  · intro f
    rcases body_or (P := P) f with e | ⟨t, code, hf, e⟩
    · rw [e]; nofun
    · obtain ⟨ls, b, _, h2⟩ := compile_code h hf
      rw [e]; exact (compile_came h2).1
  · intro f
    rcases body_or (P := P) f with e | ⟨t, code, hf, e⟩
    · rw [e]; decide
    · obtain ⟨ls, b, h1, h2⟩ := compile_code h hf
      rw [e]; exact Nat.lt_of_le_of_lt (compile_len h2) (hm.bodies t ls b h1)

/-- one process that stops for a checkpoint with tables and data segments as loaded, and the restore in the next -/
theorem clean_moves {S : Wasi} (hS : WasiKeepsSize S) {lz : Lz} {E : Env} {L : Nat → Nat → Nat} (hl : Bounds E.P L) {D : Dispatcher}
    (trig : Nat → Bool) (hD : IsD { E with trig := trig } D) {en : Bool} {fuel : Nat} {old : Option (List Byte)} {io : Io} {i : Inst}
    {m : Machine S} (hm : SizedM E.P L m) (hrd : Sound3 i m) {l : Left S}
    (h : m.process lz { E with trig := trig } D en fuel old io = some (.ok l))
    (hrep : l.report = .checkpointed) {b : List Byte} (hb : l.ckpt = some b) {i' : Inst} {w : S.W} (hs : l.state = some (i', w))
    (hclean : i'.tables = i.tables ∧ i'.datas = i.datas) (hlen : b.length < 2 ^ 32) :
    ∃ st j mc, restore lz E.P i (some b) = (.ok st, j) ∧ SizedM E.P L (st.resume (S := S) j w) ∧ Sound3 i (st.resume (S := S) j w) ∧
      m.run { E with trig := trig } D en fuel = some (.ok (.ckpt mc)) ∧ MSim mc (st.resume j w) ∧
      SameSeg j i ∧ ∀ D' D'' en' en'' o, IsD E.quiet D' → IsD E.quiet D'' →
      (Runs E.quiet D' en' m o ↔ Runs E.quiet D'' en'' (st.resume (S := S) j w) o) := by
  obtain ⟨mc, hrun, hck, hst⟩ := process_ckpt h hrep
  rw [hs] at hst
  cases hst
  rw [hb] at hck
  have hck : mc.checkpoint lz E.P old io = (.ok (), some b) := hck
  have hmc : SizedM E.P L mc := run_inv (SizedM E.P L)
    (fun m r n hm hr => sized_round (E := { E with trig := trig }) hl.shaped hl.types hl.regs hD hr hm) fuel _ mc (hm.setFirst en) hrun
  have h3 : Sound3 i mc := run_inv (Sound3 i)
    (fun m r n hm hr => hm.round hS (E := { E with trig := trig }) hD hr) fuel _ mc (hrd.setFirst en) hrun
  have hrc : Ready i mc := ⟨h3.labelled, h3.ptr, h3.shape, hclean.1, hclean.2⟩
  obtain ⟨s, h1, h2⟩ := checkpoint_written hck
  have hf := snapshot_fits hmc hl.bodies hl.funcs h1 h2 hlen
  obtain ⟨st, j, hr, e1, e2, e3, e4, e5, e6⟩ := restore_reproduces lz E.P mc s h1 hf old io (some b) hck i hrc.shape
  have hsim := resume_sim hrc h1 hf hck hr
  have hready : Sound3 i (st.resume (S := S) j mc.world) := by
    refine ⟨?_, ?_, ⟨?_, ?_⟩⟩
    · intro f hfr
      simp only [Stacks.resume, e2, List.mem_map] at hfr
      obtain ⟨g, hg, rfl⟩ := hfr
      exact hrc.labelled g hg
    · intro f fs hfr
      simp only [Stacks.resume, e2] at hfr
      cases hx : mc.frames with
      | nil => rw [hx] at hfr; cases hfr
      | cons a l => rw [hx] at hfr; cases hfr; rfl
    · exact hrc.shape.globals.trans (by rw [Stacks.resume, e4])
    · exact hrc.shape.mem.trans (by rw [Stacks.resume, e3])
  refine ⟨st, j, mc, hr, hmc.resumed _ e1 e2, hready, hrun, hsim, ⟨e5, e6⟩, ?_⟩
  intro D' D'' en' en'' o hD' hD''
  have q' := quietD hD'
  have q'' := quietD hD''
  rw [runs_iff q'.faithful, runs_iff q''.faithful]
  have a1 : MSim { m with frames := setFirstEnable en' m.frames } { m with frames := setFirstEnable en m.frames } :=
    (setFirst_msim m en').symm.trans (setFirst_msim m en)
  have a2 : RunsL E.quiet D' en' { m with frames := setFirstEnable en m.frames } o ↔ RunsL E.quiet D' en' mc o :=
    run_cut (E := { E with trig := trig }) hl.inside hD (D' := D') hD' o fuel _ mc (setFirst_labelled en hrd.labelled) hrun
  have a3 : MSim mc { st.resume (S := S) j mc.world with
      frames := setFirstEnable en'' (st.resume (S := S) j mc.world).frames } :=
    hsim.trans (setFirst_msim _ en'')
  constructor
  · intro h
    exact runsL_sim q' q'' hl.inside a3 (a2.mp (runsL_sim q' q' hl.inside a1 h))
  · intro h
    exact runsL_sim q' q' hl.inside a1.symm (a2.mpr (runsL_sim q'' q' hl.inside a3.symm h))

/-- a session that goes on from a checkpoint file -/
theorem clean_from {S : Wasi} (hS : WasiKeepsSize S) {T : FloatText} {lz : Lz} {H : FloatHost} {file : WFile} {L : Loaded}
    (hload : loadFile file = .ok L) {lv : Nat → Nat → Nat} (hl : Bounds L.prog lv) {o : Options} {world : S.W} {r : Res (Left S)}
    (h : CleanSession T lz H file o world r) : ∀ (b : List Byte) (st : Stacks) (i : Inst), o.restore = some (some b) →
    restore lz L.prog L.inst (some b) = (.ok st, i) → SizedM L.prog lv (st.resume (S := S) i world) →
    Sound3 L.inst (st.resume (S := S) i world) →
    ∃ q, Runs (envOf H false never L.prog L.hasWasi) (loopD (envOf H false never L.prog L.hasWasi)) false
      (st.resume (S := S) i world) q ∧ seen r = seenRun q := by
  induction h with
  | @last o world r p h hr =>
    intro b st i ho hre hz hrd
    simp only [Process.run, command, hload, ho, hre] at h
    obtain ⟨q, h1, h2⟩ := process_end (D' := loopD (envOf H p.atomics never L.prog L.hasWasi)) (en' := false)
      (E := envOf H p.atomics p.trig L.prog L.hasWasi) hl.shaped hl.inside hl.types hl.regs (p.built.isD _) .loop hz h hr
    exact ⟨q, quiet_any hl.inside .loop .loop h1, h2⟩
  | @move o world r p l b' i' w h hrep hb hs hlen hcl next ih =>
    intro b st i ho hre hz hrd
    simp only [Process.run, command, hload, ho, hre] at h
    obtain ⟨st2, j, _, k1, k2, k3, -, -, -, k4⟩ := clean_moves hS (E := envOf H p.atomics never L.prog L.hasWasi) hl p.trig (p.built.isD _)
      hz hrd h hrep hb hs (hcl L hload) hlen
    obtain ⟨q, h1, h2⟩ := ih b' st2 j rfl k1 k2 k3
    have h3 := (k4 (loopD (envOf H p.atomics never L.prog L.hasWasi)) (loopD (envOf H p.atomics never L.prog L.hasWasi)) false false q
      .loop .loop).mpr (quiet_any hl.inside .loop .loop h1)
    exact ⟨q, quiet_any hl.inside .loop .loop h3, h2⟩

theorem clean_any {S : Wasi} (hS : WasiKeepsSize S) {T : FloatText} {lz : Lz} {H : FloatHost} {file : WFile} {L : Loaded}
    (hload : loadFile file = .ok L) {lv : Nat → Nat → Nat} (hl : Bounds L.prog lv) {o : Options} (ho : o.restore = none) {world : S.W}
    {r : Res (Left S)} (h : CleanSession T lz H file o world r) (q : Process) :
    ∃ fuel r', ({ q.undisturbed with fuel := fuel }).run T lz H file o world = some r' ∧ seen r' = seen r := by
  rcases command_starts (T := T) (lz := lz) (H := H) hload ho world with ⟨m, ⟨f, ps, -, -, hM⟩, hrun⟩ | ⟨x, hx, hrun⟩
  · have hz : SizedM L.prog lv m := new_sized hl.shaped hl.types hM
    have hrd : Sound3 L.inst m := new_sound3 hM
    have key : ∃ v, Runs (envOf H false never L.prog L.hasWasi) (loopD (envOf H false never L.prog L.hasWasi)) false m v ∧
        seen r = seenRun v := by
      cases h with
      | last p h hr =>
        rw [hrun] at h
        obtain ⟨v, h1, h2⟩ := process_end (D' := loopD (envOf H p.atomics never L.prog L.hasWasi)) (en' := false)
          (E := envOf H p.atomics p.trig L.prog L.hasWasi) hl.shaped hl.inside hl.types hl.regs (p.built.isD _) .loop hz h hr
        exact ⟨v, quiet_any hl.inside .loop .loop h1, h2⟩
      | @move o world r p l b' i' w h hrep hb hs hlen hcl next =>
        rw [hrun] at h
        obtain ⟨st2, j, _, k1, k2, k3, -, -, -, k4⟩ := clean_moves hS (E := envOf H p.atomics never L.prog L.hasWasi) hl p.trig
          (p.built.isD _) hz hrd h hrep hb hs (hcl L hload) hlen
        obtain ⟨v, h1, h2⟩ := clean_from hS hload hl next b' st2 j rfl k1 k2 k3
        have h3 := (k4 (loopD (envOf H p.atomics never L.prog L.hasWasi)) (loopD (envOf H p.atomics never L.prog L.hasWasi)) false
          false v .loop .loop).mpr (quiet_any hl.inside .loop .loop h1)
        exact ⟨v, quiet_any hl.inside .loop .loop h3, h2⟩
    obtain ⟨v, h1, h2⟩ := key
    obtain ⟨fuel, r', h3, h4⟩ := process_runs (lz := lz) (old := q.old) (io := q.io)
      (quietD (E := envOf H q.atomics never L.prog L.hasWasi) (q.built.isD _))
      (quiet_any (en' := q.cr) hl.inside .loop (q.built.isD (envOf H q.atomics never L.prog L.hasWasi)) h1)
    exact ⟨fuel, r', by rw [hrun]; exact h3, h4.trans h2.symm⟩
  · cases h with
    | last p h hr =>
      obtain ⟨r1, h1, h2⟩ := hrun p
      rw [h] at h1; cases h1
      obtain ⟨r', h3, h4⟩ := hrun { q.undisturbed with fuel := 0 }
      exact ⟨0, r', h3, h4.trans h2.symm⟩
    | move p h hrep hb hs hlen hcl next =>
      obtain ⟨r1, h1, h2⟩ := hrun p
      rw [h] at h1; cases h1
      simp only [seen, hrep] at h2
      exact absurd h2.symm (hx _)

/-- two undisturbed processes, whatever they were built for, that both end, show the same -/
theorem clean_unique {S : Wasi} {T : FloatText} {lz : Lz} {H : FloatHost} {file : WFile} {L : Loaded}
    (hload : loadFile file = .ok L) {lv : Nat → Nat → Nat} (hl : Bounds L.prog lv) {o : Options} (ho : o.restore = none) {world : S.W}
    {p q : Process} {r r' : Res (Left S)} (hp : p.undisturbed.run T lz H file o world = some r)
    (hq : q.undisturbed.run T lz H file o world = some r') : seen r = seen r' := by
  rcases command_starts (T := T) (lz := lz) (H := H) hload ho world with ⟨m, -, hrun⟩ | ⟨x, hx, hrun⟩
  · rw [hrun] at hp hq
    obtain ⟨v, h1, h2⟩ := process_quiet (quietD (E := envOf H p.atomics never L.prog L.hasWasi) (p.built.isD _)) hp
    obtain ⟨v', h3, h4⟩ := process_quiet (quietD (E := envOf H q.atomics never L.prog L.hasWasi) (q.built.isD _)) hq
    have e := runs_unique (quietD (E := envOf H q.atomics never L.prog L.hasWasi) (q.built.isD _))
      (quiet_any (en' := q.cr) hl.inside (p.built.isD _) (q.built.isD (envOf H q.atomics never L.prog L.hasWasi)) h1) h3
    rw [h2, h4, e]
  · obtain ⟨r1, h1, h2⟩ := hrun p.undisturbed
    obtain ⟨r2, h3, h4⟩ := hrun q.undisturbed
    rw [hp] at h1; rw [hq] at h3
    cases h1; cases h3
    rw [h2, h4]

/-- **C54** for programs with any instructions, also `table.set`, `table.fill` and `data.drop`: it is enough that tables and data
segments are, at each of the session's checkpoints, as the module file describes them — not yet written, or written back.  (Without
that the claim is false: `table_write_lost_violated`.)  Start the command on a module file, let it be checkpointed any number of
times, each time continued by a process — possibly built otherwise, with or without `--cr` — that restores the file it left.  If
that session comes to an end, a single undisturbed process, however built, comes to an end too and shows the same, tables and data
segments included; and it can show nothing else. -/
theorem clean_session_transparent {S : Wasi} (hS : WasiKeepsSize S) {T : FloatText} {lz : Lz} {A : SMod} {H : FloatHost}
    (h : A.WellFormed S H) {P : Prog} (hc : (A.source H).compile A.globalTypes = some P) (hm : Small (A.source H)) {o : Options}
    (ho : o.restore = none) {world : S.W} {r : Res (Left S)} (hs : CleanSession T lz H (some A.file) o world r) (q : Process) :
    (∃ fuel r', ({ q.undisturbed with fuel := fuel }).run T lz H (some A.file) o world = some r' ∧ seen r' = seen r) ∧
    (∀ fuel r', ({ q.undisturbed with fuel := fuel }).run T lz H (some A.file) o world = some r' → seen r' = seen r) := by
  obtain ⟨fs, L, _, _, hload, rfl, _, _⟩ := load_ok h hc
  obtain ⟨lv, hl⟩ := small_bounds hc hm
  obtain ⟨fuel, r', h1, h2⟩ := clean_any hS hload hl ho hs q
  refine ⟨⟨fuel, r', h1, h2⟩, fun fuel' r'' h3 => ?_⟩
  rw [← h2]
  exact clean_unique (p := { q with fuel := fuel' }) (q := { q with fuel := fuel }) hload hl ho h3 h1

theorem clean_shows {S : Wasi} (hS : WasiKeepsSize S) {T : FloatText} {lz : Lz} {H : FloatHost} {file : WFile} {L : Loaded}
    (hload : loadFile file = .ok L) {lv : Nat → Nat → Nat} (hl : Bounds L.prog lv) {o : Options} (ho : o.restore = none) {world : S.W}
    {r : Res (Left S)} (h : CleanSession T lz H file o world r) {m : Machine S} {f : Nat} {args : List Val}
    (hE : L.exportFunc o.invoke = .ok f) (hP : parseParams T o.params = .ok args)
    (hM : Machine.new (S := S) L.prog L.inst world f args = .ok m) :
    ∃ v, MainShows (S := S) H false loopD false file o.invoke args world v ∧ seen r = seenOf v := by
  obtain ⟨fuel, r', h1, h2⟩ := clean_any hS hload hl ho h ⟨false, never, loopD, .loop, false, none, .fine, 0⟩
  simp only [Process.run, command, hload, ho, Process.undisturbed, hE, hP, hM] at h1
  obtain ⟨v, ⟨n, x, hx, rfl⟩, h3⟩ := process_quiet (quietD (E := envOf H false never L.prog L.hasWasi) .loop) h1
  refine ⟨shown x, ⟨n, x, ?_, rfl⟩, ?_⟩
  · unfold mainRun
    simp only [hload, hE, hM]
    exact hx
  · rw [← h2, h3, ← strip_obs x]
    cases obsE x with
    | ok p => rfl
    | trap e => rfl
    | panic => rfl
    | ub => rfl

/-- Such a session ends as the WebAssembly rules say the call ends, also where the program writes tables and drops data segments. -/
theorem clean_session_is_webassembly {S : Wasi} (hS : WasiKeepsSize S) {T : FloatText} {lz : Lz} {A : SMod} {H : FloatHost}
    (h : A.WellFormed S H) (hx : MaxPages A) (hN : A.Named H) {P : Prog} (hc : (A.source H).compile A.globalTypes = some P) (hm : Small (A.source H))
    (hn : (A.exports.map (·.1)).Nodup) {o : Options} (ho : o.restore = none) {f : Nat}
    (he : (o.invoke, .func f) ∈ A.exports) {t : FuncType} {ls : List (Nat × Cls)} {b : WSeq}
    (hf : (A.source H).funcs[f]? = some (.wasm t ls b)) {args : List Val} (hP : parseParams T o.params = .ok args)
    (hargs : args.map (·.cls) = t.params) {world : S.W} {st : Store} (hst : InitialStore A st)
    (hodd : ¬ Call S (A.source H) ((A.source H).info A.globalTypes) (.wasm t ls b) args st world (.odd .deviates))
    {r : Res (Left S)} (hs : CleanSession T lz H (some A.file) o world r) :
    (∃ vs st' w', Call S (A.source H) ((A.source H).info A.globalTypes) (.wasm t ls b) args st world (.ok vs st' w') ∧
      seen r = .ok (.result vs.getLast?, some (st', w'))) ∨
    (∃ c, (∃ st' w', Call S (A.source H) ((A.source H).info A.globalTypes) (.wasm t ls b) args st world (.exit c st' w')) ∧
      seen r = .ok (.exited c, none)) ∨
    ((∃ st' w', Call S (A.source H) ((A.source H).info A.globalTypes) (.wasm t ls b) args st world (.trap st' w')) ∧
      (seen r = .panic ∨ ∃ e, (∀ c, e ≠ .processExit c) ∧ seen r = .ok (.runFailed e, none))) := by
  obtain ⟨fs, L, _, hL, hload, rfl, _, _⟩ := load_ok h hc
  obtain ⟨lv, hl⟩ := small_bounds hc hm
  have hE : L.exportFunc o.invoke = .ok f := (export_resolves hL hn o.invoke f).mpr he
  obtain ⟨m, hM⟩ := new_ok hc hf (args := args) (by rw [← hargs, List.length_map]) L.inst world
  obtain ⟨v, h1, h2⟩ := clean_shows hS hload hl ho hs hE hP hM
  obtain ⟨w1, w4, w2, w3⟩ := main_is_webassembly hS h hx hN hc hn he hf hargs false .loop false world hst hodd
  cases v with
  | ok v =>
    obtain ⟨vs, st', w'⟩ := v
    exact .inl ⟨vs, st', w', (w1 vs st' w').mp h1, h2⟩
  | trap e =>
    by_cases hx : ∃ c, e = .processExit c
    · obtain ⟨c, rfl⟩ := hx
      exact .inr (.inl ⟨c, (w4 c).mp h1, h2⟩)
    · have hx : ∀ c, e ≠ .processExit c := fun c h => hx ⟨c, h⟩
      have h2 : seen r = .ok (failureReport e, none) := h2
      rw [failureReport_run hx] at h2
      exact .inr (.inr ⟨w2.mp ⟨_, h1, .inr ⟨e, rfl, hx⟩⟩, .inr ⟨e, hx, h2⟩⟩)
  | panic => exact .inr (.inr ⟨w2.mp ⟨_, h1, .inl rfl⟩, .inl h2⟩)
  | ub => exact (w3 h1).elim

/-! ### Programs without `table.set`, `table.fill` and `data.drop` are always stopped so -/

theorem Limits.bounds {P : Prog} {lv : Nat → Nat → Nat} (h : Limits P lv) : Bounds P lv :=
  ⟨h.shaped, h.types, h.regs, h.bodies, h.funcs⟩

theorem Movable.small {Q : SProg} (h : Movable Q) : Small Q := ⟨h.bodies, h.funcs, h.results⟩

theorem process_clean {S : Wasi} {lz : Lz} {E : Env} (hP : KeepsSegments E.P) {D : Dispatcher} (hD : IsD E D) {en : Bool} {fuel : Nat}
    {old : Option (List Byte)} {io : Io} {i : Inst} {m : Machine S} (hm : SameSeg m.inst i) {l : Left S}
    (h : m.process lz E D en fuel old io = some (.ok l)) (hrep : l.report = .checkpointed) {i' : Inst} {w : S.W}
    (hs : l.state = some (i', w)) : i'.tables = i.tables ∧ i'.datas = i.datas := by
  obtain ⟨mc, hrun, -, hst⟩ := process_ckpt h hrep
  rw [hs] at hst
  cases hst
  have k := run_inv (fun x : Machine S => SameSeg x.inst i)
    (fun m r n hm hr => have k := seg_round hP hD hr; ⟨k.tables.trans hm.tables, k.datas.trans hm.datas⟩) fuel _ mc
    (show SameSeg ({ m with frames := setFirstEnable en m.frames } : Machine S).inst i from hm) hrun
  exact ⟨k.tables, k.datas⟩

theorem clean_if_from {S : Wasi} (hS : WasiKeepsSize S) {T : FloatText} {lz : Lz} {H : FloatHost} {file : WFile} {L : Loaded}
    (hload : loadFile file = .ok L) {lv : Nat → Nat → Nat} (hl : Limits L.prog lv) {o : Options} {world : S.W} {r : Res (Left S)}
    (h : Session T lz H file o world r) : ∀ (b : List Byte) (st : Stacks) (i : Inst), o.restore = some (some b) →
    restore lz L.prog L.inst (some b) = (.ok st, i) → SizedM L.prog lv (st.resume (S := S) i world) →
    Sound3 L.inst (st.resume (S := S) i world) → SameSeg i L.inst → CleanSession T lz H file o world r := by
  induction h with
  | last p h hr => intro b st i ho hre hz hrd hseg; exact .last p h hr
  | @move o world r p l b' i' w h hrep hb hs hlen next ih =>
    intro b st i ho hre hz hrd hseg
    have hrun := h
    simp only [Process.run, command, hload, ho, hre] at h
    have hcl := process_clean (E := envOf H p.atomics p.trig L.prog L.hasWasi) hl.kept (p.built.isD _) hseg h hrep hs
    obtain ⟨st2, j, _, k1, k2, k3, -, -, k5, -⟩ := clean_moves hS (E := envOf H p.atomics never L.prog L.hasWasi) hl.bounds p.trig
      (p.built.isD _) hz hrd h hrep hb hs hcl hlen
    exact .move p hrun hrep hb hs hlen (fun L' h' => by rw [hload] at h'; cases h'; exact hcl) (ih b' st2 j rfl k1 k2 k3 k5)

/-- Every session of a program without `table.set`, `table.fill` and `data.drop` has tables and data segments as loaded at each of
its checkpoints: `clean_session_transparent` covers `session_transparent_partial`. -/
theorem movable_clean {S : Wasi} (hS : WasiKeepsSize S) {T : FloatText} {lz : Lz} {A : SMod} {H : FloatHost}
    (h : A.WellFormed S H) {P : Prog} (hc : (A.source H).compile A.globalTypes = some P) (hm : Movable (A.source H)) {o : Options}
    (ho : o.restore = none) {world : S.W} {r : Res (Left S)} (hs : Session T lz H (some A.file) o world r) :
    CleanSession T lz H (some A.file) o world r := by
  obtain ⟨fs, L, _, _, hload, rfl, _, _⟩ := load_ok h hc
  obtain ⟨lv, hl⟩ := limits hc hm
  cases hs with
  | last p h hr => exact .last p h hr
  | @move _ _ _ p l b' i' w h hrep hb hs hlen next =>
    have hrun' := h
    rcases command_starts (T := T) (lz := lz) (H := H) hload ho world with ⟨m, ⟨f, ps, -, -, hM⟩, hrun⟩ | ⟨x, hx, hrun⟩
    · rw [hrun] at h
      have hcl := process_clean (E := envOf H p.atomics p.trig L.prog L.hasWasi) hl.kept (p.built.isD _) (new_ready hM).seg h hrep hs
      obtain ⟨st2, j, _, k1, k2, k3, -, -, k5, -⟩ := clean_moves hS (E := envOf H p.atomics never L.prog L.hasWasi) hl.bounds p.trig
        (p.built.isD _) (new_sized hl.shaped hl.types hM) (new_sound3 hM) h hrep hb hs hcl hlen
      exact .move p hrun' hrep hb hs hlen (fun L' h' => by rw [hload] at h'; cases h'; exact hcl)
        (clean_if_from hS hload hl next b' st2 j rfl k1 k2 k3 k5)
    · obtain ⟨r1, h1, h2⟩ := hrun p
      rw [h] at h1; cases h1
      simp only [seen, hrep] at h2
      exact absurd h2.symm (hx _)

/-! ### … and having been moved leaves no trace -/

/-- what the next process of a session starts to run -/
theorem clean_reached {S : Wasi} (hS : WasiKeepsSize S) {T : FloatText} {lz : Lz} {H : FloatHost} {file : WFile} {L : Loaded}
    (hload : loadFile file = .ok L) {lv : Nat → Nat → Nat} (hl : Bounds L.prog lv) {o : Options} (ho : o.restore = none)
    {world : S.W} {m : Machine S} (hm : StartsAs T L o world m)
    {o' : Options} {w' : S.W} (h : CleanSoFar T lz H file o world o' w') :
    ∃ m', SizedM L.prog lv m' ∧ Sound3 L.inst m' ∧ Reached H L.prog L.hasWasi m m' ∧
      ∀ p : Process, p.run T lz H file o' w' =
        m'.process lz (envOf H p.atomics p.trig L.prog L.hasWasi) (p.D (envOf H p.atomics p.trig L.prog L.hasWasi)) p.cr p.fuel p.old p.io := by
  obtain ⟨f, ps, hE, hP, hM⟩ := hm
  have hrd : Sound3 L.inst m := new_sound3 hM
  induction h with
  | start =>
    refine ⟨m, new_sized hl.shaped hl.types hM, hrd, reached_self hrd.labelled ?_, fun p => ?_⟩
    · unfold Machine.new at hM
      split at hM
      · split at hM
        · cases hM
        · cases hM; simp
      · cases hM
    · simp only [Process.run, command, hload, ho, hE, hP, hM]
  | @move o' w' _ p l b i w hrun hrep hb hs hlen hcl ih =>
    obtain ⟨m', hz, hr', hreach, hcmd⟩ := ih
    rw [hcmd] at hrun
    obtain ⟨st, j, mc, k1, k2, k3, k4, k5, -, -⟩ := clean_moves hS (E := envOf H p.atomics never L.prog L.hasWasi) hl p.trig
      (p.built.isD _) hz hr' hrun hrep hb hs (hcl L hload) hlen
    obtain ⟨y, hy1, hy2⟩ := reached_ckpt hl.inside (p.built.isD _) hrd.labelled hreach k4
    refine ⟨_, k2, k3, ⟨y, hy1, k5.symm.trans hy2⟩, fun p => ?_⟩
    have k1' : restore lz L.prog L.inst (some b) = (.ok st, j) := k1
    simp only [Process.run, command, hload, k1']

/-- … for a loaded module -/
theorem clean_no_trace {S : Wasi} (hS : WasiKeepsSize S) {T : FloatText} {lz : Lz} {H : FloatHost} {file : WFile} {L : Loaded}
    (hload : loadFile file = .ok L) {lv : Nat → Nat → Nat} (hl : Bounds L.prog lv) {o : Options} (ho : o.restore = none)
    {world : S.W} {o' : Options} {w' : S.W} (h : CleanSoFar T lz H file o world o' w') {p : Process} {l : Left S}
    (hp : p.run T lz H file o' w' = some (.ok l)) (hrep : l.report = .checkpointed) {b : List Byte} (hb : l.ckpt = some b)
    (hlen : b.length < 2 ^ 32) :
    ∃ (q : Process) (l' : Left S) (b' : List Byte), q.run T lz H file o world = some (.ok l') ∧ seen (.ok l') = seen (.ok l) ∧
      l'.ckpt = some b' ∧ b'.length = b.length ∧
      ∃ s s', decode b = some (s, []) ∧ decode b' = some (s', []) ∧ Snapshot.read s' = Snapshot.read s := by
  rcases command_starts (T := T) (lz := lz) (H := H) hload ho world with ⟨m, hm, hrun⟩ | ⟨x, hx, hrun⟩
  · obtain ⟨m', hz, hr', hreach, hcmd⟩ := clean_reached (lz := lz) (H := H) hS hload hl ho hm h
    obtain ⟨f, ps, hE, hP, hM⟩ := hm
    have hrd : Sound3 L.inst m := new_sound3 hM
    have hzm : SizedM L.prog lv m := new_sized hl.shaped hl.types hM
    have hone : ∃ f, m.frames = [f] := by
      unfold Machine.new at hM
      split at hM
      · split at hM
        · cases hM
        · cases hM; exact ⟨_, rfl⟩
      · cases hM
    rw [hcmd] at hp
    obtain ⟨mc, hck, hcp, hst⟩ := process_ckpt hp hrep
    rw [hb] at hcp
    obtain ⟨s, hsn, hen⟩ := checkpoint_written hcp
    have hmcS : SizedM L.prog lv mc := run_inv (SizedM L.prog lv)
      (fun m r n hm hr => sized_round (E := envOf H p.atomics p.trig L.prog L.hasWasi) hl.shaped hl.types hl.regs (p.built.isD _) hr hm)
      _ _ mc (hz.setFirst _) hck
    obtain ⟨K, fuel, mc', hsim, hck'⟩ := reached_stops hone (reached_ckpt hl.inside (p.built.isD _) hrd.labelled hreach hck)
    have hmcS' : SizedM L.prog lv mc' := run_inv (SizedM L.prog lv)
      (fun m r n hm hr => sized_round (E := envOf H true (· == K) L.prog L.hasWasi) hl.shaped hl.types hl.regs .loop hr hm)
      _ _ mc' (hzm.setFirst _) hck'
    obtain ⟨s', hsn'⟩ := snapshot_total (lz := lz) hl.shaped hmcS'
    have hread := snapshot_read hsim hsn hsn'
    obtain ⟨b', hen', hlen'⟩ := encode_alike hread hen
    have hd := decode_encode s (snapshot_fits hmcS hl.bodies hl.funcs hsn hen hlen) b [] hen
    have hd' := decode_encode s' (snapshot_fits hmcS' hl.bodies hl.funcs hsn' hen' (by omega)) b' [] hen'
    rw [List.append_nil] at hd hd'
    refine ⟨⟨true, (· == K), loopD, .loop, true, none, .fine, fuel⟩, ⟨0, .checkpointed, some b', some (mc'.inst, mc'.world)⟩, b',
      ?_, ?_, rfl, hlen', s, s', hd, hd', hread.symm⟩
    · rw [hrun]
      simp only [Machine.process]
      rw [hck']
      have : mc'.checkpoint lz (envOf H true (· == K) L.prog L.hasWasi).P none .fine = (.ok (), some b') := by
        show mc'.checkpoint lz L.prog none .fine = _
        simp only [Machine.checkpoint, hsn', saveFile, hen']
      simp only [this]
    · obtain ⟨dm, dg, dt, dd⟩ := Inst.data_eq hsim.inst
      simp only [seen, hrep, hst, Option.map_some, hsim.world, storeOf, dm, dg, dt, dd]
  · exfalso
    have hno : ∀ (q : Process) (l : Left S), q.run T lz H file o world = some (.ok l) → l.report ≠ .checkpointed := by
      intro q l hq hrep
      obtain ⟨r, h1, h2⟩ := hrun q
      rw [hq] at h1
      cases h1
      simp only [seen, hrep] at h2
      exact hx _ h2.symm
    have hall : ∀ {o' w'}, CleanSoFar T lz H file o world o' w' → o' = o ∧ w' = world := by
      intro o' w' h
      induction h with
      | start => exact ⟨rfl, rfl⟩
      | move _ p h1 hl1 _ _ _ _ ih =>
        obtain ⟨rfl, rfl⟩ := ih
        exact absurd hl1 (hno p _ h1)
    obtain ⟨rfl, rfl⟩ := hall h
    exact hno p _ hp hrep

/-- **C77** for programs with any instructions, stopped before only when tables and data segments were as the module file describes
them: any checkpoint such a session leaves — now with tables and data segments in any state — a single process could have left that
was never moved, with memory, globals, tables, data segments and outside world the same, in a file of the same length of which what
is ever read is the same. -/
theorem clean_moved_without_trace {S : Wasi} (hS : WasiKeepsSize S) {T : FloatText} {lz : Lz} {A : SMod} {H : FloatHost}
    (h : A.WellFormed S H) {P : Prog} (hc : (A.source H).compile A.globalTypes = some P) (hm : Small (A.source H)) {o : Options}
    (ho : o.restore = none) {world : S.W} {o' : Options} {w' : S.W}
    (hs : CleanSoFar T lz H (some A.file) o world o' w') {p : Process} {l : Left S} (hp : p.run T lz H (some A.file) o' w' = some (.ok l))
    (hrep : l.report = .checkpointed) {b : List Byte} (hb : l.ckpt = some b) (hlen : b.length < 2 ^ 32) :
    ∃ (q : Process) (l' : Left S) (b' : List Byte), q.run T lz H (some A.file) o world = some (.ok l') ∧ seen (.ok l') = seen (.ok l) ∧
      l'.ckpt = some b' ∧ b'.length = b.length ∧
      ∃ s s', decode b = some (s, []) ∧ decode b' = some (s', []) ∧ Snapshot.read s' = Snapshot.read s := by
  obtain ⟨fs, L, _, _, hload, rfl, _, _⟩ := load_ok h hc
  obtain ⟨lv, hl⟩ := small_bounds hc hm
  exact clean_no_trace hS hload hl ho hs hp hrep hb hlen

end Verif.Props
