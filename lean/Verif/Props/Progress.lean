import Verif.Spec.Progress
import Verif.Props.Untouched
/-
C78: however often a program that ends is moved, it ends.
-/
namespace Verif.Props
open Verif.Model Verif.Spec Verif.Lemmas

/-! ### Iterations counted -/

theorem Ticks.add {H : FloatHost} {P : Prog} {code : List Instr} {n k : Nat} {s s1 s2 : VM} (h : Ticks H P code n s s1)
    (g : Ticks H P code k s1 s2) : Ticks H P code (n + k) s s2 := by
  induction h with
  | refl => rw [Nat.zero_add]; exact g
  | @step n _ _ _ _ hi hs _ ih => rw [show n + 1 + k = n + k + 1 by omega]; exact .step hi hs (ih g)
  | @pop n _ _ _ _ _ hi hl hc _ ih => rw [show n + 1 + k = n + k + 1 by omega]; exact .pop hi hl hc (ih g)

/-- if the loop comes to an end without looking, no more iterations can be counted than it makes -/
theorem ticks_bound {H : FloatHost} {P : Prog} {w : Bool} {code : List Instr} : ∀ (n : Nat) (d : DState) (x : Res Final),
    loopRun (looking H P w) code n d = some x → ∀ (k : Nat) (s : VM), Ticks H P code k d.vm s → k < n
  | 0, _, _, h => by simp [loopRun] at h
  | n + 1, d, x, h => by
    intro k s hk
    have hv := poll_vm (looking H P w) d
    have hq := looking_quiet (H := H) (P := P) (w := w)
    rw [loopRun] at h
    generalize hp : poll (looking H P w) d = pd at h hv
    obtain ⟨b, d1⟩ := pd
    simp only at hv
    have hb : b = false := by
      have : (poll (looking H P w) d).1 = b := by rw [hp]
      rw [← this]
      unfold poll
      split
      · rfl
      · simp [envOf, never]
    subst hb
    simp only at h
    rw [← hv] at hk
    cases hk with
    | refl => omega
    | @step m _ s1 _ i hi hs hk' =>
      rw [hi] at h
      simp only at h
      rw [show Model.step (looking H P w).H (looking H P w).P code.length d1.vm i = .ok (.cont s1) from hs] at h
      have := ticks_bound n _ x h m s hk'
      omega
    | @pop m _ _ l l2 rest hi hl hc hk' =>
      rw [hi] at h
      simp only [hl] at h
      rw [if_neg hc] at h
      have := ticks_bound n _ x h m s hk'
      omega

/-- a dispatcher call whose first poll does not stop it makes an iteration before it stops -/
theorem disp_moves {E : Env} {D : Dispatcher} (hD : IsD E D) {code : List Instr} {n : Nat} {d d' : DState}
    (hp : (poll E d).1 = false) (h : D n code d = some (.ok (.ckpt d'))) : ∃ k, Ticks E.H E.P code (k + 1) d.vm d'.vm := by
  cases hD with
  | loop =>
    cases n with
    | zero => simp [loopD, loopRun] at h
    | succ n =>
      simp only [loopD] at h
      rw [loopRun] at h
      split at h
      · rename_i d1 hd; rw [hd] at hp; cases hp
      · rename_i d1 hd
        rw [← poll_vm' hd]
        split at h
        · rename_i hi
          split at h
          · rename_i l l2 rest hl
            split at h
            · cases h
            · rename_i hc
              obtain ⟨k, hk⟩ := loop_ticks n _ d' h
              exact ⟨k, .pop hi hl hc hk⟩
          · cases h
        · rename_i i hi
          split at h
          · rename_i vm hs
            obtain ⟨k, hk⟩ := loop_ticks n _ d' h
            exact ⟨k, .step hi hs hk⟩
          · cases h
          · cases h
          · cases h
          · cases h
  | tco =>
    simp only [tcoD, tcoRun] at h
    split at h
    · rename_i d1 hd; rw [hd] at hp; cases hp
    · rename_i d1 hd
      rw [← poll_vm' hd]
      split at h
      · cases h
      · cases n with
        | zero => simp [tcoChain] at h
        | succ n =>
          rw [tcoChain] at h
          split at h
          · split at h
            · cases h
            · cases h
          · rename_i i hi
            split at h
            · rename_i vm hs
              split at h
              · rename_i d2 hd2; cases h
                exact ⟨0, .step hi hs (by rw [poll_vm' hd2]; exact .refl _)⟩
              · rename_i d2 hd2
                obtain ⟨k, hk⟩ := chain_ticks n d2 d' h
                rw [poll_vm' hd2] at hk
                exact ⟨k, .step hi hs hk⟩
            · cases h
            · cases h
            · cases h
            · cases h

/-- `Go`, with a count of iterations and calls made on the way -/
inductive GoN {S : Wasi} (H : FloatHost) (P : Prog) (w : Bool) : Nat → Machine S → Machine S → Prop
  | here {m f fs n} (d : DState) (hm : m.frames = f :: fs) (hk : Ticks H P (P.body f.func) n (m.enter f).vm d.vm) :
      GoN H P w n m (m.leave f d)
  | later {m m1 mc f fs n k j} {s : VM} (hm : m.frames = f :: fs) (hk : Ticks H P (P.body f.func) k (m.enter f).vm s)
      (hr : m.round (looking H P w) (loopD (looking H P w)) true n = some (.ok (.running m1))) (hg : GoN H P w j m1 mc) :
      GoN H P w (k + 1 + j) m mc

theorem round_running {S : Wasi} {E : Env} {D : Dispatcher} {en : Bool} {n : Nat} {m m1 : Machine S}
    (h : m.round E D en n = some (.ok (.running m1))) : ∃ f fs, m.frames = f :: fs := by
  cases hm : m.frames with
  | nil => simp [Machine.round, hm] at h
  | cons f fs => exact ⟨f, fs, rfl⟩

theorem GoN.next {S : Wasi} {H : FloatHost} {P : Prog} {w : Bool} {m m1 mc : Machine S} {n j : Nat}
    (hr : m.round (looking H P w) (loopD (looking H P w)) true n = some (.ok (.running m1))) (hg : GoN H P w j m1 mc) :
    GoN H P w (1 + j) m mc := by
  obtain ⟨f, fs, hm⟩ := round_running hr
  have := GoN.later hm (.refl _) hr hg
  rwa [Nat.zero_add] at this

theorem GoN.sim {S : Wasi} {H : FloatHost} {P : Prog} {w : Bool} (hin : InsideP P) {j : Nat} {m mc : Machine S} (h : GoN H P w j m mc) :
    ∀ {m' : Machine S}, MSim m m' → ∃ mc', GoN H P w j m' mc' ∧ MSim mc mc' := by
  induction h with
  | @here m f fs n d hm hk =>
    intro m' hs
    have hfr := hs.frames
    rw [hm] at hfr
    cases hm' : m'.frames with
    | nil => rw [hm'] at hfr; simp at hfr
    | cons g gs =>
      rw [hm'] at hfr
      simp only [List.map_cons, List.cons.injEq] at hfr
      have hfunc : f.func = g.func := (keys hfr.1).1
      obtain ⟨t', h1, h2⟩ := hk.sim (enter_sim hs hm hm')
      rw [hfunc] at h1
      exact ⟨_, .here { d with vm := t' } hm' h1, leave_sim hs hm hm' h2⟩
  | @later m m1 mc f fs n k j s hm hk hr _ ih =>
    intro m' hs
    have hfr := hs.frames
    rw [hm] at hfr
    cases hm' : m'.frames with
    | nil => rw [hm'] at hfr; simp at hfr
    | cons g gs =>
      rw [hm'] at hfr
      simp only [List.map_cons, List.cons.injEq] at hfr
      have hfunc : f.func = g.func := (keys hfr.1).1
      obtain ⟨t', h1, h2⟩ := hk.sim (enter_sim hs hm hm')
      rw [hfunc] at h1
      obtain ⟨n', m1', h3, h4⟩ := round_lift hin .loop hs hr
      obtain ⟨mc', h5, h6⟩ := ih h4
      exact ⟨mc', .later hm' h1 h3 h5, h6⟩

/-- counts add up -/
theorem GoN.trans {S : Wasi} {H : FloatHost} {P : Prog} {w : Bool} (hin : InsideP P) {i j : Nat} {m mc x : Machine S}
    (h : GoN H P w i m mc) : Labelled m → GoN H P w j mc x → ∃ y, GoN H P w (i + j) m y ∧ MSim x y := by
  induction h with
  | @here m f fs n d hm hk =>
    intro hl hx
    have hlab : d.vm.labels ≠ [] := hk.labelled (hl f (by rw [hm]; simp))
    have hg := leave_frames (d := d) hm
    generalize hgf : ({ f with
      locals := d.vm.locals
      labels := match d.vm.labels with | [] => [] | l :: ls => { l with ip := d.vm.pc } :: ls
      retRegs := d.vm.retRegs
      memPtr := d.vm.memPtr } : Frame) = g at hg
    have hgfunc : g.func = f.func := by rw [← hgf]
    have hen := enter_leave hm d hlab g fs hg
    generalize hmc : m.leave f d = mc at hx
    cases hx with
    | @here _ f2 fs2 n2 d2 hm2 hk2 =>
      subst hmc
      rw [hg] at hm2
      cases hm2
      rw [hgfunc] at hk2
      obtain ⟨t', h1, h2⟩ := hk2.sim hen.symm
      refine ⟨_, .here { d2 with vm := t' } hm (hk.add h1), ?_⟩
      rw [leave_leave hm d d2 g fs hg]
      exact leave_sim (.refl m) hm hm h2
    | @later _ m1 _ f2 fs2 n2 k j s hm2 hk2 hr hgo =>
      subst hmc
      rw [hg] at hm2
      cases hm2
      rw [hgfunc] at hk2
      obtain ⟨t', ht1, -⟩ := hk2.sim hen.symm
      simp only [Machine.round, hg] at hr
      split at hr
      · cases hr
      · rename_i x' hx'
        rw [hgfunc] at hx'
        simp only [Option.some.injEq] at hr
        have hr2 : (x' >>= m.react (looking H P w) true f) = .ok (.running m1) := by
          rw [← hr]
          cases x' with
          | ok v => exact (react_leave hm d g fs hg v).symm
          | trap e => rfl
          | panic => rfl
          | ub => rfl
        obtain ⟨j', hj⟩ := looking_quiet.faithful.fwd _ _ _ _ (hin f.func) hx'
        obtain ⟨o2, hj2, hos⟩ := plain_sim _ _ _ j' _ _ _ hen.symm hj
        have hp : PlainTo (looking H P w) (P.body f.func) (m.enter f).vm o2 :=
          (Ticks.plain (E := looking H P w) hk o2).mpr ⟨j', hj2⟩
        obtain ⟨n', m1', h1, h2⟩ := round_by hin (.refl m) hm hm hp hos hr2
        obtain ⟨y, h3, h4⟩ := hgo.sim hin h2
        refine ⟨y, ?_, h4⟩
        have := GoN.later hm (hk.add ht1) h1 h3
        rwa [show n + k + 1 + j = n + (k + 1 + j) by omega] at this
  | @later m m1 mc f fs n k i s hm hk hr _ ih =>
    intro hl hx
    obtain ⟨y, h1, h2⟩ := ih (lab_round .loop hr hl) hx
    refine ⟨y, ?_, h2⟩
    have := GoN.later hm hk hr h1
    rwa [show k + 1 + (i + j) = k + 1 + i + j by omega] at this

/-- where a run stops, something was done before, if the very first poll did not stop it -/
theorem ckpt_goN {S : Wasi} {H : FloatHost} {P : Prog} {w a : Bool} {t : Nat → Bool} (hin : InsideP P) {D : Dispatcher}
    (hD : IsD (envOf H a t P w) D) {en : Bool} {n : Nat} : ∀ (k : Nat) (m m' mc : Machine S), MSim m m' →
    m.runLoop (envOf H a t P w) D en n k = some (.ok (.ckpt mc)) →
    ∃ j mc', GoN H P w j m' mc' ∧ MSim mc mc' ∧
      ((∀ f fs, m.frames = f :: fs → (poll (envOf H a t P w) (m.enter f)).1 = false) → 1 ≤ j)
  | 0, _, _, _, _, h => by simp [Machine.runLoop] at h
  | k + 1, m, m', mc, hs, h => by
    rw [Machine.runLoop] at h
    split at h
    · cases h
    · rename_i m1 hr
      obtain ⟨n', m1', h1, h2⟩ := round_lift hin hD hs hr
      obtain ⟨j, mc', h3, h4, -⟩ := ckpt_goN hin hD k m1 m1' mc h2 h
      exact ⟨1 + j, mc', .next h1 h3, h4, fun _ => by omega⟩
    · cases h
    · rename_i m1 hr
      simp only [Option.some.injEq, Res.ok_inj, End.ckpt.injEq] at h
      subst h
      rcases round_inv hD hr with ⟨hf, hx⟩ | ⟨f, fs, fin, hm, hd, -, hre⟩
      · cases hx
      · obtain ⟨d, rfl, rfl⟩ := react_ckpt hre
        by_cases hp : (poll (envOf H a t P w) (m.enter f)).1 = false
        · obtain ⟨j, hj⟩ := disp_moves hD hp hd
          obtain ⟨mc', h1, h2⟩ := GoN.sim hin (.here d hm hj) hs
          exact ⟨j + 1, mc', h1, h2, fun _ => by omega⟩
        · obtain ⟨j, hj⟩ := disp_ticks hD hd
          obtain ⟨mc', h1, h2⟩ := GoN.sim hin (.here d hm hj) hs
          exact ⟨j, mc', h1, h2, fun hall => absurd (hall f fs hm) hp⟩
    · cases h
    · cases h
    · cases h

/-- a run that ends passes finitely many states -/
theorem goN_bound {S : Wasi} {H : FloatHost} {P : Prog} {w : Bool} {n : Nat} : ∀ (K : Nat) (m : Machine S) (r : Res (End S)),
    m.runLoop (looking H P w) (loopD (looking H P w)) true n K = some r → ∃ T, ∀ j mc, GoN H P w j m mc → j ≤ T
  | 0, _, _, h => by simp [Machine.runLoop] at h
  | K + 1, m, r, h => by
    have hk : ∀ f fs k s, m.frames = f :: fs → Ticks H P (P.body f.func) k (m.enter f).vm s → k < n := by
      intro f fs k s hm hk
      cases hx : loopD (looking H P w) n ((looking H P w).P.body f.func) (m.enter f) with
      | none =>
        rw [Machine.runLoop] at h
        have : m.round (looking H P w) (loopD (looking H P w)) true n = none := by
          simp only [Machine.round, hm, hx]
        rw [this] at h
        cases h
      | some x => exact ticks_bound n _ x hx k s hk
    by_cases hrun : ∃ m1, m.round (looking H P w) (loopD (looking H P w)) true n = some (.ok (.running m1))
    · obtain ⟨m1, hr⟩ := hrun
      rw [Machine.runLoop, hr] at h
      obtain ⟨T, hT⟩ := goN_bound K m1 r h
      refine ⟨n + T, fun j mc hg => ?_⟩
      cases hg with
      | here d hm hk' => have := hk _ _ _ _ hm hk'; omega
      | @later _ m1' _ f fs n2 k j s hm hk' hr' hg' =>
        have e := round_det looking_quiet.faithful hr hr'
        simp only [Res.ok_inj, Round.running.injEq] at e
        subst e
        have h1 := hk _ _ _ _ hm hk'
        have h2 := hT _ _ hg'
        omega
    · refine ⟨n, fun j mc hg => ?_⟩
      cases hg with
      | here d hm hk' => have := hk _ _ _ _ hm hk'; omega
      | @later _ m1' _ f fs n2 k j s hm hk' hr' hg' =>
        exfalso
        cases hx : m.round (looking H P w) (loopD (looking H P w)) true n with
        | none => rw [Machine.runLoop, hx] at h; cases h
        | some x =>
          have e := round_det looking_quiet.faithful hx hr'
          exact hrun ⟨m1', by rw [hx, e]⟩

/-! ### Sessions -/

theorem Moves.soFar {S : Wasi} {Q : Process → Prop} {T : FloatText} {lz : Lz} {H : FloatHost} {file : WFile} {o o' : Options} {world w' : S.W} {n : Nat}
    (h : Moves Q T lz H file o world n o' w') : CleanSoFar T lz H file o world o' w' := by
  induction h with
  | none => exact .start
  | more _ p _ h hl hb hs hlen clean ih => exact .move ih p h hl hb hs hlen clean

theorem first_poll {S : Wasi} {H : FloatHost} {p : Process} (hp : p.Begins) {P : Prog} {w : Bool} {m : Machine S} (hl : m.looks = 0)
    (f : Frame) : (poll (envOf H p.atomics p.trig P w) (m.enter f)).1 = false := by
  unfold poll
  split
  · rfl
  · split
    · rename_i ha
      simp only [Machine.enter, hl]
      exact hp ha
    · simp [Machine.enter]

/-- what the next process starts to run, how far it is, and what it comes to -/
theorem moves_reached {S : Wasi} (hS : WasiKeepsSize S) {T : FloatText} {lz : Lz} {H : FloatHost} {file : WFile} {L : Loaded}
    (hload : loadFile file = .ok L) {lv : Nat → Nat → Nat} (hl : Bounds L.prog lv) {o : Options} (ho : o.restore = none)
    {world : S.W} {m : Machine S} (hm : StartsAs T L o world m)
    {n : Nat} {o' : Options} {w' : S.W} (h : Moves Process.Begins T lz H file o world n o' w') :
    ∃ m', SizedM L.prog lv m' ∧ Sound3 L.inst m' ∧ m'.looks = 0 ∧
      (∃ j y, n ≤ j ∧ GoN H L.prog L.hasWasi j { m with frames := setFirstEnable true m.frames } y ∧ MSim m' y) ∧
      (∀ v, Runs (looking H L.prog L.hasWasi) (loopD (looking H L.prog L.hasWasi)) true m v →
        Runs (looking H L.prog L.hasWasi) (loopD (looking H L.prog L.hasWasi)) true m' v) ∧
      ∀ p : Process, p.run T lz H file o' w' =
        m'.process lz (envOf H p.atomics p.trig L.prog L.hasWasi) (p.D (envOf H p.atomics p.trig L.prog L.hasWasi)) p.cr p.fuel p.old p.io := by
  obtain ⟨f, ps, hE, hP, hM⟩ := hm
  have hrd : Sound3 L.inst m := new_sound3 hM
  induction h with
  | none =>
    have hne : m.frames ≠ [] ∧ m.looks = 0 := by
      unfold Machine.new at hM
      split at hM
      · split at hM
        · cases hM
        · cases hM; exact ⟨by simp, rfl⟩
      · cases hM
    refine ⟨m, new_sized hl.shaped hl.types hM, hrd, hne.2, ?_, fun _ h => h, fun p => ?_⟩
    · have hl' := setFirst_labelled true hrd.labelled
      have hm' := setFirst_msim m true
      generalize hg : ({ m with frames := setFirstEnable true m.frames } : Machine S) = m1 at hl' hm'
      cases hm : m1.frames with
      | nil =>
        have := hm'.frames
        rw [hm] at this
        simp only [List.map_nil, List.map_eq_nil_iff] at this
        exact absurd this hne.1
      | cons f fs =>
        have hlf : f.labels ≠ [] := hl' f (by rw [hm]; simp)
        refine ⟨0, _, Nat.le_refl _, .here (m1.enter f) hm (.refl _), hm'.trans ?_⟩
        have : m1.leave f (m1.enter f) = m1 := by
          obtain ⟨rf, frames, inst, world, looks⟩ := m1
          simp only at hm
          subst hm
          obtain ⟨a, b, c, labels, d, e, g', p⟩ := f
          cases labels with
          | nil => exact absurd rfl hlf
          | cons l ls => rfl
        rw [this]
        exact .refl _
    · simp only [Process.run, command, hload, ho, hE, hP, hM]
  | @more n o' w' _ p hbeg l b i w hrun hrep hb hs hlen hcl ih =>
    obtain ⟨m', hz, hr', hlk, ⟨j, y, hj, hgo, hsim⟩, hruns, hcmd⟩ := ih
    rw [hcmd] at hrun
    obtain ⟨st, i2, mc, k1, k2, k3, k4, k5, -, k6⟩ := clean_moves hS (E := envOf H p.atomics never L.prog L.hasWasi) hl p.trig
      (p.built.isD _) hz hr' hrun hrep hb hs (hcl L hload) hlen
    obtain ⟨j2, x, g1, g2, g3⟩ := ckpt_goN hl.inside (p.built.isD _) _ _ y mc ((setFirst_msim m' p.cr).symm.trans hsim) k4
    have hpos : 1 ≤ j2 := g3 fun f fs _ => first_poll hbeg (m := { m' with frames := setFirstEnable p.cr m'.frames }) hlk f
    obtain ⟨z, g4, g5⟩ := hgo.trans hl.inside (setFirst_labelled true hrd.labelled) g1
    refine ⟨_, k2, k3, rfl, ⟨j + j2, z, by omega, g4, (k5.symm.trans g2).trans g5⟩, fun v hv => ?_, fun p => ?_⟩
    · have h1 := quiet_any (a' := p.atomics) hl.inside .loop .loop (en' := true) (hruns v hv)
      have h2 := (k6 (loopD (envOf H p.atomics never L.prog L.hasWasi)) (loopD (envOf H p.atomics never L.prog L.hasWasi)) true true v
        .loop .loop).mp h1
      exact quiet_any (a' := true) hl.inside .loop .loop h2
    · have k1' : restore lz L.prog L.inst (some b) = (.ok st, i2) := k1
      simp only [Process.run, command, hload, k1']

/-- … for a loaded module -/
theorem moves_end {S : Wasi} (hS : WasiKeepsSize S) {T : FloatText} {lz : Lz} {H : FloatHost} {file : WFile} {L : Loaded}
    (hload : loadFile file = .ok L) {lv : Nat → Nat → Nat} (hl : Bounds L.prog lv) {o : Options} (ho : o.restore = none)
    {world : S.W} {q : Process} {r : Res (Left S)} (hq : q.undisturbed.run T lz H file o world = some r) :
    ∃ N, ∀ (n : Nat) (o' : Options) (w' : S.W), Moves Process.Begins T lz H file o world n o' w' → n ≤ N ∧
      ∀ p : Process, ∃ fuel r', ({ p.undisturbed with fuel := fuel }).run T lz H file o' w' = some r' ∧ seen r' = seen r := by
  rcases command_starts (T := T) (lz := lz) (H := H) hload ho world with ⟨m, hm, hrun⟩ | ⟨x, hx, hrun⟩
  · rw [hrun] at hq
    obtain ⟨v, hv, hsv⟩ := process_quiet (quietD (E := envOf H q.atomics never L.prog L.hasWasi) (q.built.isD _)) hq
    have hv' : Runs (looking H L.prog L.hasWasi) (loopD (looking H L.prog L.hasWasi)) true m v :=
      quiet_any (a' := true) hl.inside (q.built.isD _) .loop hv
    obtain ⟨n0, r0, hr0, -⟩ := id hv'
    obtain ⟨N, hN⟩ := goN_bound n0 _ r0 hr0
    refine ⟨N, fun n o' w' h => ?_⟩
    obtain ⟨m', -, -, -, ⟨j, y, hj, hgo, -⟩, hruns, hcmd⟩ := moves_reached (lz := lz) (H := H) hS hload hl ho hm h
    refine ⟨Nat.le_trans hj (hN _ _ hgo), fun p => ?_⟩
    obtain ⟨fuel, r', h1, h2⟩ := process_runs (lz := lz) (old := p.old) (io := p.io)
      (quietD (E := envOf H p.atomics never L.prog L.hasWasi) (p.built.isD _))
      (quiet_any (en' := p.cr) hl.inside .loop (p.built.isD (envOf H p.atomics never L.prog L.hasWasi)) (hruns v hv'))
    exact ⟨fuel, r', by rw [hcmd]; exact h1, h2.trans hsv.symm⟩
  · refine ⟨0, fun n o' w' h => ?_⟩
    have hno : ∀ (q : Process) (l : Left S), q.run T lz H file o world = some (.ok l) → l.report ≠ .checkpointed := by
      intro q l hq hrep
      obtain ⟨r, h1, h2⟩ := hrun q
      rw [hq] at h1
      cases h1
      simp only [seen, hrep] at h2
      exact hx _ h2.symm
    have hall : ∀ {n o' w'}, Moves Process.Begins T lz H file o world n o' w' → n = 0 ∧ o' = o ∧ w' = world := by
      intro n o' w' h
      induction h with
      | none => exact ⟨rfl, rfl, rfl⟩
      | more _ p _ h1 hl1 _ _ _ _ ih =>
        obtain ⟨rfl, rfl, rfl⟩ := ih
        exact absurd hl1 (hno p _ h1)
    obtain ⟨rfl, rfl, rfl⟩ := hall h
    refine ⟨Nat.le_refl _, fun p => ?_⟩
    obtain ⟨r1, h1, h2⟩ := hrun { p.undisturbed with fuel := 0 }
    obtain ⟨r2, h3, h4⟩ := hrun q.undisturbed
    rw [hq] at h3
    cases h3
    exact ⟨0, r1, h1, h2.trans h4.symm⟩

/-- **C78.** If a program comes to an end when nobody disturbs it, it cannot be moved for ever: no session of it — however its
processes are built, whenever they are stopped, as long as each of them is allowed to execute anything at all (`Begins`) and tables and
data segments are as loaded when it is stopped — has more than a certain number of moves; and after each such session any process, left
alone, brings it to the end it would have come to without any move. -/
theorem moved_program_ends_partial {S : Wasi} (hS : WasiKeepsSize S) {T : FloatText} {lz : Lz} {A : SMod} {H : FloatHost}
    (h : A.WellFormed S H) {P : Prog} (hc : (A.source H).compile A.globalTypes = some P) (hm : Small (A.source H)) {o : Options}
    (ho : o.restore = none) {world : S.W} {q : Process} {r : Res (Left S)}
    (hq : q.undisturbed.run T lz H (some A.file) o world = some r) :
    ∃ N, ∀ (n : Nat) (o' : Options) (w' : S.W), Moves Process.Begins T lz H (some A.file) o world n o' w' → n ≤ N ∧
      ∀ p : Process, ∃ fuel r', ({ p.undisturbed with fuel := fuel }).run T lz H (some A.file) o' w' = some r' ∧ seen r' = seen r := by
  obtain ⟨fs, L, _, _, hload, rfl, _, _⟩ := load_ok h hc
  obtain ⟨lv, hl⟩ := small_bounds hc hm
  exact moves_end hS hload hl ho hq

end Verif.Props
