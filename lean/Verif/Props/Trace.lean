import Verif.Props.Ticks
/-
C77, groundwork: stopping, restoring and stopping again reaches no state that one process could not be stopped in.
-/
namespace Verif.Props
open Verif.Model Verif.Spec Verif.Lemmas

/-- an interpreter that looks at its trigger in every iteration, and never finds it raised -/
abbrev looking (H : FloatHost) (P : Prog) (w : Bool) : Env := envOf H true never P w

/-- `m` reaches, in some round, the state `mc` between two iterations of the loop -/
inductive Go {S : Wasi} (H : FloatHost) (P : Prog) (w : Bool) : Machine S → Machine S → Prop
  | here {m f fs n} (d : DState) (hm : m.frames = f :: fs) (hk : Ticks H P (P.body f.func) n (m.enter f).vm d.vm) :
      Go H P w m (m.leave f d)
  | later {m m1 mc n} (hr : m.round (looking H P w) (loopD (looking H P w)) true n = some (.ok (.running m1))) (hg : Go H P w m1 mc) :
      Go H P w m mc

theorem looking_quiet {H : FloatHost} {P : Prog} {w : Bool} : QuietD (looking H P w) (loopD (looking H P w)) :=
  quietD (E := looking H P w) .loop

/-- a round of the looking interpreter, from a body execution known otherwise -/
theorem round_by {S : Wasi} {H : FloatHost} {P : Prog} {w a : Bool} {t : Nat → Bool} (hin : InsideP P) {en : Bool} {m m' m1 : Machine S}
    (hs : MSim m m') {f g : Frame} {fs gs : List Frame} (hm : m.frames = f :: fs) (hm' : m'.frames = g :: gs) {x : Res Final}
    {o : Res (Option Yield × VM)} (hp : PlainTo (looking H P w) (P.body g.func) (m'.enter g).vm o) (ho : ResRel PSim (obsF x) o)
    (hx : (x >>= m.react (envOf H a t P w) en f) = .ok (.running m1)) :
    ∃ n' m1', m'.round (looking H P w) (loopD (looking H P w)) true n' = some (.ok (.running m1')) ∧ MSim m1 m1' := by
  have q := looking_quiet (H := H) (P := P) (w := w)
  have hne : obsF x ≠ .trap .checkpointRequested := by
    cases x with
    | ok fin =>
      cases fin with
      | ckpt d => simp [Machine.react] at hx
      | halt d => simp [obsF]
      | yield y d => simp [obsF]
    | trap e => cases hx
    | panic => cases hx
    | ub => cases hx
  obtain ⟨j, hj⟩ := hp
  obtain ⟨n2, x', hd', hox⟩ := q.faithful.bwd j _ (m'.enter g) _ (hin g.func) hj
  have hrel := react_sim (E := envOf H a t P w) (en := en) (en' := true) hs hm hm' x x' (by rw [hox]; exact ho) hne
  rw [hx] at hrel
  have hr : m'.round (looking H P w) (loopD (looking H P w)) true n2 = some (x' >>= m'.react (envOf H a t P w) true g) := by
    simp only [Machine.round, hm']
    have hd'' : loopD (looking H P w) n2 ((looking H P w).P.body g.func) (m'.enter g) = some x' := hd'
    rw [hd'']
    rfl
  generalize hb : (x' >>= m'.react (envOf H a t P w) true g) = b at hrel hr
  cases hrel with
  | ok hrr =>
    cases hrr with
    | @running _ m2 hq => exact ⟨n2, m2, hr, hq⟩

theorem round_lift {S : Wasi} {H : FloatHost} {P : Prog} {w a : Bool} {t : Nat → Bool} (hin : InsideP P) {D : Dispatcher}
    (hD : IsD (envOf H a t P w) D) {en : Bool} {n : Nat} {m m' m1 : Machine S} (hs : MSim m m')
    (h : m.round (envOf H a t P w) D en n = some (.ok (.running m1))) :
    ∃ n' m1', m'.round (looking H P w) (loopD (looking H P w)) true n' = some (.ok (.running m1')) ∧ MSim m1 m1' := by
  unfold Machine.round at h
  split at h
  · simp at h
  · rename_i f fs hm
    split at h
    · cases h
    · rename_i x hx
      have hcut := disp_cut hD (hin f.func) hx
      simp only [Option.some.injEq] at h
      have hp : PlainTo (looking H P w) (P.body f.func) (m.enter f).vm (obsF x) := by
        cases x with
        | ok fin =>
          cases fin with
          | ckpt d => simp [Machine.react] at h
          | halt d => exact hcut
          | yield y d => exact hcut
        | trap e => cases h
        | panic => cases h
        | ub => cases h
      have hfr := hs.frames
      rw [hm] at hfr
      cases hm' : m'.frames with
      | nil => rw [hm'] at hfr; simp at hfr
      | cons g gs =>
        rw [hm'] at hfr
        simp only [List.map_cons, List.cons.injEq] at hfr
        have hfunc : f.func = g.func := (keys hfr.1).1
        obtain ⟨j, hj⟩ := hp
        obtain ⟨o, hj2, hos⟩ := plain_sim _ _ _ j _ _ _ (enter_sim hs hm hm') hj
        rw [hfunc] at hj2
        exact round_by hin hs hm hm' ⟨j, hj2⟩ hos h

/-- related machines reach related states -/
theorem Go.sim {S : Wasi} {H : FloatHost} {P : Prog} {w : Bool} (hin : InsideP P) {m mc : Machine S} (h : Go H P w m mc) :
    ∀ {m' : Machine S}, MSim m m' → ∃ mc', Go H P w m' mc' ∧ MSim mc mc' := by
  induction h with
  | @here m f fs n d hm hk =>
    intro m' hs
    have hfr := hs.frames
    rw [hm] at hfr
    cases hm' : m'.frames with
    | nil => rw [hm'] at hfr; simp at hfr
    | cons g gs =>
      rw [hm'] at hfr
      simp only [List.map_cons, List.cons.injEq] at hfr
      have hfunc : f.func = g.func := (keys hfr.1).1
      obtain ⟨t', h1, h2⟩ := hk.sim (enter_sim hs hm hm')
      rw [hfunc] at h1
      exact ⟨_, .here { d with vm := t' } hm' h1, leave_sim hs hm hm' h2⟩
  | later hr _ ih =>
    intro m' hs
    obtain ⟨n', m1', h1, h2⟩ := round_lift hin .loop hs hr
    obtain ⟨mc', h3, h4⟩ := ih h2
    exact ⟨mc', .later h1 h3, h4⟩

/-- whatever the build, the dispatcher and the triggers: where an execution stops is a state reached -/
theorem ckpt_go {S : Wasi} {H : FloatHost} {P : Prog} {w a : Bool} {t : Nat → Bool} (hin : InsideP P) {D : Dispatcher}
    (hD : IsD (envOf H a t P w) D) {en : Bool} {n : Nat} : ∀ (k : Nat) (m m' mc : Machine S), MSim m m' →
    m.runLoop (envOf H a t P w) D en n k = some (.ok (.ckpt mc)) → ∃ mc', Go H P w m' mc' ∧ MSim mc mc'
  | 0, _, _, _, _, h => by simp [Machine.runLoop] at h
  | k + 1, m, m', mc, hs, h => by
    rw [Machine.runLoop] at h
    split at h
    · cases h
    · rename_i m1 hr
      obtain ⟨n', m1', h1, h2⟩ := round_lift hin hD hs hr
      obtain ⟨mc', h3, h4⟩ := ckpt_go hin hD k m1 m1' mc h2 h
      exact ⟨mc', .later h1 h3, h4⟩
    · cases h
    · rename_i m1 hr
      simp only [Option.some.injEq, Res.ok_inj, End.ckpt.injEq] at h
      subst h
      rcases round_inv hD hr with ⟨hf, hx⟩ | ⟨f, fs, fin, hm, hd, -, hre⟩
      · cases hx
      · obtain ⟨d, rfl, rfl⟩ := react_ckpt hre
        obtain ⟨j, hj⟩ := disp_ticks hD hd
        exact Go.sim hin (.here d hm hj) hs
    · cases h
    · cases h
    · cases h

/-- a state reached from a state reached is reached -/
theorem Go.trans {S : Wasi} {H : FloatHost} {P : Prog} {w : Bool} (hin : InsideP P) {m mc x : Machine S} (h : Go H P w m mc) :
    Labelled m → Go H P w mc x → ∃ y, Go H P w m y ∧ MSim x y := by
  induction h with
  | @here m f fs n d hm hk =>
    intro hl hx
    have hlab : d.vm.labels ≠ [] := hk.labelled (hl f (by rw [hm]; simp))
    have hg := leave_frames (d := d) hm
    generalize hgf : ({ f with
      locals := d.vm.locals
      labels := match d.vm.labels with | [] => [] | l :: ls => { l with ip := d.vm.pc } :: ls
      retRegs := d.vm.retRegs
      memPtr := d.vm.memPtr } : Frame) = g at hg
    have hgfunc : g.func = f.func := by rw [← hgf]
    have hen := enter_leave hm d hlab g fs hg
    generalize hmc : m.leave f d = mc at hx
    cases hx with
    | @here _ f2 fs2 n2 d2 hm2 hk2 =>
      subst hmc
      rw [hg] at hm2
      cases hm2
      rw [hgfunc] at hk2
      obtain ⟨t', h1, h2⟩ := hk2.sim hen.symm
      obtain ⟨j, hj⟩ := hk.trans h1
      refine ⟨_, .here { d2 with vm := t' } hm hj, ?_⟩
      rw [leave_leave hm d d2 g fs hg]
      exact leave_sim (.refl m) hm hm h2
    | @later _ m1 _ n2 hr hgo =>
      subst hmc
      simp only [Machine.round, hg] at hr
      split at hr
      · cases hr
      · rename_i x' hx'
        rw [hgfunc] at hx'
        simp only [Option.some.injEq] at hr
        have hr2 : (x' >>= m.react (looking H P w) true f) = .ok (.running m1) := by
          rw [← hr]
          cases x' with
          | ok v => exact (react_leave hm d g fs hg v).symm
          | trap e => rfl
          | panic => rfl
          | ub => rfl
        obtain ⟨j, hj⟩ := looking_quiet.faithful.fwd _ _ _ _ (hin f.func) hx'
        obtain ⟨o2, hj2, hos⟩ := plain_sim _ _ _ j _ _ _ hen.symm hj
        have hp : PlainTo (looking H P w) (P.body f.func) (m.enter f).vm o2 :=
          (Ticks.plain (E := looking H P w) hk o2).mpr ⟨j, hj2⟩
        obtain ⟨n', m1', h1, h2⟩ := round_by hin (.refl m) hm hm hp hos hr2
        obtain ⟨y, h3, h4⟩ := hgo.sim hin h2
        exact ⟨y, .later h1 h3, h4⟩
  | @later m m1 mc n hr _ ih =>
    intro hl hx
    obtain ⟨y, h1, h2⟩ := ih (lab_round .loop hr hl) hx
    exact ⟨y, .later hr h1, h2⟩

/-! ### every state reached is one where a suitable trigger stops the run -/

/-- checkpoints are enabled in every frame -/
def Enabled {S : Wasi} (m : Machine S) : Prop := ∀ f ∈ m.frames, f.enable = true

theorem Enabled.leave {S : Wasi} {m : Machine S} {f : Frame} {fs : List Frame} {d : DState} (hm : m.frames = f :: fs) (h : Enabled m) :
    Enabled (m.leave f d) := by
  intro g hg
  rw [leave_frames hm] at hg
  rcases List.mem_cons.mp hg with rfl | hg
  · exact h f (by rw [hm]; simp)
  · exact h g (by rw [hm]; simp [hg])

theorem enabled_return {S : Wasi} {m : Machine S} {r : Round S} (h : Enabled m) (hr : m.doReturn = .ok r) :
    r.m.looks = m.looks ∧ Enabled r.m := by
  unfold Machine.doReturn at hr
  split at hr
  · cases hr
  · rename_i f rest hm
    split at hr
    · simp only [Res.bind_eq_ok, Res.pure_eq, Res.ok_inj] at hr
      obtain ⟨_, _, rfl⟩ := hr
      exact ⟨rfl, fun g hg => by cases hg⟩
    · rename_i c cs
      simp only [Res.bind_eq_ok, Res.pure_eq, Res.ok_inj] at hr
      obtain ⟨_, _, _, _, rfl⟩ := hr
      refine ⟨rfl, fun g hg => ?_⟩
      simp only [Round.m] at hg
      rcases List.mem_cons.mp hg with rfl | hg
      · exact h c (by rw [hm]; simp)
      · exact h g (by rw [hm]; simp [hg])

theorem enabled_react {S : Wasi} {E : Env} {m : Machine S} {f : Frame} {fs : List Frame} (hm : m.frames = f :: fs) (h : Enabled m)
    {fin : Final} {r : Round S} (hr : m.react E true f fin = .ok r) : r.m.looks = fin.d.looks ∧ Enabled r.m := by
  have key : ∀ d, Enabled (m.leave f d) := fun d => h.leave hm
  cases fin with
  | ckpt d => simp only [Machine.react, Res.ok_inj] at hr; subst hr; exact ⟨rfl, key d⟩
  | halt d => exact enabled_return (key d) hr
  | yield y d =>
    cases y with
    | ret => exact enabled_return (key d) hr
    | invoke g ps rs =>
      simp only [Machine.react, Machine.doInvoke] at hr
      split at hr
      · simp only [Res.bind_eq_ok, Res.pure_eq, Res.ok_inj] at hr
        obtain ⟨_, _, rfl⟩ := hr
        refine ⟨rfl, fun x hx => ?_⟩
        simp only [Round.m] at hx
        rcases List.mem_cons.mp hx with rfl | hx
        · rfl
        · have hf := leave_frames (d := d) hm
          have hk := key d
          rw [Enabled, hf] at hk
          rw [hf] at hx
          simp only at hx
          rcases List.mem_cons.mp hx with rfl | hx
          · have h2 := hk _ List.mem_cons_self
            exact h2
          · exact hk x (by simp [hx])
      · cases hr
      · cases hr
    | wasi id ps reg =>
      simp only [Machine.react, Machine.doWasi] at hr
      split at hr
      · simp only [Res.bind_eq_ok] at hr
        obtain ⟨⟨o, w⟩, hc, hr⟩ := hr
        cases o with
        | none => cases hr
        | some res =>
          simp only at hr
          split at hr
          · simp only [Res.bind_eq_ok, Res.pure_eq, Res.ok_inj] at hr
            obtain ⟨_, _, rfl⟩ := hr; exact ⟨rfl, key d⟩
          · cases hr; exact ⟨rfl, key d⟩
      · cases hr

theorem loop_mono_le {E : Env} {code : List Instr} {n n' : Nat} {d : DState} {r : Res Final} (hn : n ≤ n')
    (h : loopRun E code n d = some r) : loopRun E code n' d = some r := by
  induction hn with
  | refl => exact h
  | step _ ih => exact loop_mono E code _ d r ih

/-- a trigger raised at the right look (no other look matters) stops the looking interpreter in a state reached -/
theorem Go.stops {S : Wasi} {H : FloatHost} {P : Prog} {w : Bool} {m mc : Machine S} (h : Go H P w m mc) : Enabled m →
    ∃ K, m.looks ≤ K ∧ ∀ trig : Nat → Bool, (∀ j, m.looks ≤ j → j < K → trig j = false) → trig K = true →
      ∃ mc' N k, MSim mc mc' ∧ ∀ n, N ≤ n →
        m.runLoop (envOf H true trig P w) (loopD (envOf H true trig P w)) true n k = some (.ok (.ckpt mc')) := by
  induction h with
  | @here m f fs n d hm hk =>
    intro he
    refine ⟨m.looks + n, by omega, fun trig hf ht => ?_⟩
    obtain ⟨d2, h1, h2⟩ := hk.stops (w := w) (trig := trig) (d := m.enter f) rfl (he f (by rw [hm]; simp)) hf ht
    refine ⟨m.leave f d2, n + 1, 1, leave_sim (.refl m) hm hm (by rw [h2]; exact .refl _), fun n' hn => ?_⟩
    rw [Machine.runLoop]
    have hd : loopD (envOf H true trig P w) n' ((envOf H true trig P w).P.body f.func) (m.enter f) = some (.ok (.ckpt d2)) :=
      loop_mono_le hn h1
    simp only [Machine.round, hm, hd, Res.bind_ok, Machine.react]
  | @later m m1 mc n hr _ ih =>
    intro he
    rcases round_inv .loop hr with ⟨hf, hx⟩ | ⟨f, fs, fin, hm, hd, -, hre⟩
    · cases hx
    · obtain ⟨e1, e2⟩ := enabled_react hm he hre
      obtain ⟨K, hK, hall⟩ := ih e2
      have e1' : m1.looks = fin.d.looks := e1
      rw [e1'] at hK
      have hle := (loop_until (trig := never) n _ fin (he f (by rw [hm]; simp)) hd).1
      have hle' : m.looks ≤ fin.d.looks := hle
      refine ⟨K, by omega, fun trig hf ht => ?_⟩
      obtain ⟨mc', N, k, h1, h2⟩ := hall trig (fun j a b => hf j (by omega) b) ht
      refine ⟨mc', max n N, k + 1, h1, fun n' hn => ?_⟩
      have hd2 := (loop_until (trig := trig) n _ fin (he f (by rw [hm]; simp)) hd).2 (fun j a b => hf j a (by omega))
      have hd3 : loopD (envOf H true trig P w) n' ((envOf H true trig P w).P.body f.func) (m.enter f) = some (.ok fin) :=
        loop_mono_le (by omega) hd2
      rw [Machine.runLoop]
      have hround : m.round (envOf H true trig P w) (loopD (envOf H true trig P w)) true n' = some (.ok (.running m1)) := by
        simp only [Machine.round, hm, hd3, Res.bind_ok]
        exact congrArg some hre
      rw [hround]
      exact h2 n' (by omega)

end Verif.Props
