import Verif.Props.Migrate
import Verif.Lemmas.Tables
/-
C30: checkpoint / restore is transparent.
-/
namespace Verif.Props
open Verif.Model

/-! ### invariants of dispatcher calls -/

theorem loop_inv {R : VM → Prop} {E : Env} {code : List Instr}
    (hstep : ∀ s i o, i ∈ code → R s → step E.H E.P code.length s i = .ok o → R o.vm)
    (hpop : ∀ s l ls pc, R s → s.labels = l :: ls → ls ≠ [] → R { s with labels := ls, pc := pc }) :
    ∀ (n : Nat) (d : DState) (fin : Final), R d.vm → loopRun E code n d = some (.ok fin) → R fin.d.vm
  | 0, _, _, _, h => by simp [loopRun] at h
  | n + 1, d, fin, hr, h => by
    have hp := poll_vm E d
    rw [loopRun] at h
    split at h
    · rename_i d1 hd
      rw [hd] at hp; cases h; show R d1.vm; simp only at hp; rw [hp]; exact hr
    · rename_i d1 hd
      rw [hd] at hp
      simp only at hp
      rw [← hp] at hr
      split at h
      · split at h
        · rename_i l l2 rest hl
          split at h
          · cases h; exact hr
          · exact loop_inv hstep hpop n _ fin (hpop _ l (l2 :: rest) _ hr hl (by simp)) h
        · cases h; exact hr
      · rename_i i hi
        have hm := List.mem_of_getElem? hi
        split at h
        · rename_i vm hs; exact loop_inv hstep hpop n _ fin (hstep _ _ _ hm hr hs) h
        · rename_i y vm hs; cases h; exact hstep _ _ _ hm hr hs
        · cases h
        · cases h
        · cases h

theorem chain_inv {R : VM → Prop} {E : Env} {code : List Instr}
    (hstep : ∀ s i o, i ∈ code → R s → step E.H E.P code.length s i = .ok o → R o.vm) :
    ∀ (n : Nat) (d : DState) (fin : Final), R d.vm → tcoChain E code n d = some (.ok fin) → R fin.d.vm
  | 0, _, _, _, h => by simp [tcoChain] at h
  | n + 1, d, fin, hr, h => by
    rw [tcoChain] at h
    split at h
    · split at h
      · cases h; exact hr
      · cases h
    · rename_i i hi
      have hm := List.mem_of_getElem? hi
      split at h
      · rename_i vm hs
        have h1 : R vm := hstep _ _ _ hm hr hs
        split at h
        · rename_i d1 hd; cases h; show R d1.vm; rw [poll_vm' hd]; exact h1
        · rename_i d1 hd; exact chain_inv hstep n d1 fin (by rw [poll_vm' hd]; exact h1) h
      · rename_i y vm hs; cases h; exact hstep _ _ _ hm hr hs
      · cases h
      · cases h
      · cases h

theorem disp_inv {R : VM → Prop} {E : Env} {D : Dispatcher} (hD : IsD E D) {code : List Instr}
    (hstep : ∀ s i o, i ∈ code → R s → step E.H E.P code.length s i = .ok o → R o.vm)
    (hpop : ∀ s l ls pc, R s → s.labels = l :: ls → ls ≠ [] → R { s with labels := ls, pc := pc })
    (n : Nat) (d : DState) (fin : Final) (hr : R d.vm) (h : D n code d = some (.ok fin)) : R fin.d.vm := by
  cases hD with
  | loop => exact loop_inv hstep hpop n d fin hr h
  | tco =>
    simp only [tcoD, tcoRun] at h
    split at h
    · rename_i d1 hd; cases h; show R d1.vm; rw [poll_vm' hd]; exact hr
    · rename_i d1 hd
      have h1 : R d1.vm := by rw [poll_vm' hd]; exact hr
      split at h
      · cases h; exact h1
      · exact chain_inv hstep n d1 fin h1 h

/-! ### cutting a body's execution at a checkpoint -/

/-- the checkpoint-free execution of the body ends in `o` -/
def PlainTo (E : Env) (code : List Instr) (s : VM) (o : Res (Option Yield × VM)) : Prop :=
  ∃ k, plainRun E.H E.P code k s = some o

theorem plainTo_step {E : Env} {code : List Instr} {s s' : VM} {i : Instr} (hi : code[s.pc]? = some i)
    (hs : step E.H E.P code.length s i = .ok (.cont s')) (o) : PlainTo E code s o ↔ PlainTo E code s' o := by
  constructor
  · rintro ⟨k, h⟩
    cases k with
    | zero => simp [plainRun] at h
    | succ k => rw [plainRun, hi] at h; simp only [hs] at h; exact ⟨k, h⟩
  · rintro ⟨k, h⟩
    exact ⟨k + 1, by rw [plainRun, hi]; simp only [hs]; exact h⟩

theorem plainTo_end {E : Env} {code : List Instr} {s : VM} (hi : code[s.pc]? = none) (o) :
    PlainTo E code s o ↔ o = .ok (none, { s with pc := 0, labels := [] }) := by
  constructor
  · rintro ⟨k, h⟩
    cases k with
    | zero => simp [plainRun] at h
    | succ k => rw [plainRun, hi] at h; simpa using h.symm
  · rintro rfl
    exact ⟨1, by rw [plainRun, hi]⟩

/-- a dispatcher call, with whatever triggers, is a part of the checkpoint-free execution of the body -/
def CutOk (E : Env) (code : List Instr) (s : VM) : Res Final → Prop
  | .ok (.ckpt d) => ∀ o, PlainTo E code s o ↔ PlainTo E code d.vm o
  | r => PlainTo E code s (obsF r)

theorem CutOk.of {E : Env} {code : List Instr} {s s' : VM} (h : ∀ o, PlainTo E code s o ↔ PlainTo E code s' o)
    {r : Res Final} (k : CutOk E code s' r) : CutOk E code s r := by
  match r, k with
  | .ok (.ckpt d), k => exact fun o => (h o).trans (k o)
  | .ok (.halt d), k => exact (h _).mpr k
  | .ok (.yield y d), k => exact (h _).mpr k
  | .trap e, k => exact (h _).mpr k
  | .panic, k => exact (h _).mpr k
  | .ub, k => exact (h _).mpr k

theorem loop_cut {E : Env} {code : List Instr} : ∀ (n : Nat) (d : DState) (r : Res Final),
    loopRun E code n d = some r → CutOk E code d.vm r
  | 0, _, _, h => by simp [loopRun] at h
  | n + 1, d, r, h => by
    rw [loopRun] at h
    split at h
    · rename_i d1 hd
      cases h
      intro o; rw [poll_vm' hd]
    · rename_i d1 hd
      rw [← poll_vm' hd]
      split at h
      · rename_i hi
        split at h
        · rename_i l l2 rest hl
          split at h
          · cases h; exact (plainTo_end hi _).mpr rfl
          · rename_i hc
            refine CutOk.of (fun o => ?_) (loop_cut n _ r h)
            rw [plainTo_end hi, plainTo_end]
            have hle := List.getElem?_eq_none_iff.mp hi
            apply List.getElem?_eq_none_iff.mpr
            simp only
            split
            · omega
            · rename_i hlp
              simp only [Bool.not_eq_true] at hlp
              simp only [hlp, and_true, Nat.not_le] at hc
              omega
        · cases h; exact (plainTo_end hi _).mpr rfl
      · rename_i i hi
        split at h
        · rename_i vm hs
          exact CutOk.of (plainTo_step hi hs) (loop_cut n _ r h)
        · rename_i y vm hs
          cases h; exact ⟨1, by rw [plainRun, hi]; simp only [hs]; rfl⟩
        · rename_i e hs
          cases h; exact ⟨1, by rw [plainRun, hi]; simp only [hs]; rfl⟩
        · rename_i hs
          cases h; exact ⟨1, by rw [plainRun, hi]; simp only [hs]; rfl⟩
        · rename_i hs
          cases h; exact ⟨1, by rw [plainRun, hi]; simp only [hs]; rfl⟩

theorem chain_cut {E : Env} {code : List Instr} (hin : Inside code) : ∀ (n : Nat) (d : DState) (r : Res Final),
    d.vm.pc ≤ code.length → tcoChain E code n d = some r → CutOk E code d.vm r
  | 0, _, _, _, h => by simp [tcoChain] at h
  | n + 1, d, r, hpc, h => by
    rw [tcoChain] at h
    split at h
    · rename_i hi
      have hle := List.getElem?_eq_none_iff.mp hi
      rw [if_pos (by omega)] at h
      cases h; exact (plainTo_end hi _).mpr rfl
    · rename_i i hi
      have hlt := (List.getElem?_eq_some_iff.mp hi).1
      split at h
      · rename_i vm hs
        have hpc' := step_pc hlt (hin i (List.mem_of_getElem? hi)) hs
        split at h
        · rename_i d1 hd; cases h
          refine CutOk.of (plainTo_step hi hs) ?_
          intro o; rw [poll_vm' hd]
        · rename_i d1 hd
          have hv := poll_vm' hd
          have := chain_cut hin n d1 r (by rw [hv]; exact hpc') h
          rw [hv] at this
          exact CutOk.of (plainTo_step hi hs) this
      · rename_i y vm hs
        cases h; exact ⟨1, by rw [plainRun, hi]; simp only [hs]; rfl⟩
      · rename_i e hs
        cases h; exact ⟨1, by rw [plainRun, hi]; simp only [hs]; rfl⟩
      · rename_i hs
        cases h; exact ⟨1, by rw [plainRun, hi]; simp only [hs]; rfl⟩
      · rename_i hs
        cases h; exact ⟨1, by rw [plainRun, hi]; simp only [hs]; rfl⟩

theorem disp_cut {E : Env} {D : Dispatcher} (hD : IsD E D) {code : List Instr} (hin : Inside code) {n : Nat} {d : DState}
    {r : Res Final} (h : D n code d = some r) : CutOk E code d.vm r := by
  cases hD with
  | loop => exact loop_cut n d r h
  | tco =>
    simp only [tcoD, tcoRun] at h
    split at h
    · rename_i d1 hd; cases h; intro o; rw [poll_vm' hd]
    · rename_i d1 hd
      rw [← poll_vm' hd]
      split at h
      · rename_i hle
        cases h; exact (plainTo_end (List.getElem?_eq_none_iff.mpr hle) _).mpr rfl
      · exact chain_cut hin n d1 r (by omega) h

/-! ### invariants of runs -/

/-- every frame has its function label -/
def Labelled {S : Wasi} (m : Machine S) : Prop := ∀ f ∈ m.frames, f.labels ≠ []

theorem leave_labelled {S : Wasi} {m : Machine S} {f : Frame} {fs : List Frame} {d : DState} (hm : m.frames = f :: fs)
    (hl : Labelled m) (hd : d.vm.labels ≠ []) : Labelled (m.leave f d) := by
  intro g hg
  rw [leave_frames hm] at hg
  rcases List.mem_cons.mp hg with rfl | hg
  · simp only
    split
    · rename_i h; exact absurd h hd
    · simp
  · exact hl g (by rw [hm]; simp [hg])

theorem lab_round {S : Wasi} {E : Env} {D : Dispatcher} (hD : IsD E D) {en : Bool} {n : Nat} {m : Machine S}
    {r : Round S} (h : m.round E D en n = some (.ok r)) (hl : Labelled m) : Labelled r.m := by
  rcases round_inv hD h with ⟨hf, rfl⟩ | ⟨f, fs, fin, hm, hd, -, hre⟩
  · exact hl
  · have hlab : fin.d.vm.labels ≠ [] :=
      disp_inv (R := fun s => s.labels ≠ []) hD (fun s i o _ hr hs => step_labels hs hr)
        (fun s l ls pc _ _ h => h) n _ fin (hl f (by rw [hm]; simp)) hd
    have key : ∀ d, d.vm.labels ≠ [] → Labelled (m.leave f d) := fun d hd => leave_labelled hm hl hd
    have ret : ∀ d, d.vm.labels ≠ [] → (m.leave f d).doReturn = .ok r → Labelled r.m := by
      intro d hd h
      have hk := key d hd
      unfold Machine.doReturn at h
      rw [leave_frames hm] at h
      rw [Labelled, leave_frames hm] at hk
      simp only at h
      split at h
      · simp only [Res.bind_eq_ok, Res.pure_eq, Res.ok_inj] at h
        obtain ⟨_, _, rfl⟩ := h
        intro g hg; cases hg
      · simp only [Res.bind_eq_ok, Res.pure_eq, Res.ok_inj] at h
        obtain ⟨_, _, _, _, rfl⟩ := h
        intro g hg
        rcases List.mem_cons.mp hg with rfl | hg
        · have h := hk _ (List.mem_cons_of_mem _ List.mem_cons_self)
          exact h
        · exact hk g (by simp [hg])
    cases fin with
    | ckpt d => simp only [Machine.react, Res.ok_inj] at hre; subst hre; exact key d hlab
    | halt d => exact ret d hlab hre
    | yield y d =>
      cases y with
      | ret => exact ret d hlab hre
      | invoke g ps rs =>
        simp only [Machine.react, Machine.doInvoke] at hre
        have hk := key d hlab
        split at hre
        · simp only [Res.bind_eq_ok, Res.pure_eq, Res.ok_inj] at hre
          obtain ⟨_, _, rfl⟩ := hre
          intro g hg
          rw [Labelled, leave_frames hm] at hk
          simp only [Round.m, leave_frames hm] at hg
          rcases List.mem_cons.mp hg with rfl | hg
          · simp [newFrame]
          · rcases List.mem_cons.mp hg with rfl | hg
            · have h := hk _ List.mem_cons_self
              exact h
            · exact hk g (by simp [hg])
        · cases hre
        · cases hre
      | wasi id ps reg =>
        simp only [Machine.react, Machine.doWasi] at hre
        have hk := key d hlab
        split at hre
        · simp only [Res.bind_eq_ok] at hre
          obtain ⟨⟨o, w⟩, hc, hre⟩ := hre
          cases o with
          | none => cases hre
          | some res =>
            simp only at hre
            split at hre
            · simp only [Res.bind_eq_ok, Res.pure_eq, Res.ok_inj] at hre
              obtain ⟨_, _, rfl⟩ := hre; exact hk
            · cases hre; exact hk
        · cases hre

/-- the program contains no `table.set`, `table.fill` or `data.drop` -/
def KeepsSegments (P : Prog) : Prop := ∀ f, ∀ i ∈ P.body f, i.unsaved = false

theorem seg_round {S : Wasi} {E : Env} (hP : KeepsSegments E.P) {D : Dispatcher} (hD : IsD E D) {en : Bool} {n : Nat}
    {m : Machine S} {r : Round S} (h : m.round E D en n = some (.ok r)) : SameSeg r.m.inst m.inst := by
  rcases round_inv hD h with ⟨hf, rfl⟩ | ⟨f, fs, fin, hm, hd, -, hre⟩
  · exact ⟨rfl, rfl⟩
  · have h1 : SameSeg fin.d.vm.inst m.inst :=
      disp_inv (R := fun s => SameSeg s.inst m.inst) hD
        (fun s i o hi hr hs => have h2 := step_seg (hP f.func i hi) hs
          ⟨h2.tables.trans hr.tables, h2.datas.trans hr.datas⟩)
        (fun s l ls pc h _ _ => h) n _ fin ⟨rfl, rfl⟩ hd
    rcases react_inst hre with h2 | ⟨_, _, _, _, _, _, _, h2⟩
    · rw [h2]; exact h1
    · rw [h2]; exact ⟨h1.tables, h1.datas⟩

theorem KeepsStar.max {s s' : VM} (h : KeepsStar s s') : s'.inst.mem.map (·.max) = s.inst.mem.map (·.max) := by
  induction h with
  | refl => rfl
  | @step s1 s2 _ k ih =>
    rw [← ih]
    have hk := k.mem
    cases h1 : s1.inst.mem with
    | none =>
      cases h2 : s2.inst.mem with
      | none => rfl
      | some b => rw [h1, h2] at hk; exact absurd hk (by simp [OptMemStep])
    | some a =>
      cases h2 : s2.inst.mem with
      | none => rw [h1, h2] at hk; exact absurd hk (by simp [OptMemStep])
      | some b =>
        rw [h1, h2] at hk
        simp only [OptMemStep] at hk
        rcases hk with ⟨_, hk⟩ | ⟨d, _, rfl⟩
        · simp [hk]
        · simp only [Option.map_some, Option.some.injEq]
          simp only [Mem.grow]
          split
          · rfl
          · split <;> rfl

theorem shape_round {S : Wasi} (hS : WasiKeepsSize S) {E : Env} {D : Dispatcher} (hD : IsD E D) {en : Bool} {n : Nat}
    {m : Machine S} {r : Round S} (h : m.round E D en n = some (.ok r)) {i : Inst} (hi : SameShape i m.inst) :
    SameShape i r.m.inst := by
  rcases round_inv hD h with ⟨hf, rfl⟩ | ⟨f, fs, fin, hm, hd, hk, hre⟩
  · exact hi
  · have hg := KeepsStar.types hk
    simp only [Inst.types, Prod.mk.injEq] at hg
    have hx := KeepsStar.max hk
    rcases react_inst hre with h2 | ⟨mem, id, ps, res, w, hmem, hc, h2⟩
    · rw [h2]; exact ⟨hi.globals.trans hg.1.symm, hi.mem.trans hx.symm⟩
    · rw [h2]
      refine ⟨hi.globals.trans hg.1.symm, hi.mem.trans ?_⟩
      rw [hmem] at hx
      have := (hS id ps mem m.world (some res) w.1 w.2 hc).2
      simp only [Option.map_some, this]
      exact hx.symm

/-! ### cutting a run at a checkpoint -/

/-- the same environment without any trigger -/
def _root_.Verif.Model.Env.quiet (E : Env) : Env := { E with trig := fun _ => false }

/-- dispatchers of an environment without triggers -/
structure QuietD (E : Env) (D : Dispatcher) : Prop where
  faithful : Faithful E D
  noCk : ∀ n code d r, D n code d = some r → obsF r ≠ .trap .checkpointRequested

theorem quietD {E : Env} {D : Dispatcher} (h : IsD E.quiet D) : QuietD E.quiet D := by
  have hq : Quiet E.quiet := fun _ => rfl
  cases h with
  | loop => exact ⟨loop_faithful hq, fun n code d r h => loop_noCk hq code n d r h⟩
  | tco => exact ⟨tco_faithful hq, fun n code d r h => tco_noCk hq code n d r h⟩

/-- result of the loop of `run`, for some amount of fuel -/
def RunsL {S : Wasi} (E : Env) (D : Dispatcher) (en : Bool) (m : Machine S) (o : Res (List Val × Inst × S.W)) : Prop :=
  ∃ n k r, m.runLoop E D en n k = some r ∧ obsE r = o

theorem runs_iff {S : Wasi} {E : Env} {D : Dispatcher} (hD : Faithful E D) {en : Bool} {m : Machine S}
    {o : Res (List Val × Inst × S.W)} :
    Runs E D en m o ↔ RunsL E D en { m with frames := setFirstEnable en m.frames } o := by
  constructor
  · rintro ⟨n, r, h, ho⟩; exact ⟨n, n, r, h, ho⟩
  · rintro ⟨n, k, r, h, ho⟩
    exact ⟨max n k, r, runLoop_mono hD (Nat.le_max_left _ _) (Nat.le_max_right _ _) h, ho⟩

theorem runsL_sim {S : Wasi} {E : Env} {D D' : Dispatcher} (hD : QuietD E D) (hD' : QuietD E D') (hin : InsideP E.P)
    {en en' : Bool} {m m' : Machine S} (hs : MSim m m') {o : Res (List Val × Inst × S.W)} (h : RunsL E D en m o) :
    RunsL E D' en' m' o := by
  obtain ⟨n, k, r, h, ho⟩ := h
  obtain ⟨n', k', r', h1, h2⟩ := runLoop_sim hD.faithful hD'.faithful hD.noCk hin (en := en) (en' := en') k m m' r hs h
  exact ⟨n', k', r', h1, h2.trans ho⟩

theorem round_mono_le {S : Wasi} {E : Env} {D : Dispatcher} (hD : Faithful E D) {en : Bool} {n n' : Nat} {m : Machine S}
    {r : Res (Round S)} (hn : n ≤ n') (h : m.round E D en n = some r) : m.round E D en n' = some r := by
  induction hn with
  | refl => exact h
  | step _ ih => exact round_mono hD ih

theorem round_det {S : Wasi} {E : Env} {D : Dispatcher} (hD : Faithful E D) {en : Bool} {n n' : Nat} {m : Machine S}
    {r r' : Res (Round S)} (h : m.round E D en n = some r) (h' : m.round E D en n' = some r') : r = r' := by
  have h1 := round_mono_le hD (Nat.le_max_left n n') h
  rw [round_mono_le hD (Nat.le_max_right n n') h'] at h1
  exact (Option.some.inj h1).symm

theorem runsL_next {S : Wasi} {E : Env} {D : Dispatcher} (hD : Faithful E D) {en : Bool} {n : Nat} {m m1 : Machine S}
    (h : m.round E D en n = some (.ok (.running m1))) (o : Res (List Val × Inst × S.W)) :
    RunsL E D en m o ↔ RunsL E D en m1 o := by
  constructor
  · rintro ⟨n', k, r, hr, ho⟩
    cases k with
    | zero => simp [Machine.runLoop] at hr
    | succ k =>
      rw [Machine.runLoop] at hr
      cases hx : m.round E D en n' with
      | none => rw [hx] at hr; cases hr
      | some x =>
        have := round_det hD h hx
        subst this
        rw [hx] at hr
        exact ⟨n', k, r, hr, ho⟩
  · rintro ⟨n', k, r, hr, ho⟩
    refine ⟨max n n', k + 1, r, ?_, ho⟩
    rw [Machine.runLoop, round_mono_le hD (Nat.le_max_left n n') h]
    exact runLoop_mono hD (Nat.le_max_right _ _) (Nat.le_refl _) hr

/-- one round from related machines, then on -/
theorem runsL_round {S : Wasi} {E : Env} {D : Dispatcher} (hD : QuietD E D) (hin : InsideP E.P) {en : Bool}
    {m m' : Machine S} (hr : ∀ n a, m.round E D en n = some a → ∃ n' b, m'.round E D en n' = some b ∧ ResRel RoundSim a b)
    {o : Res (List Val × Inst × S.W)} (h : RunsL E D en m o) : RunsL E D en m' o := by
  obtain ⟨n, k, r, h, ho⟩ := h
  cases k with
  | zero => simp [Machine.runLoop] at h
  | succ k =>
    rw [Machine.runLoop] at h
    cases hx : m.round E D en n with
    | none => rw [hx] at h; cases h
    | some a =>
      rw [hx] at h
      obtain ⟨n', b, hb, hrel⟩ := hr n a hx
      cases hrel with
      | trap e => simp only [Option.some.injEq] at h; subst h; exact ⟨n', 1, .trap e, by rw [Machine.runLoop, hb], ho⟩
      | panic => simp only [Option.some.injEq] at h; subst h; exact ⟨n', 1, .panic, by rw [Machine.runLoop, hb], ho⟩
      | ub => simp only [Option.some.injEq] at h; subst h; exact ⟨n', 1, .ub, by rw [Machine.runLoop, hb], ho⟩
      | ok hrr =>
        cases hrr with
        | @done vs q q' hqi hqw =>
          simp only [Option.some.injEq] at h; subst h
          exact ⟨n', 1, .ok (.done vs q'), by rw [Machine.runLoop, hb], by rw [← ho]; simp [obsE, hqi, hqw]⟩
        | @running q q' hq =>
          exact (runsL_next hD.faithful hb o).mpr (runsL_sim hD hD hin hq ⟨n, k, r, h, ho⟩)

theorem leave_leave {S : Wasi} {m : Machine S} {f : Frame} {fs : List Frame} (hm : m.frames = f :: fs) (d d' : DState)
    (g : Frame) (gs : List Frame) (hg : (m.leave f d).frames = g :: gs) : (m.leave f d).leave g d' = m.leave f d' := by
  rw [leave_frames hm] at hg
  cases hg
  simp only [Machine.leave, hm, List.tail_cons]

theorem react_leave {S : Wasi} {E : Env} {en : Bool} {m : Machine S} {f : Frame} {fs : List Frame}
    (hm : m.frames = f :: fs) (d : DState) (g : Frame) (gs : List Frame) (hg : (m.leave f d).frames = g :: gs)
    (x : Final) : (m.leave f d).react E en g x = m.react E en f x := by
  cases x with
  | ckpt d' => simp only [Machine.react, leave_leave hm d d' g gs hg]
  | halt d' => simp only [Machine.react, leave_leave hm d d' g gs hg]
  | yield y d' => cases y <;> simp only [Machine.react, leave_leave hm d d' g gs hg]

/-- writing the state back into the frame and loading it again changes nothing that matters -/
theorem enter_leave {S : Wasi} {m : Machine S} {f : Frame} {fs : List Frame} (hm : m.frames = f :: fs) (d : DState)
    (hl : d.vm.labels ≠ []) (g : Frame) (gs : List Frame) (hg : (m.leave f d).frames = g :: gs) :
    VSim d.vm ((m.leave f d).enter g).vm := by
  rw [leave_frames hm] at hg
  cases hg
  cases hd : d.vm.labels with
  | nil => exact absurd hd hl
  | cons l ls =>
    refine ⟨rfl, rfl, ?_, rfl, ?_, rfl, Iff.rfl⟩
    · simp [Machine.enter]
    · simp [Machine.enter, hd, Label.noIp]

theorem runsL_cut_round {S : Wasi} {E : Env} (hin : InsideP E.P) {D D' : Dispatcher} (hD : IsD E D)
    (hD' : IsD E.quiet D') {en en' : Bool} {n : Nat} {m mc : Machine S} (hl : Labelled m)
    (h : m.round E D en n = some (.ok (.ckpt mc))) (o : Res (List Val × Inst × S.W)) :
    RunsL E.quiet D' en' m o ↔ RunsL E.quiet D' en' mc o := by
  have q := quietD hD'
  have hl' := lab_round hD h hl
  rcases round_inv hD h with ⟨hf, hx⟩ | ⟨f, fs, fin, hm, hd, -, hre⟩
  · cases hx
  · obtain ⟨d, rfl, rfl⟩ : ∃ d, fin = .ckpt d ∧ mc = m.leave f d := by
      cases fin with
      | ckpt d => simp only [Machine.react, Res.ok_inj, Round.ckpt.injEq] at hre; exact ⟨d, rfl, hre.symm⟩
      | halt d =>
        simp only [Machine.react, Machine.doReturn] at hre
        split at hre
        · cases hre
        · split at hre <;> simp [Res.bind_eq_ok] at hre
      | yield y d =>
        cases y with
        | ret =>
          simp only [Machine.react, Machine.doReturn] at hre
          split at hre
          · cases hre
          · split at hre <;> simp [Res.bind_eq_ok] at hre
        | invoke g ps rs =>
          simp only [Machine.react, Machine.doInvoke] at hre
          split at hre
          · simp [Res.bind_eq_ok] at hre
          · cases hre
          · cases hre
        | wasi id ps reg =>
          simp only [Machine.react, Machine.doWasi] at hre
          split at hre
          · simp only [Res.bind_eq_ok] at hre
            obtain ⟨⟨o, w⟩, hc, hre⟩ := hre
            cases o with
            | none => cases hre
            | some res =>
              simp only at hre
              split at hre <;> simp [Res.bind_eq_ok] at hre
          · cases hre
    have hlab : d.vm.labels ≠ [] :=
      disp_inv (R := fun s => s.labels ≠ []) hD (fun s i o _ hr hs => step_labels hs hr)
        (fun s l ls pc _ _ h => h) n _ _ (hl f (by rw [hm]; simp)) hd
    have hcut : ∀ o, PlainTo E (E.P.body f.func) (m.enter f).vm o ↔ PlainTo E (E.P.body f.func) d.vm o :=
      disp_cut hD (hin f.func) hd
    have hg := leave_frames (d := d) hm
    generalize hgf : ({ f with
      locals := d.vm.locals
      labels := match d.vm.labels with | [] => [] | l :: ls => { l with ip := d.vm.pc } :: ls
      retRegs := d.vm.retRegs
      memPtr := d.vm.memPtr } : Frame) = g at hg
    have hgfunc : g.func = f.func := by rw [← hgf]
    have hen := enter_leave hm d hlab g fs hg
    have hreact : ∀ x, (m.leave f d).react E.quiet en' g x = m.react E.quiet en' f x := react_leave hm d g fs hg
    have hbind : ∀ x : Res Final, (x >>= (m.leave f d).react E.quiet en' g) = (x >>= m.react E.quiet en' f) := by
      intro x
      cases x with
      | ok v => exact hreact v
      | trap e => rfl
      | panic => rfl
      | ub => rfl
    constructor
    · refine runsL_round q hin ?_
      intro n1 a ha
      simp only [Machine.round, hm] at ha
      cases hx : D' n1 (E.quiet.P.body f.func) (m.enter f) with
      | none => rw [hx] at ha; cases ha
      | some x =>
        rw [hx] at ha
        simp only [Option.some.injEq] at ha
        subst ha
        obtain ⟨j, hj⟩ := q.faithful.fwd _ _ _ _ (hin f.func) hx
        obtain ⟨j2, hj2⟩ := (hcut _).mp ⟨j, hj⟩
        obtain ⟨o2, hj3, hos⟩ := plain_sim _ _ _ j2 _ _ _ hen hj2
        obtain ⟨n2, x', hd', hox⟩ := q.faithful.bwd j2 _ ((m.leave f d).enter g) _ (hin f.func) hj3
        refine ⟨n2, x' >>= (m.leave f d).react E.quiet en' g, ?_, ?_⟩
        · simp only [Machine.round, hg, hgfunc]
          have hd'' : D' n2 (E.quiet.P.body f.func) ((m.leave f d).enter g) = some x' := hd'
          rw [hd'']
        · rw [← hbind x]
          exact react_sim (MSim.refl _) hg hg x x' (by rw [hox]; exact hos) (q.noCk _ _ _ _ hx)
    · refine runsL_round q hin ?_
      intro n1 a ha
      simp only [Machine.round, hg, hgfunc] at ha
      cases hx : D' n1 (E.quiet.P.body f.func) ((m.leave f d).enter g) with
      | none => rw [hx] at ha; cases ha
      | some x =>
        rw [hx] at ha
        simp only [Option.some.injEq] at ha
        subst ha
        obtain ⟨j, hj⟩ := q.faithful.fwd _ _ _ _ (hin f.func) hx
        obtain ⟨o2, hj3, hos⟩ := plain_sim _ _ _ j _ _ _ hen.symm hj
        obtain ⟨j2, hj2⟩ := (hcut _).mpr ⟨j, hj3⟩
        obtain ⟨n2, x', hd', hox⟩ := q.faithful.bwd j2 _ (m.enter f) _ (hin f.func) hj2
        refine ⟨n2, x' >>= m.react E.quiet en' f, ?_, ?_⟩
        · simp only [Machine.round, hm]
          have hd'' : D' n2 (E.quiet.P.body f.func) (m.enter f) = some x' := hd'
          rw [hd'']
        · rw [← hbind x']
          exact react_sim (MSim.refl _) hg hg x x' (by rw [hox]; exact hos) (q.noCk _ _ _ _ hx)

theorem reflSim (o : Res (Option Yield × VM)) : ResRel PSim o o := by
  cases o with
  | ok v => exact .ok ⟨rfl, .refl _⟩
  | trap e => exact .trap e
  | panic => exact .panic
  | ub => exact .ub

theorem runsL_running {S : Wasi} {E : Env} (hin : InsideP E.P) {D D' : Dispatcher} (hD : IsD E D)
    (hD' : IsD E.quiet D') {en en' : Bool} {n : Nat} {m m1 : Machine S}
    (h : m.round E D en n = some (.ok (.running m1))) (o : Res (List Val × Inst × S.W)) :
    RunsL E.quiet D' en' m o ↔ RunsL E.quiet D' en' m1 o := by
  have q := quietD hD'
  unfold Machine.round at h
  split at h
  · simp at h
  · rename_i f fs hm
    split at h
    · cases h
    · rename_i x hx
      have hcut := disp_cut hD (hin f.func) hx
      simp only [Option.some.injEq] at h
      have hne : obsF x ≠ .trap .checkpointRequested ∧ PlainTo E (E.P.body f.func) (m.enter f).vm (obsF x) := by
        cases x with
        | ok fin =>
          cases fin with
          | ckpt d => simp [Machine.react] at h
          | halt d => exact ⟨by simp [obsF], hcut⟩
          | yield y d => exact ⟨by simp [obsF], hcut⟩
        | trap e => cases h
        | panic => cases h
        | ub => cases h
      obtain ⟨j, hj⟩ := hne.2
      obtain ⟨n2, x', hd', hox⟩ := q.faithful.bwd j _ (m.enter f) _ (hin f.func) hj
      have hrel := react_sim (E := E) (en := en) (en' := en') (MSim.refl m) hm hm x x'
        (by rw [hox]; exact reflSim _) hne.1
      rw [h] at hrel
      have hr : m.round E.quiet D' en' n2 = some (x' >>= m.react E en' f) := by
        simp only [Machine.round, hm]
        have hd'' : D' n2 (E.quiet.P.body f.func) (m.enter f) = some x' := hd'
        rw [hd'']
        rfl
      generalize hb : (x' >>= m.react E en' f) = b at hrel hr
      cases hrel with
      | ok hrr =>
        cases hrr with
        | @running _ m2 hq =>
          rw [runsL_next q.faithful hr o]
          exact ⟨runsL_sim q q hin hq.symm, runsL_sim q q hin hq⟩

theorem run_cut {S : Wasi} {E : Env} (hin : InsideP E.P) {D D' : Dispatcher} (hD : IsD E D)
    (hD' : IsD E.quiet D') {en en' : Bool} {n : Nat} (o : Res (List Val × Inst × S.W)) :
    ∀ (k : Nat) (m mc : Machine S), Labelled m → m.runLoop E D en n k = some (.ok (.ckpt mc)) →
    (RunsL E.quiet D' en' m o ↔ RunsL E.quiet D' en' mc o)
  | 0, _, _, _, h => by simp [Machine.runLoop] at h
  | k + 1, m, mc, hl, h => by
    rw [Machine.runLoop] at h
    split at h
    · cases h
    · rename_i m1 hr
      exact (runsL_running hin hD hD' hr o).trans (run_cut hin hD hD' o k m1 mc (lab_round hD hr hl) h)
    · simp at h
    · rename_i m1 hr
      simp only [Option.some.injEq, Res.ok_inj, End.ckpt.injEq] at h
      subst h
      exact runsL_cut_round hin hD hD' hl hr o
    · cases h
    · cases h
    · cases h

/-- what holds of the machine at which a run stopped -/
theorem run_inv {S : Wasi} {E : Env} {D : Dispatcher} {en : Bool} {n : Nat}
    (I : Machine S → Prop) (hI : ∀ m r n, I m → m.round E D en n = some (.ok r) → I r.m) :
    ∀ (k : Nat) (m mc : Machine S), I m → m.runLoop E D en n k = some (.ok (.ckpt mc)) → I mc
  | 0, _, _, _, h => by simp [Machine.runLoop] at h
  | k + 1, m, mc, hm, h => by
    rw [Machine.runLoop] at h
    split at h
    · cases h
    · rename_i m1 hr
      exact run_inv I hI k m1 mc (hI m _ _ hm hr) h
    · simp at h
    · rename_i m1 hr
      simp only [Option.some.injEq, Res.ok_inj, End.ckpt.injEq] at h
      subst h
      exact hI m _ _ hm hr
    · cases h
    · cases h
    · cases h

/-- what a machine must satisfy to be migrated: its frames have their function label, the running frame's memory pointer
is valid, and tables and data segments are still those of the fresh instance `i` of its module -/
structure Ready {S : Wasi} (i : Inst) (m : Machine S) : Prop where
  labelled : Labelled m
  ptr : PtrOk m
  shape : SameShape i m.inst
  seg : SameSeg m.inst i

theorem Ready.round {S : Wasi} (hS : WasiKeepsSize S) {E : Env} (hP : KeepsSegments E.P) {D : Dispatcher} (hD : IsD E D)
    {en : Bool} {i : Inst} {m : Machine S} {r : Round S} {n : Nat} (h : Ready i m)
    (hr : m.round E D en n = some (.ok r)) : Ready i r.m :=
  ⟨lab_round hD hr h.labelled, ptr_round hD hr h.ptr, shape_round hS hD hr h.shape,
    have k := seg_round hP hD hr
    ⟨k.tables.trans h.seg.tables, k.datas.trans h.seg.datas⟩⟩

theorem setFirst_labelled {S : Wasi} {m : Machine S} (en : Bool) (h : Labelled m) :
    Labelled { m with frames := setFirstEnable en m.frames } := by
  intro f hf
  have hk : key f ∈ m.frames.map key := by
    rw [← setFirst_key en m.frames]
    exact List.mem_map_of_mem hf
  obtain ⟨g, hg, hgf⟩ := List.mem_map.mp hk
  have := (keys hgf).2.2.2.1
  intro hnil
  rw [hnil] at this
  have h2 := h g hg
  cases hgl : g.labels with
  | nil => exact h2 hgl
  | cons a l => rw [hgl] at this; simp [nl] at this

theorem Ready.setFirst {S : Wasi} {i : Inst} {m : Machine S} (en : Bool) (h : Ready i m) :
    Ready i { m with frames := setFirstEnable en m.frames } :=
  ⟨setFirst_labelled en h.labelled, setFirst_ptr en h.ptr, h.shape, h.seg⟩

theorem setFirst_msim {S : Wasi} (m : Machine S) (en : Bool) : MSim m { m with frames := setFirstEnable en m.frames } := by
  refine ⟨rfl, (setFirst_key en m.frames).symm, rfl, rfl, ?_⟩
  intro f fs g gs hf hg
  simp only at hg
  have h2 := setFirst_memPtr en m.frames
  rw [hg, hf] at h2
  simp only [List.head?_cons, Option.map_some, Option.some.injEq] at h2
  rw [h2]

/-- One migration: a run from `m` stops for a checkpoint at `mc` (any trigger schedule, either dispatcher), the checkpoint
is written successfully, and the file is restored into the fresh instance `i` in a new process. -/
inductive Migrates {S : Wasi} (lz : Lz) (E : Env) (i : Inst) (m : Machine S) : Machine S → Prop
  | mk {trig : Nat → Bool} {D : Dispatcher} {en : Bool} {n : Nat} {mc : Machine S} {s : Snapshot}
      {old file : Option (List Byte)} {io : Io} {st : Stacks} {i' : Inst}
      (hD : IsD { E with trig := trig } D) (hrun : m.run { E with trig := trig } D en n = some (.ok (.ckpt mc)))
      (hs : mc.snapshot lz E.P = .ok s) (hf : s.Fits) (hc : mc.checkpoint lz E.P old io = (.ok (), file))
      (hr : restore lz E.P i file = (.ok st, i')) : Migrates lz E i m (st.resume i' mc.world)

/-- any number of migrations, one after the other -/
inductive MigratesStar {S : Wasi} (lz : Lz) (E : Env) (i : Inst) (m : Machine S) : Machine S → Prop
  | none : MigratesStar lz E i m m
  | more {m1 m2} (h : MigratesStar lz E i m m1) (k : Migrates lz E i m1 m2) : MigratesStar lz E i m m2

theorem migrates_once {S : Wasi} (hS : WasiKeepsSize S) (lz : Lz) {E : Env} (hin : InsideP E.P) (hP : KeepsSegments E.P)
    {i : Inst} {m m' : Machine S} (hm : Ready i m) (h : Migrates lz E i m m') :
    Ready i m' ∧ ∀ D' D'' en' en'' o, IsD E.quiet D' → IsD E.quiet D'' →
      (Runs E.quiet D' en' m o ↔ Runs E.quiet D'' en'' m' o) := by
  obtain @⟨trig, D, en, n, mc, s, old, file, io, st, i', hD, hrun, hs, hf, hc, hr⟩ := h
  have hmc : Ready i mc := run_inv (Ready i)
    (fun m r n hm hr => hm.round hS (E := { E with trig := trig }) hP hD hr) n _ mc (hm.setFirst en) hrun
  obtain ⟨st2, i2, hr2, e1, e2, e3, e4, e5, e6⟩ := restore_reproduces lz E.P mc s hs hf old io file hc i hmc.shape
  rw [hr] at hr2
  cases hr2
  have hptr : PtrOk (st.resume (S := S) i' mc.world) := by
    intro f fs hfr
    simp only [Stacks.resume, e2] at hfr
    cases hx : mc.frames with
    | nil => rw [hx] at hfr; cases hfr
    | cons a l => rw [hx] at hfr; cases hfr; rfl
  have hready : Ready i (st.resume (S := S) i' mc.world) := by
    refine ⟨?_, hptr, ⟨?_, ?_⟩, ⟨e5, e6⟩⟩
    · intro f hfr
      simp only [Stacks.resume, e2, List.mem_map] at hfr
      obtain ⟨g, hg, rfl⟩ := hfr
      exact hmc.labelled g hg
    · exact hmc.shape.globals.trans (by rw [Stacks.resume, e4])
    · exact hmc.shape.mem.trans (by rw [Stacks.resume, e3])
  have hsim : MSim mc (st.resume i' mc.world) := by
    refine ⟨e1.symm, ?_, ?_, rfl, ?_⟩
    · simp only [Stacks.resume, e2, List.map_map]
      rfl
    · simp only [Inst.data, Stacks.resume, e3, e4, e5, e6, hmc.seg.tables, hmc.seg.datas]
    · intro f fs g gs hf hg
      rw [hmc.ptr f fs hf, hptr g gs hg]
      refine ptr_live _ _ ?_
      simp only [Inst.data, Stacks.resume, e3, e4, e5, e6, hmc.seg.tables, hmc.seg.datas]
  refine ⟨hready, ?_⟩
  intro D' D'' en' en'' o hD' hD''
  have q' := quietD hD'
  have q'' := quietD hD''
  rw [runs_iff q'.faithful, runs_iff q''.faithful]
  -- start of the interrupted run
  have a1 : MSim { m with frames := setFirstEnable en' m.frames } { m with frames := setFirstEnable en m.frames } :=
    (setFirst_msim m en').symm.trans (setFirst_msim m en)
  have a2 : RunsL E.quiet D' en' { m with frames := setFirstEnable en m.frames } o ↔ RunsL E.quiet D' en' mc o :=
    run_cut (E := { E with trig := trig }) hin hD (D' := D') hD' o n _ mc (setFirst_labelled en hm.labelled) hrun
  have a3 : MSim mc { st.resume (S := S) i' mc.world with
      frames := setFirstEnable en'' (st.resume (S := S) i' mc.world).frames } :=
    hsim.trans (setFirst_msim _ en'')
  constructor
  · intro h
    exact runsL_sim q' q'' hin a3 (a2.mp (runsL_sim q' q' hin a1 h))
  · intro h
    exact runsL_sim q' q' hin a1.symm (a2.mpr (runsL_sim q'' q' hin a3.symm h))

/-- **C30**.  Stopping at any checkpoints (any trigger schedules, either dispatcher, any number of times), restoring each
time into a fresh instance in a new process and finally running to the end gives the same termination, result values,
failure, memory, globals, tables, data segments and outside world as running without interruption.

Partial: the program must not contain `table.set`, `table.fill` or `data.drop` (tables and data segments are not part
of a checkpoint, see `table_write_lost_violated`), and each checkpoint has to be written successfully (impossible while
a function reference is held, see `unserialisable_checkpoint_keeps_file`). -/
theorem checkpoint_restore_transparent_partial {S : Wasi} (hS : WasiKeepsSize S) (lz : Lz) {E : Env}
    (hin : InsideP E.P) (hP : KeepsSegments E.P) (i : Inst) (w : S.W) (f : Nat) (ps : List Val) {m m' : Machine S}
    (hnew : Machine.new E.P i w f ps = .ok m) (h : MigratesStar lz E i m m')
    {D D' : Dispatcher} (hD : IsD E.quiet D) (hD' : IsD E.quiet D') (en en' : Bool) (o : Res (List Val × Inst × S.W)) :
    Runs E.quiet D en m o ↔ Runs E.quiet D' en' m' o := by
  have h0 : Ready i m := by
    have hp := new_ptr hnew
    unfold Machine.new at hnew
    split at hnew
    · split at hnew
      · cases hnew
      · cases hnew
        refine ⟨?_, hp, ⟨rfl, rfl⟩, ⟨rfl, rfl⟩⟩
        intro f hf
        simp only [List.mem_singleton] at hf
        subst hf; simp [newFrame]
    · cases hnew
  have key : Ready i m' ∧ ∀ D D' en en' o, IsD E.quiet D → IsD E.quiet D' →
      (Runs E.quiet D en m o ↔ Runs E.quiet D' en' m' o) := by
    induction h with
    | none =>
      refine ⟨h0, fun D D' en en' o hD hD' => ?_⟩
      have q := quietD hD
      have q' := quietD hD'
      exact ⟨runs_of q.faithful q'.faithful q.noCk hin (.refl m) en en' o,
        runs_of q'.faithful q.faithful q'.noCk hin (.refl m) en' en o⟩
    | more _ k ih =>
      obtain ⟨r1, e1⟩ := ih
      obtain ⟨r2, e2⟩ := migrates_once hS lz hin hP r1 k
      exact ⟨r2, fun D D' en en' o hD hD' => (e1 D D en en o hD hD).trans (e2 D D' en en' o hD hD')⟩
  exact key.2 D D' en en' o hD hD'

end Verif.Props
