import Verif.Props.Quiet
import Verif.Lemmas.NoCk
import Verif.Lemmas.Sim
/-
C31 / C17 for whole runs: checkpoint setting and dispatcher are invisible while no trigger is raised.  The relation used
also ignores what a checkpoint/restore cycle changes (allocation counter of the memory, stale pointers of suspended
frames, remembered `ip`s), so that it serves C30 as well.
-/
namespace Verif.Props
open Verif.Model

/-- every function body only jumps inside itself -/
def InsideP (P : Prog) : Prop := ∀ f, Inside (P.body f)

/-- only the innermost label's `ip` is ever read -/
def nl : List Label → List Label
  | [] => []
  | l :: ls => l :: ls.map Label.noIp

/-- a frame without checkpoint flag, cached pointer and unread `ip`s -/
def key (f : Frame) : Frame := { f with enable := false, memPtr := none, labels := nl f.labels }

/-- same state up to checkpoint flags, looks at the trigger, memory allocation counter, pointers and unread `ip`s -/
structure MSim {S : Wasi} (m m' : Machine S) : Prop where
  rf : m.rf = m'.rf
  frames : m.frames.map key = m'.frames.map key
  inst : m.inst.data = m'.inst.data
  world : m.world = m'.world
  ptr : ∀ f fs g gs, m.frames = f :: fs → m'.frames = g :: gs → (PtrLive m.inst f.memPtr ↔ PtrLive m'.inst g.memPtr)

theorem MSim.symm {S : Wasi} {m m' : Machine S} (h : MSim m m') : MSim m' m :=
  ⟨h.rf.symm, h.frames.symm, h.inst.symm, h.world.symm, fun _ _ _ _ a b => (h.ptr _ _ _ _ b a).symm⟩

theorem MSim.trans {S : Wasi} {m m' m'' : Machine S} (h : MSim m m') (k : MSim m' m'') : MSim m m'' := by
  refine ⟨h.rf.trans k.rf, h.frames.trans k.frames, h.inst.trans k.inst, h.world.trans k.world, ?_⟩
  intro f fs g gs hf hg
  match hm' : m'.frames with
  | [] => have := h.frames; rw [hf, hm'] at this; cases this
  | x :: xs => exact (h.ptr _ _ _ _ hf hm').trans (k.ptr _ _ _ _ hm' hg)

inductive RoundSim {S : Wasi} : Round S → Round S → Prop
  | running {m m'} (h : MSim m m') : RoundSim (.running m) (.running m')
  | done {vs m m'} (hi : m.inst.data = m'.inst.data) (hw : m.world = m'.world) : RoundSim (.done vs m) (.done vs m')

/-- what a finished run shows: values, memory, globals, tables, data segments, the world; or the failure.  (The
allocation counter is not observable.) -/
def obsE {S : Wasi} : Res (End S) → Res (List Val × Inst × S.W)
  | .ok (.done vs m) => .ok (vs, m.inst.data, m.world)
  | .ok (.ckpt _) => .trap .checkpointRequested
  | .trap e => .trap e
  | .panic => .panic
  | .ub => .ub

/-- results of a body -/
structure PSim (o o' : Option Yield × VM) : Prop where
  y : o.1 = o'.1
  vm : VSim o.2 o'.2

theorem plain_sim (H : FloatHost) (P : Prog) (code : List Instr) : ∀ (n : Nat) (s s' : VM) (o : Res (Option Yield × VM)),
    VSim s s' → plainRun H P code n s = some o → ∃ o', plainRun H P code n s' = some o' ∧ ResRel PSim o o'
  | 0, _, _, _, _, h => by simp [plainRun] at h
  | n + 1, s, s', o, hs, h => by
    rw [plainRun] at h ⊢
    rw [← hs.pc]
    cases hc : code[s.pc]? with
    | none =>
      rw [hc] at h
      simp only [Option.some.injEq] at h
      subst h
      exact ⟨_, rfl, .ok ⟨rfl, { hs with pc := rfl, labels := rfl }⟩⟩
    | some i =>
      rw [hc] at h
      simp only at h ⊢
      have hst := step_sim H P code.length hs i
      generalize step H P code.length s i = a at h hst
      generalize step H P code.length s' i = b at hst
      cases hst with
      | ok ho =>
        cases ho with
        | cont hv => exact plain_sim H P code n _ _ o hv h
        | yield hv =>
          simp only [Option.some.injEq] at h
          subst h
          exact ⟨_, rfl, .ok ⟨rfl, hv⟩⟩
      | trap e => simp only [Option.some.injEq] at h; subst h; exact ⟨_, rfl, .trap e⟩
      | panic => simp only [Option.some.injEq] at h; subst h; exact ⟨_, rfl, .panic⟩
      | ub => simp only [Option.some.injEq] at h; subst h; exact ⟨_, rfl, .ub⟩

theorem noIp_noIp (l : Label) : l.noIp.noIp = l.noIp := rfl

theorem nl_map (ls : List Label) : (nl ls).map Label.noIp = ls.map Label.noIp := by
  cases ls with
  | nil => rfl
  | cons l ls => simp [nl, noIp_noIp]

theorem nl_head (ls : List Label) : (nl ls).head? = ls.head? := by cases ls <;> rfl

theorem leave_frames {S : Wasi} {m : Machine S} {f : Frame} {fs : List Frame} {d : DState} (hm : m.frames = f :: fs) :
    (m.leave f d).frames = { f with
      locals := d.vm.locals
      labels := match d.vm.labels with | [] => [] | l :: ls => { l with ip := d.vm.pc } :: ls
      retRegs := d.vm.retRegs
      memPtr := d.vm.memPtr } :: fs := by
  unfold Machine.leave; rw [hm]; rfl

theorem keys {f g : Frame} (h : key f = key g) : f.func = g.func ∧ f.locals = g.locals ∧ f.n = g.n ∧
    nl f.labels = nl g.labels ∧ f.resultRegs = g.resultRegs ∧ f.retRegs = g.retRegs := by
  simp only [key, Frame.mk.injEq] at h
  exact ⟨h.1, h.2.1, h.2.2.1, h.2.2.2.1, h.2.2.2.2.2.1, h.2.2.2.2.2.2.1⟩

theorem key_of {f g : Frame} (h1 : f.func = g.func) (h2 : f.locals = g.locals) (h3 : f.n = g.n)
    (h4 : nl f.labels = nl g.labels) (h5 : f.resultRegs = g.resultRegs) (h6 : f.retRegs = g.retRegs) : key f = key g := by
  simp only [key, h1, h2, h3, h4, h5, h6]

theorem ptr_live (i j : Inst) (h : i.data = j.data) : PtrLive i i.ptr ↔ PtrLive j j.ptr := by
  have := (Inst.data_eq h).1
  simp only [PtrLive, Inst.ptr, this]
  cases j.mem <;> simp

theorem enter_sim {S : Wasi} {m m' : Machine S} (h : MSim m m') {f g : Frame} {fs gs : List Frame}
    (hm : m.frames = f :: fs) (hm' : m'.frames = g :: gs) : VSim (m.enter f).vm (m'.enter g).vm := by
  have hfr := h.frames
  rw [hm, hm'] at hfr
  simp only [List.map_cons, List.cons.injEq] at hfr
  obtain ⟨-, h2, -, h4, -, h6⟩ := keys hfr.1
  refine ⟨h.rf, h2, ?_, h6, ?_, h.inst, h.ptr _ _ _ _ hm hm'⟩
  · simp only [Machine.enter]
    rw [← nl_head f.labels, ← nl_head g.labels, h4]
  · simp only [Machine.enter]
    rw [← nl_map f.labels, ← nl_map g.labels, h4]

theorem leave_sim {S : Wasi} {m m' : Machine S} (h : MSim m m') {f g : Frame} {fs gs : List Frame}
    (hm : m.frames = f :: fs) (hm' : m'.frames = g :: gs) {d d' : DState} (hd : VSim d.vm d'.vm) :
    MSim (m.leave f d) (m'.leave g d') := by
  have hfr := h.frames
  rw [hm, hm'] at hfr
  simp only [List.map_cons, List.cons.injEq] at hfr
  obtain ⟨h1, h2, h3, h4, h5, h6⟩ := keys hfr.1
  refine ⟨hd.rf, ?_, hd.inst, h.world, ?_⟩
  · rw [leave_frames hm, leave_frames hm']
    simp only [List.map_cons, hfr.2]
    congr 1
    refine key_of h1 hd.locals h3 ?_ h5 hd.retRegs
    have hl := hd.labels
    match hx : d.vm.labels, hx' : d'.vm.labels with
    | [], [] => simp only
    | [], _ :: _ => rw [hx, hx'] at hl; simp at hl
    | _ :: _, [] => rw [hx, hx'] at hl; simp at hl
    | l :: ls, l' :: ls' =>
      rw [hx, hx'] at hl
      simp only [List.map_cons, List.cons.injEq] at hl
      simp only [nl, hl.2, hd.pc]
      congr 1
      have := hl.1
      simp only [Label.noIp, Label.mk.injEq] at this
      rw [this.1, this.2.1]
  · intro x xs y ys hx hy
    rw [leave_frames hm] at hx
    rw [leave_frames hm'] at hy
    cases hx; cases hy
    exact hd.ptr

theorem doReturn_sim {S : Wasi} {m m' : Machine S} {f g : Frame} {fs gs : List Frame}
    (hm : m.frames = f :: fs) (hm' : m'.frames = g :: gs) (hrf : m.rf = m'.rf) (hi : m.inst.data = m'.inst.data)
    (hw : m.world = m'.world) (hr : f.retRegs = g.retRegs) (hn : f.n = g.n) (hfs : fs.map key = gs.map key) :
    ResRel RoundSim m.doReturn m'.doReturn := by
  unfold Machine.doReturn
  rw [hm, hm']
  match fs, gs, hfs with
  | [], [], _ =>
    simp only [hrf, hr, hn]
    exact .bindEq rfl fun a => .ok (.done hi hw)
  | c :: cs, c' :: cs', hfs =>
    simp only [hrf, hr]
    refine .bindEq rfl fun a => ?_
    simp only [List.map_cons, List.cons.injEq] at hfs
    obtain ⟨hc, hcs⟩ := hfs
    obtain ⟨h1, h2, h3, h4, h5, h6⟩ := keys hc
    rw [h5]
    refine .bindEq rfl fun a => .ok (.running ⟨rfl, ?_, hi, hw, ?_⟩)
    · simp only [List.map_cons, hcs]
      congr 1
      exact key_of h1 h2 h3 h4 rfl h6
    · intro x xs y ys hx hy
      cases hx; cases hy
      exact ptr_live _ _ hi

theorem doInvoke_sim {S : Wasi} {P : Prog} {en en' : Bool} {m m' : Machine S} (h : MSim m m') (f : Nat)
    (ps : List Val) (rs : List Reg) :
    ResRel RoundSim (m.doInvoke P en f ps rs) (m'.doInvoke P en' f ps rs) := by
  unfold Machine.doInvoke
  cases P.funcs[f]? with
  | none => exact .panic
  | some fi =>
    cases fi with
    | wasi t id => exact .trap _
    | runtime t code =>
      refine .bindEq rfl fun a => .ok (.running ⟨by simp [h.rf], ?_, h.inst, h.world, ?_⟩)
      · have hfr := h.frames
        simp only [List.map_cons]
        congr 1
        match hm : m.frames, hm' : m'.frames with
        | [], [] => rfl
        | [], _ :: _ => rw [hm, hm'] at hfr; simp at hfr
        | _ :: _, [] => rw [hm, hm'] at hfr; simp at hfr
        | c :: cs, c' :: cs' =>
          rw [hm, hm'] at hfr
          simp only [List.map_cons, List.cons.injEq] at hfr ⊢
          obtain ⟨hc, hcs⟩ := hfr
          obtain ⟨h1, h2, h3, h4, h5, h6⟩ := keys hc
          exact ⟨key_of h1 h2 h3 h4 rfl h6, hcs⟩
      · intro x xs y ys hx hy
        cases hx; cases hy
        exact ptr_live _ _ h.inst

theorem doWasi_sim {S : Wasi} {hw : Bool} {m m' : Machine S} (h : MSim m m') (id : Nat)
    (ps : List Val) (r : Option Reg) : ResRel RoundSim (m.doWasi hw id ps r) (m'.doWasi hw id ps r) := by
  unfold Machine.doWasi
  obtain ⟨dm, dg, dt, dd⟩ := Inst.data_eq h.inst
  rw [dm, h.world]
  cases hw with
  | false => exact .trap _
  | true =>
    cases hmem : m'.inst.mem with
    | none => exact .trap _
    | some mem =>
      refine .bindEq rfl fun a => ?_
      rw [h.rf]
      have base : ∀ rf : RegFile, MSim
          { m with rf := rf, inst := { m.inst with mem := some a.2.1 }, world := a.2.2 }
          { m' with rf := rf, inst := { m'.inst with mem := some a.2.1 }, world := a.2.2 } := fun rf =>
        ⟨rfl, h.frames, by simp only [Inst.data, dg, dt, dd], rfl, fun _ _ _ _ x y => h.ptr _ _ _ _ x y⟩
      cases a.1 with
      | none => exact .trap _
      | some res =>
        cases r with
        | none => exact .ok (.running (h.rf ▸ base m.rf))
        | some reg =>
          cases res with
          | none => exact .ok (.running (h.rf ▸ base m.rf))
          | some v => exact .bindEq rfl fun rf => .ok (.running (base rf))

/-- reacting to dispatcher results that look the same leads to equivalent machines -/
theorem react_sim {S : Wasi} {E : Env} {en en' : Bool} {m m' : Machine S} (h : MSim m m')
    {f g : Frame} {fs gs : List Frame} (hm : m.frames = f :: fs) (hm' : m'.frames = g :: gs)
    (r r' : Res Final) (ho : ResRel PSim (obsF r) (obsF r')) (hne : obsF r ≠ .trap .checkpointRequested) :
    ResRel RoundSim (r >>= m.react E en f) (r' >>= m'.react E en' g) := by
  have hfr := h.frames
  rw [hm, hm'] at hfr
  simp only [List.map_cons, List.cons.injEq] at hfr
  obtain ⟨hfg, hfs⟩ := hfr
  have hn : f.n = g.n := (keys hfg).2.2.1
  cases r with
  | ok fin =>
    cases fin with
    | ckpt d => exact absurd rfl hne
    | halt d =>
      cases r' with
      | ok fin' =>
        cases fin' with
        | ckpt d' => cases ho
        | yield y d' => cases ho with | ok hp => cases hp.y
        | halt d' =>
          cases ho with
          | ok hp =>
            simp only [Res.bind_ok, Machine.react]
            exact doReturn_sim (leave_frames hm) (leave_frames hm') hp.vm.rf hp.vm.inst h.world hp.vm.retRegs hn hfs
      | trap e => cases ho
      | panic => cases ho
      | ub => cases ho
    | yield y d =>
      cases r' with
      | ok fin' =>
        cases fin' with
        | ckpt d' => cases ho
        | halt d' => cases ho with | ok hp => cases hp.y
        | yield y' d' =>
          cases ho with
          | ok hp =>
            have hy : y = y' := by have := hp.y; simpa using this
            subst hy
            have he := leave_sim h hm hm' hp.vm
            simp only [Res.bind_ok]
            cases y with
            | ret =>
              simp only [Machine.react]
              exact doReturn_sim (leave_frames hm) (leave_frames hm') hp.vm.rf hp.vm.inst h.world hp.vm.retRegs hn hfs
            | wasi id ps r => simp only [Machine.react]; exact doWasi_sim he id ps r
            | invoke k ps rs => simp only [Machine.react]; exact doInvoke_sim he k ps rs
      | trap e => cases ho
      | panic => cases ho
      | ub => cases ho
  | trap e =>
    cases r' with
    | ok fin' => cases fin' <;> first | (cases ho; done) | (cases ho; exact absurd rfl hne)
    | trap e' => cases ho; exact .trap _
    | panic => cases ho
    | ub => cases ho
  | panic =>
    cases r' with
    | ok fin' => cases fin' <;> cases ho
    | trap e' => cases ho
    | panic => exact .panic
    | ub => cases ho
  | ub =>
    cases r' with
    | ok fin' => cases fin' <;> cases ho
    | trap e' => cases ho
    | panic => cases ho
    | ub => exact .ub

/-! fuel -/

theorem round_mono {S : Wasi} {E : Env} {D : Dispatcher} (hD : Faithful E D) {en : Bool} {n : Nat} {m : Machine S}
    {r : Res (Round S)} (h : m.round E D en n = some r) : m.round E D en (n + 1) = some r := by
  unfold Machine.round at h ⊢
  split at h
  · exact h
  · rename_i f fs hf
    split at h
    · cases h
    · rename_i x hx
      rw [hD.mono _ _ _ _ hx]; exact h

theorem runLoop_mono_fuel {S : Wasi} {E : Env} {D : Dispatcher} (hD : Faithful E D) {en : Bool} {n : Nat} : ∀ (k : Nat)
    (m : Machine S) (r : Res (End S)), m.runLoop E D en n k = some r → m.runLoop E D en (n + 1) k = some r
  | 0, _, _, h => by simp [Machine.runLoop] at h
  | k + 1, m, r, h => by
    unfold Machine.runLoop at h ⊢
    cases hr : m.round E D en n with
    | none => rw [hr] at h; cases h
    | some x =>
      rw [hr] at h
      rw [round_mono hD hr]
      split at h
      · rename_i hx; cases hx
      · rename_i hx; cases hx; exact runLoop_mono_fuel hD k _ r h
      · rename_i hx; cases hx; exact h
      · rename_i hx; cases hx; exact h
      · rename_i hx; cases hx; exact h
      · rename_i hx; cases hx; exact h
      · rename_i hx; cases hx; exact h

theorem runLoop_mono_k {S : Wasi} {E : Env} {D : Dispatcher} {en : Bool} {n : Nat} : ∀ (k : Nat)
    (m : Machine S) (r : Res (End S)), m.runLoop E D en n k = some r → m.runLoop E D en n (k + 1) = some r
  | 0, _, _, h => by simp [Machine.runLoop] at h
  | k + 1, m, r, h => by
    rw [Machine.runLoop] at h
    rw [Machine.runLoop]
    split at h
    · cases h
    · exact runLoop_mono_k k _ r h
    · exact h
    · exact h
    · exact h
    · exact h
    · exact h

theorem runLoop_mono {S : Wasi} {E : Env} {D : Dispatcher} (hD : Faithful E D) {en : Bool} {n n' k k' : Nat}
    {m : Machine S} {r : Res (End S)} (hn : n ≤ n') (hk : k ≤ k') (h : m.runLoop E D en n k = some r) :
    m.runLoop E D en n' k' = some r := by
  have h1 : m.runLoop E D en n' k = some r := by
    induction hn with
    | refl => exact h
    | step _ ih => exact runLoop_mono_fuel hD k m r ih
  induction hk with
  | refl => exact h1
  | step _ ih => exact runLoop_mono_k _ m r ih

theorem runLoop_sim {S : Wasi} {E : Env} {D D' : Dispatcher} (hD : Faithful E D) (hD' : Faithful E D')
    (hnc : ∀ n code d r, D n code d = some r → obsF r ≠ .trap .checkpointRequested)
    (hin : InsideP E.P) {en en' : Bool} {n : Nat} : ∀ (k : Nat) (m m' : Machine S) (r : Res (End S)),
    MSim m m' → m.runLoop E D en n k = some r →
    ∃ n' k' r', m'.runLoop E D' en' n' k' = some r' ∧ obsE r' = obsE r
  | 0, _, _, _, _, h => by simp [Machine.runLoop] at h
  | k + 1, m, m', r, he, h => by
    rw [Machine.runLoop] at h
    have hfr := he.frames
    match hm : m.frames, hm' : m'.frames with
    | [], _ :: _ => rw [hm, hm'] at hfr; simp at hfr
    | _ :: _, [] => rw [hm, hm'] at hfr; simp at hfr
    | [], [] =>
      simp only [Machine.round, hm] at h
      simp only [Option.some.injEq] at h
      subst h
      refine ⟨0, 1, .ok (.done [] m'), ?_, by simp [obsE, he.inst, he.world]⟩
      rw [Machine.runLoop]; simp only [Machine.round, hm']
    | f :: fs, g :: gs =>
      rw [hm, hm'] at hfr
      simp only [List.map_cons, List.cons.injEq] at hfr
      obtain ⟨hfg, -⟩ := hfr
      simp only [Machine.round, hm] at h
      cases hd : D n (E.P.body f.func) (m.enter f) with
      | none => rw [hd] at h; cases h
      | some x =>
        rw [hd] at h
        simp only at h
        have hfunc : f.func = g.func := (keys hfg).1
        obtain ⟨j, hj⟩ := hD.fwd _ _ _ _ (hin f.func) hd
        obtain ⟨o, hj2, hos⟩ := plain_sim _ _ _ j _ _ _ (enter_sim he hm hm') hj
        rw [hfunc] at hj2
        obtain ⟨n', x', hd', hox⟩ := hD'.bwd j _ (m'.enter g) _ (hin g.func) hj2
        have hrel := react_sim (E := E) (en := en) (en' := en') he hm hm' x x' (by rw [hox]; exact hos) (hnc _ _ _ _ hd)
        have hround : m'.round E D' en' n' = some (x' >>= m'.react E en' g) := by
          simp only [Machine.round, hm', hd']
        generalize ha : (x >>= m.react E en f) = a at hrel h
        generalize hb : (x' >>= m'.react E en' g) = b at hrel hround
        cases hrel with
        | trap e =>
          simp only [Option.some.injEq] at h; subst h
          exact ⟨n', 1, .trap e, by rw [Machine.runLoop, hround], rfl⟩
        | panic =>
          simp only [Option.some.injEq] at h; subst h
          exact ⟨n', 1, .panic, by rw [Machine.runLoop, hround], rfl⟩
        | ub =>
          simp only [Option.some.injEq] at h; subst h
          exact ⟨n', 1, .ub, by rw [Machine.runLoop, hround], rfl⟩
        | ok hrr =>
          cases hrr with
          | done hqi hqw =>
            simp only [Option.some.injEq] at h; subst h
            exact ⟨n', 1, _, by rw [Machine.runLoop, hround], by simp [obsE, hqi, hqw]⟩
          | @running q q' hq =>
            obtain ⟨n2, k2, r2, h1, h2⟩ := runLoop_sim hD hD' hnc hin (en := en) (en' := en') k _ _ r hq h
            refine ⟨max n' n2, k2 + 1, r2, ?_, h2⟩
            have hround2 : m'.round E D' en' (max n' n2) = some (.ok (.running q')) := by
              have : ∀ j, m'.round E D' en' (n' + j) = some (.ok (.running q')) := by
                intro j
                induction j with
                | zero => exact hround
                | succ j ih => exact round_mono hD' ih
              have := this (max n' n2 - n')
              rwa [Nat.add_sub_cancel' (Nat.le_max_left _ _)] at this
            rw [Machine.runLoop, hround2]
            exact runLoop_mono hD' (Nat.le_max_right _ _) (Nat.le_refl _) h1

theorem setFirst_key (en : Bool) : ∀ fs : List Frame, (setFirstEnable en fs).map key = fs.map key
  | [] => rfl
  | [f] => rfl
  | f :: g :: fs => by
    simp only [setFirstEnable, List.map_cons]
    rw [setFirst_key en (g :: fs)]
    rfl

theorem setFirst_memPtr (en : Bool) : ∀ fs : List Frame, (setFirstEnable en fs).head?.map (·.memPtr) = fs.head?.map (·.memPtr)
  | [] => rfl
  | [f] => rfl
  | f :: g :: fs => rfl

theorem setFirst_sim {S : Wasi} {m m' : Machine S} (h : MSim m m') (en en' : Bool) :
    MSim { m with frames := setFirstEnable en m.frames } { m' with frames := setFirstEnable en' m'.frames } := by
  refine ⟨h.rf, by simp only [setFirst_key, h.frames], h.inst, h.world, ?_⟩
  intro f fs g gs hf hg
  simp only at hf hg
  have h1 := setFirst_memPtr en m.frames
  have h2 := setFirst_memPtr en' m'.frames
  rw [hf] at h1
  rw [hg] at h2
  match hm : m.frames, hm' : m'.frames with
  | [], _ => rw [hm] at h1; simp at h1
  | _ :: _, [] => rw [hm'] at h2; simp at h2
  | a :: as, b :: bs =>
    rw [hm] at h1; rw [hm'] at h2
    simp only [List.head?_cons, Option.map_some, Option.some.injEq] at h1 h2
    rw [h1, h2]
    exact h.ptr _ _ _ _ hm hm'

theorem MSim.refl {S : Wasi} (m : Machine S) : MSim m m :=
  ⟨rfl, rfl, rfl, rfl, fun _ _ _ _ a b => by rw [a] at b; cases b; exact Iff.rfl⟩

/-- the result of a run, for some amount of fuel -/
def Runs {S : Wasi} (E : Env) (D : Dispatcher) (enable : Bool) (m : Machine S) (o : Res (List Val × Inst × S.W)) : Prop :=
  ∃ n r, m.run E D enable n = some r ∧ obsE r = o

theorem runs_of {S : Wasi} {E : Env} {D D' : Dispatcher} (hD : Faithful E D) (hD' : Faithful E D')
    (hnc : ∀ n code d r, D n code d = some r → obsF r ≠ .trap .checkpointRequested)
    (hin : InsideP E.P) {m m' : Machine S} (hs : MSim m m') (en en' : Bool) (o : Res (List Val × Inst × S.W))
    (h : Runs E D en m o) : Runs E D' en' m' o := by
  obtain ⟨n, r, h, rfl⟩ := h
  simp only [Machine.run] at h
  obtain ⟨n', k', r', h1, h2⟩ := runLoop_sim hD hD' hnc hin (en := en) (en' := en') n _ _ r (setFirst_sim hs en en') h
  exact ⟨max n' k', r', runLoop_mono hD' (Nat.le_max_left _ _) (Nat.le_max_right _ _) h1, h2⟩

theorem loop_noCk {E : Env} (hq : Quiet E) (code : List Instr) : ∀ (n : Nat) (d : DState) (r : Res Final),
    loopRun E code n d = some r → obsF r ≠ .trap .checkpointRequested
  | 0, _, _, h => by simp [loopRun] at h
  | n + 1, d, r, h => by
    have hqp := quiet_poll hq d
    obtain ⟨d1, hd1⟩ : ∃ d1, poll E d = (false, d1) := ⟨(poll E d).2, by rw [← hqp]⟩
    rw [loopRun, hd1] at h
    simp only at h
    split at h
    · split at h
      · split at h
        · cases h; simp [obsF]
        · exact loop_noCk hq code n _ r h
      · cases h; simp [obsF]
    · split at h
      · exact loop_noCk hq code n _ r h
      · cases h; simp [obsF]
      · rename_i e he
        cases h
        simpa [obsF] using step_trap_ne he
      · cases h; simp [obsF]
      · cases h; simp [obsF]

theorem chain_noCk {E : Env} (hq : Quiet E) (code : List Instr) : ∀ (n : Nat) (d : DState) (r : Res Final),
    tcoChain E code n d = some r → obsF r ≠ .trap .checkpointRequested
  | 0, _, _, h => by simp [tcoChain] at h
  | n + 1, d, r, h => by
    rw [tcoChain] at h
    split at h
    · split at h <;> (cases h; simp [obsF])
    · split at h
      · rename_i vm _
        have hqp := quiet_poll hq { d with vm := vm }
        split at h
        · rename_i hp; rw [hp] at hqp; simp at hqp
        · exact chain_noCk hq code n _ r h
      · cases h; simp [obsF]
      · rename_i e he
        cases h
        simpa [obsF] using step_trap_ne he
      · cases h; simp [obsF]
      · cases h; simp [obsF]

theorem tco_noCk {E : Env} (hq : Quiet E) (code : List Instr) (n : Nat) (d : DState) (r : Res Final)
    (h : tcoRun E code n d = some r) : obsF r ≠ .trap .checkpointRequested := by
  have hqp := quiet_poll hq d
  unfold tcoRun at h
  split at h
  · rename_i hp; rw [hp] at hqp; simp at hqp
  · split at h
    · cases h; simp [obsF]
    · exact chain_noCk hq code n _ r h

/-- C31.  While no checkpoint trigger is raised, a run with checkpointing enabled shows exactly what a run with it
disabled shows: same termination, values, failure, memory, globals, tables, data segments and outside world; for every
program whose jumps stay inside their bodies, every machine state, and both dispatchers. -/
theorem checkpoint_option_invisible {S : Wasi} {E : Env} (hq : Quiet E) (hin : InsideP E.P) (m : Machine S)
    (en en' : Bool) (o : Res (List Val × Inst × S.W)) :
    (Runs E (loopD E) en m o ↔ Runs E (loopD E) en' m o) ∧ (Runs E (tcoD E) en m o ↔ Runs E (tcoD E) en' m o) := by
  have l := loop_faithful hq
  have t := tco_faithful hq
  have nl : ∀ n code d r, loopD E n code d = some r → obsF r ≠ .trap .checkpointRequested :=
    fun n code d r h => loop_noCk hq code n d r h
  have nt : ∀ n code d r, tcoD E n code d = some r → obsF r ≠ .trap .checkpointRequested :=
    fun n code d r h => tco_noCk hq code n d r h
  exact ⟨⟨runs_of l l nl hin (.refl m) en en' o, runs_of l l nl hin (.refl m) en' en o⟩,
    ⟨runs_of t t nt hin (.refl m) en en' o, runs_of t t nt hin (.refl m) en' en o⟩⟩

/-- C17 for whole runs without a trigger: the two dispatchers give the same values, failure, memory, globals, tables,
data segments and outside world (no assumption about how bodies end). -/
theorem dispatchers_agree_run {S : Wasi} {E : Env} (hq : Quiet E) (hin : InsideP E.P) (m : Machine S)
    (en : Bool) (o : Res (List Val × Inst × S.W)) :
    Runs E (loopD E) en m o ↔ Runs E (tcoD E) en m o := by
  have l := loop_faithful hq
  have t := tco_faithful hq
  exact ⟨runs_of l t (fun n code d r h => loop_noCk hq code n d r h) hin (.refl m) en en o,
    runs_of t l (fun n code d r h => tco_noCk hq code n d r h) hin (.refl m) en en o⟩

end Verif.Props
