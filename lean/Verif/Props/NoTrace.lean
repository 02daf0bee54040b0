import Verif.Spec.Trace
import Verif.Props.Trace
import Verif.Props.SessionMain
/-
C77: having been moved leaves no trace in later checkpoints.
-/
namespace Verif.Props
open Verif.Model Verif.Spec Verif.Lemmas

/-! ### Related machines have the same checkpoint, as far as it is read -/

theorem blank_snoc : ∀ (xs : List Label) (l : Label), blankOuter (xs ++ [l]) = xs.map Label.noIp ++ [l]
  | [], _ => rfl
  | [a], l => rfl
  | a :: b :: xs, l => by
    have := blank_snoc (b :: xs) l
    simp only [List.cons_append] at this
    simp only [List.cons_append, blankOuter, this, List.map_cons]
    rfl

theorem blank_nl (ls : List Label) : blankOuter ls.reverse = (nl ls).reverse := by
  cases ls with
  | nil => rfl
  | cons l ls => simp [nl, blank_snoc]

theorem data_read {f g : Frame} (h : key f = key g) :
    ({ f.data with labels := blankOuter f.data.labels } : FrameData) = { g.data with labels := blankOuter g.data.labels } := by
  obtain ⟨_, h2, h3, h4, h5, h6⟩ := keys h
  simp only [Frame.data, blank_nl, h2, h3, h4, h5, h6]

theorem frames_read : ∀ {fs gs : List Frame}, fs.map key = gs.map key →
    fs.map (fun f => ({ f.data with labels := blankOuter f.data.labels } : FrameData)) =
      gs.map (fun f => ({ f.data with labels := blankOuter f.data.labels } : FrameData))
  | [], [], _ => rfl
  | [], _ :: _, h => by simp at h
  | _ :: _, [], h => by simp at h
  | f :: fs, g :: gs, h => by
    simp only [List.map_cons, List.cons.injEq] at h
    simp only [List.map_cons, frames_read h.2, data_read h.1]

theorem frames_func : ∀ {fs gs : List Frame}, fs.map key = gs.map key → fs.map (·.func) = gs.map (·.func)
  | [], [], _ => rfl
  | [], _ :: _, h => by simp at h
  | _ :: _, [], h => by simp at h
  | f :: fs, g :: gs, h => by
    simp only [List.map_cons, List.cons.injEq] at h
    simp only [List.map_cons, frames_func h.2, (keys h.1).1]

theorem snapshot_read {S : Wasi} {lz : Lz} {P : Prog} {m m' : Machine S} (h : MSim m m') {s s' : Snapshot}
    (hs : m.snapshot lz P = .ok s) (hs' : m'.snapshot lz P = .ok s') : Snapshot.read s = Snapshot.read s' := by
  simp only [Machine.snapshot, Res.bind_eq_ok, Res.pure_eq, Res.ok_inj] at hs hs'
  obtain ⟨is, his, rfl⟩ := hs
  obtain ⟨is', his', rfl⟩ := hs'
  obtain ⟨dm, dg, -, -⟩ := Inst.data_eq h.inst
  have hf : m.frames.reverse.map key = m'.frames.reverse.map key := by simp only [List.map_reverse, h.frames]
  have e1 := (indices_ok his).1
  have e2 := (indices_ok his').1
  have e3 : is = is' := by rw [e1, e2]; exact frames_func hf
  simp only [Snapshot.read, List.map_map, Snapshot.mk.injEq, h.rf, dg, e3, and_true, true_and]
  refine ⟨frames_read hf, ?_⟩
  simp only [Inst.image, dm]

/-! ### … of the same length -/

/-- sum of lengths, if all are there -/
def sumLens : List (Option Nat) → Option Nat
  | [] => some 0
  | x :: xs => do
    let a ← x
    let b ← sumLens xs
    some (a + b)

theorem cat_length : ∀ xs : List (Option (List Byte)), (cat xs).map List.length = sumLens (xs.map (Option.map List.length))
  | [] => rfl
  | x :: xs => by
    have ih := cat_length xs
    cases x with
    | none => rfl
    | some a =>
      simp only [cat, sumLens, List.map_cons, Option.map_some, Option.bind_eq_bind, Option.bind_some, ← ih]
      cases cat xs with
      | none => rfl
      | some b => simp

theorem all_length {α : Type} (e : α → Option (List Byte)) : ∀ xs : List α,
    (putAll e xs).map List.length = sumLens (xs.map fun x => (e x).map List.length)
  | [] => rfl
  | x :: xs => by
    have ih := all_length e xs
    simp only [putAll, sumLens, List.map_cons, Option.bind_eq_bind, ← ih]
    cases e x with
    | none => rfl
    | some a =>
      cases putAll e xs with
      | none => rfl
      | some b => simp

theorem vec_length {α : Type} (e : α → Option (List Byte)) (xs : List α) :
    (putVec e xs).map List.length = sumLens [some 8, sumLens (xs.map fun x => (e x).map List.length)] := by
  simp only [putVec, cat_length, List.map_cons, List.map_nil, all_length, putU, Option.map_some, toLE_length]

theorem label_length (l : Label) : (putLabel l).map List.length = some 17 := by
  simp [putLabel, cat, putBool, putU, toLE_length]

theorem labels_length (ls : List Label) :
    (putVec putLabel ls).map List.length = sumLens [some 8, sumLens (List.replicate ls.length (some 17))] := by
  have h : ls.map (fun l => (putLabel l).map List.length) = List.replicate ls.length (some 17) := by
    induction ls with
    | nil => rfl
    | cons l ls ih => rw [List.map_cons, label_length, ih]; rfl
  rw [vec_length, h]

theorem blank_count : ∀ ls : List Label, (blankOuter ls).length = ls.length
  | [] => rfl
  | [_] => rfl
  | _ :: b :: ls => by simp [blankOuter, blank_count (b :: ls)]

theorem frame_length (f : FrameData) :
    (putFrame { f with labels := blankOuter f.labels }).map List.length = (putFrame f).map List.length := by
  simp only [putFrame, cat_length, List.map_cons, List.map_nil, labels_length, blank_count]

theorem encode_length (s : Snapshot) : (encode (Snapshot.read s)).map List.length = (encode s).map List.length := by
  have hf : (putVec putFrame (Snapshot.read s).frames).map List.length = (putVec putFrame s.frames).map List.length := by
    have h : ((fun x => (putFrame x).map List.length) ∘ fun f : FrameData => { f with labels := blankOuter f.labels }) =
        fun x => (putFrame x).map List.length := funext frame_length
    simp only [vec_length, Snapshot.read, List.map_map]
    rw [h]
  simp only [encode, cat_length, List.map_cons, List.map_nil, hf]
  rfl

theorem encode_alike {s s' : Snapshot} (h : Snapshot.read s = Snapshot.read s') {b : List Byte} (hb : encode s = some b) :
    ∃ b', encode s' = some b' ∧ b'.length = b.length := by
  have e : (encode s).map List.length = (encode s').map List.length := by rw [← encode_length s, h, encode_length s']
  rw [hb] at e
  cases hb' : encode s' with
  | none => rw [hb'] at e; cases e
  | some b' => rw [hb'] at e; simp at e; exact ⟨b', rfl, e.symm⟩

/-! ### Restoring -/

theorem resume_sim {S : Wasi} {lz : Lz} {P : Prog} {i : Inst} {mc : Machine S} (hmc : Ready i mc) {s : Snapshot}
    (hs : mc.snapshot lz P = .ok s) (hf : s.Fits) {old file : Option (List Byte)} {io : Io}
    (hc : mc.checkpoint lz P old io = (.ok (), file)) {st : Stacks} {i' : Inst} (hr : restore lz P i file = (.ok st, i')) :
    MSim mc (st.resume i' mc.world) := by
  obtain ⟨st2, i2, hr2, e1, e2, e3, e4, e5, e6⟩ := restore_reproduces lz P mc s hs hf old io file hc i hmc.shape
  rw [hr] at hr2
  cases hr2
  have hptr : PtrOk (st.resume (S := S) i' mc.world) := by
    intro f fs hfr
    simp only [Stacks.resume, e2] at hfr
    cases hx : mc.frames with
    | nil => rw [hx] at hfr; cases hfr
    | cons a l => rw [hx] at hfr; cases hfr; rfl
  refine ⟨e1.symm, ?_, ?_, rfl, ?_⟩
  · simp only [Stacks.resume, e2, List.map_map]
    rfl
  · simp only [Inst.data, Stacks.resume, e3, e4, e5, e6, hmc.seg.tables, hmc.seg.datas]
  · intro f fs g gs hf hg
    rw [hmc.ptr f fs hf, hptr g gs hg]
    refine ptr_live _ _ ?_
    simp only [Inst.data, Stacks.resume, e3, e4, e5, e6, hmc.seg.tables, hmc.seg.datas]

theorem checkpoint_written {S : Wasi} {lz : Lz} {P : Prog} {mc : Machine S} {old : Option (List Byte)} {io : Io} {b : List Byte}
    (h : mc.checkpoint lz P old io = (.ok (), some b)) : ∃ s, mc.snapshot lz P = .ok s ∧ encode s = some b := by
  rcases checkpoint_outcomes lz P mc old io with ⟨s', b', h1, h2, h3⟩ | ⟨s', b', k, -, -, -, h3⟩ | ⟨-, h3⟩
  · rw [h] at h3
    simp only [Prod.mk.injEq, true_and, Option.some.injEq] at h3
    exact ⟨s', h1, h3 ▸ h2⟩
  · rw [h] at h3; simp at h3
  · rw [h] at h3; exact absurd rfl h3

/-- the machine `m` with checkpoints enabled reaches a state like `m'` -/
def Reached {S : Wasi} (H : FloatHost) (P : Prog) (w : Bool) (m m' : Machine S) : Prop :=
  ∃ y, Go H P w { m with frames := setFirstEnable true m.frames } y ∧ MSim m' y

theorem reached_self {S : Wasi} {H : FloatHost} {P : Prog} {w : Bool} {m : Machine S} (hl : Labelled m) (hne : m.frames ≠ []) :
    Reached H P w m m := by
  have hl' := setFirst_labelled true hl
  have hm' := setFirst_msim m true
  generalize hg : ({ m with frames := setFirstEnable true m.frames } : Machine S) = m1 at hl' hm'
  unfold Reached
  rw [hg]
  cases hm : m1.frames with
  | nil =>
    have := hm'.frames
    rw [hm] at this
    simp only [List.map_nil, List.map_eq_nil_iff] at this
    exact absurd this hne
  | cons f fs =>
    have hlf : f.labels ≠ [] := hl' f (by rw [hm]; simp)
    refine ⟨_, .here (m1.enter f) hm (.refl _), hm'.trans ?_⟩
    have : m1.leave f (m1.enter f) = m1 := by
      obtain ⟨rf, frames, inst, world, looks⟩ := m1
      simp only at hm
      subst hm
      obtain ⟨a, b, c, labels, d, e, g', p⟩ := f
      cases labels with
      | nil => exact absurd rfl hlf
      | cons l ls => rfl
    rw [this]
    exact .refl _

theorem reached_ckpt {S : Wasi} {H : FloatHost} {P : Prog} {w a : Bool} {t : Nat → Bool} (hin : InsideP P) {D : Dispatcher}
    (hD : IsD (envOf H a t P w) D) {en : Bool} {n : Nat} {m m' mc : Machine S} (hl : Labelled m) (h : Reached H P w m m')
    (hr : m'.run (envOf H a t P w) D en n = some (.ok (.ckpt mc))) : Reached H P w m mc := by
  obtain ⟨y, h1, h2⟩ := h
  obtain ⟨x, h3, h4⟩ := ckpt_go hin hD n _ y mc ((setFirst_msim m' en).symm.trans h2) hr
  obtain ⟨z, h5, h6⟩ := h1.trans hin (setFirst_labelled true hl) h3
  exact ⟨z, h5, h4.trans h6⟩

theorem reached_stops {S : Wasi} {H : FloatHost} {P : Prog} {w : Bool} {m mc : Machine S} (hone : ∃ f, m.frames = [f])
    (h : Reached H P w m mc) : ∃ K fuel mc', MSim mc mc' ∧
      m.run (envOf H true (· == K) P w) (loopD (envOf H true (· == K) P w)) true fuel = some (.ok (.ckpt mc')) := by
  obtain ⟨y, h1, h2⟩ := h
  obtain ⟨f, hf⟩ := hone
  obtain ⟨K, _, hall⟩ := h1.stops (by intro g hg; simp only [hf, setFirstEnable, List.mem_singleton] at hg; subst hg; rfl)
  obtain ⟨mc', N, k, h3, h4⟩ := hall (· == K) (fun j _ hj => by simp; omega) (by simp)
  refine ⟨K, max N k, mc', h2.trans h3, ?_⟩
  have h5 := h4 (max N k) (Nat.le_max_left _ _)
  have : ∀ j, Machine.runLoop (envOf H true (· == K) P w) (loopD (envOf H true (· == K) P w)) true (max N k) (k + j)
      ({ m with frames := setFirstEnable true m.frames } : Machine S) = some (.ok (.ckpt mc')) := by
    intro j
    induction j with
    | zero => exact h5
    | succ j ih => exact runLoop_mono_k _ _ _ ih
  have h6 := this (max N k - k)
  rwa [Nat.add_sub_cancel' (Nat.le_max_right _ _)] at h6

/-! ### Sessions -/

theorem sofar_restore {S : Wasi} {T : FloatText} {lz : Lz} {H : FloatHost} {file : WFile} {o o' : Options} {world w' : S.W}
    {A : Ask S.W → Prop} (h : SoFar T lz H file o world o' w' A) : (o' = o ∧ w' = world) ∨ ∃ b, o'.restore = some (some b) := by
  cases h with
  | start => exact .inl ⟨rfl, rfl⟩
  | move => exact .inr ⟨_, rfl⟩

/-- what the next process of a session starts to run -/
theorem sofar_reached {S : Wasi} (hS : WasiKeepsSize S) {T : FloatText} {lz : Lz} {H : FloatHost} {file : WFile} {L : Loaded}
    (hload : loadFile file = .ok L) {lv : Nat → Nat → Nat} (hl : Limits L.prog lv) {o : Options} (ho : o.restore = none)
    {world : S.W} {m : Machine S} (hm : StartsAs T L o world m)
    {o' : Options} {w' : S.W} {A : Ask S.W → Prop} (h : SoFar T lz H file o world o' w' A) :
    ∃ m', SizedM L.prog lv m' ∧ Ready L.inst m' ∧ Reached H L.prog L.hasWasi m m' ∧
      ∀ p : Process, p.run T lz H file o' w' =
        m'.process lz (envOf H p.atomics p.trig L.prog L.hasWasi) (p.D (envOf H p.atomics p.trig L.prog L.hasWasi)) p.cr p.fuel p.old p.io := by
  obtain ⟨f, ps, hE, hP, hM⟩ := hm
  have hrd : Ready L.inst m := new_ready hM
  induction h with
  | start =>
    refine ⟨m, new_sized hl.shaped hl.types hM, hrd, reached_self hrd.labelled ?_, fun p => ?_⟩
    · unfold Machine.new at hM
      split at hM
      · split at hM
        · cases hM
        · cases hM; simp
      · cases hM
    · simp only [Process.run, command, hload, ho, hE, hP, hM]
  | @move o' w' A _ p l b i w hrun hrep hb hs hlen ih =>
    obtain ⟨m', hz, hr', hreach, hcmd⟩ := ih
    rw [hcmd] at hrun
    obtain ⟨st, j, k1, k2, k3, _⟩ := process_moves hS (E := envOf H p.atomics never L.prog L.hasWasi) hl p.trig (p.built.isD _) hz hr'
      hrun hrep hb hs hlen
    obtain ⟨mc, hck, hcp, hst⟩ := process_ckpt hrun hrep
    rw [hs] at hst
    cases hst
    rw [hb] at hcp
    obtain ⟨s, hsn, hen⟩ := checkpoint_written hcp
    have hmcS : SizedM L.prog lv mc := run_inv (SizedM L.prog lv)
      (fun m r n hm hr => sized_round (E := envOf H p.atomics p.trig L.prog L.hasWasi) hl.shaped hl.types hl.regs (p.built.isD _) hr hm)
      _ _ mc (hz.setFirst _) hck
    have hmcR : Ready L.inst mc := run_inv (Ready L.inst)
      (fun m r n hm hr => hm.round hS (E := envOf H p.atomics p.trig L.prog L.hasWasi) hl.kept (p.built.isD _) hr) _ _ mc
      (hr'.setFirst _) hck
    have hfit := snapshot_fits hmcS hl.bodies hl.funcs hsn hen hlen
    obtain ⟨y, hy1, hy2⟩ := reached_ckpt hl.inside (p.built.isD _) hrd.labelled hreach hck
    refine ⟨_, k2, k3, ⟨y, hy1, (resume_sim hmcR hsn hfit hcp k1).symm.trans hy2⟩, fun p => ?_⟩
    have k1' : restore lz L.prog L.inst (some b) = (.ok st, j) := k1
    simp only [Process.run, command, hload, k1']

/-- … for a loaded module -/
theorem no_trace {S : Wasi} (hS : WasiKeepsSize S) {T : FloatText} {lz : Lz} {H : FloatHost} {file : WFile} {L : Loaded}
    (hload : loadFile file = .ok L) {lv : Nat → Nat → Nat} (hl : Limits L.prog lv) {o : Options} (ho : o.restore = none)
    {world : S.W} {o' : Options} {w' : S.W} {A : Ask S.W → Prop} (h : SoFar T lz H file o world o' w' A) {p : Process} {l : Left S}
    (hp : p.run T lz H file o' w' = some (.ok l)) (hrep : l.report = .checkpointed) {b : List Byte} (hb : l.ckpt = some b)
    (hlen : b.length < 2 ^ 32) :
    ∃ (q : Process) (l' : Left S) (b' : List Byte), q.run T lz H file o world = some (.ok l') ∧ seen (.ok l') = seen (.ok l) ∧
      l'.ckpt = some b' ∧ b'.length = b.length ∧
      ∃ s s', decode b = some (s, []) ∧ decode b' = some (s', []) ∧ Snapshot.read s' = Snapshot.read s := by
  rcases command_starts (T := T) (lz := lz) (H := H) hload ho world with ⟨m, hm, hrun⟩ | ⟨x, hx, hrun⟩
  · obtain ⟨m', hz, hr', hreach, hcmd⟩ := sofar_reached (lz := lz) (H := H) hS hload hl ho hm h
    obtain ⟨f, ps, hE, hP, hM⟩ := hm
    have hrd : Ready L.inst m := new_ready hM
    have hzm : SizedM L.prog lv m := new_sized hl.shaped hl.types hM
    have hone : ∃ f, m.frames = [f] := by
      unfold Machine.new at hM
      split at hM
      · split at hM
        · cases hM
        · cases hM; exact ⟨_, rfl⟩
      · cases hM
    rw [hcmd] at hp
    obtain ⟨mc, hck, hcp, hst⟩ := process_ckpt hp hrep
    rw [hb] at hcp
    obtain ⟨s, hsn, hen⟩ := checkpoint_written hcp
    have hmcS : SizedM L.prog lv mc := run_inv (SizedM L.prog lv)
      (fun m r n hm hr => sized_round (E := envOf H p.atomics p.trig L.prog L.hasWasi) hl.shaped hl.types hl.regs (p.built.isD _) hr hm)
      _ _ mc (hz.setFirst _) hck
    obtain ⟨K, fuel, mc', hsim, hck'⟩ := reached_stops hone (reached_ckpt hl.inside (p.built.isD _) hrd.labelled hreach hck)
    have hmcS' : SizedM L.prog lv mc' := run_inv (SizedM L.prog lv)
      (fun m r n hm hr => sized_round (E := envOf H true (· == K) L.prog L.hasWasi) hl.shaped hl.types hl.regs .loop hr hm)
      _ _ mc' (hzm.setFirst _) hck'
    obtain ⟨s', hsn'⟩ := snapshot_total (lz := lz) hl.shaped hmcS'
    have hread := snapshot_read hsim hsn hsn'
    obtain ⟨b', hen', hlen'⟩ := encode_alike hread hen
    have hd := decode_encode s (snapshot_fits hmcS hl.bodies hl.funcs hsn hen hlen) b [] hen
    have hd' := decode_encode s' (snapshot_fits hmcS' hl.bodies hl.funcs hsn' hen' (by omega)) b' [] hen'
    rw [List.append_nil] at hd hd'
    refine ⟨⟨true, (· == K), loopD, .loop, true, none, .fine, fuel⟩, ⟨0, .checkpointed, some b', some (mc'.inst, mc'.world)⟩, b',
      ?_, ?_, rfl, hlen', s, s', hd, hd', hread.symm⟩
    · rw [hrun]
      simp only [Machine.process]
      rw [hck']
      have : mc'.checkpoint lz (envOf H true (· == K) L.prog L.hasWasi).P none .fine = (.ok (), some b') := by
        show mc'.checkpoint lz L.prog none .fine = _
        simp only [Machine.checkpoint, hsn', saveFile, hen']
      simp only [this]
    · obtain ⟨dm, dg, dt, dd⟩ := Inst.data_eq hsim.inst
      simp only [seen, hrep, hst, Option.map_some, hsim.world, storeOf, dm, dg, dt, dd]
  · exfalso
    have hno : ∀ (q : Process) (l : Left S), q.run T lz H file o world = some (.ok l) → l.report ≠ .checkpointed := by
      intro q l hq hrep
      obtain ⟨r, h1, h2⟩ := hrun q
      rw [hq] at h1
      cases h1
      simp only [seen, hrep] at h2
      exact hx _ h2.symm
    have hall : ∀ {o' w' A}, SoFar T lz H file o world o' w' A → o' = o ∧ w' = world := by
      intro o' w' A h
      induction h with
      | start => exact ⟨rfl, rfl⟩
      | move _ p h1 hl1 _ _ _ ih =>
        obtain ⟨rfl, rfl⟩ := ih
        exact absurd hl1 (hno p _ h1)
    obtain ⟨rfl, rfl⟩ := hall h
    exact hno p _ hp hrep

/-- **C77.**  In any session of a module within its limits — whatever processes it consisted of, however built, whenever
stopped — let the process now running stop for a checkpoint and leave the file `b` (below 4 GiB).  Then there is a single process,
started with the options the session began with, in the world it began in, restoring nothing, that stops for a checkpoint too,
with memory, globals, tables, data segments and outside world the same, and leaves a file `b'` of the same length, and what is
ever read of `b'` is what is ever read of `b`. -/
theorem moved_without_trace {S : Wasi} (hS : WasiKeepsSize S) {T : FloatText} {lz : Lz} {A : SMod} {H : FloatHost}
    (h : A.WellFormed S H) {P : Prog} (hc : (A.source H).compile A.globalTypes = some P) (hm : Movable (A.source H)) {o : Options}
    (ho : o.restore = none) {world : S.W} {o' : Options} {w' : S.W} {B : Ask S.W → Prop}
    (hs : SoFar T lz H (some A.file) o world o' w' B) {p : Process} {l : Left S} (hp : p.run T lz H (some A.file) o' w' = some (.ok l))
    (hrep : l.report = .checkpointed) {b : List Byte} (hb : l.ckpt = some b) (hlen : b.length < 2 ^ 32) :
    ∃ (q : Process) (l' : Left S) (b' : List Byte), q.run T lz H (some A.file) o world = some (.ok l') ∧ seen (.ok l') = seen (.ok l) ∧
      l'.ckpt = some b' ∧ b'.length = b.length ∧
      ∃ s s', decode b = some (s, []) ∧ decode b' = some (s', []) ∧ Snapshot.read s' = Snapshot.read s := by
  obtain ⟨fs, L, _, _, hload, rfl, _, _⟩ := load_ok h hc
  obtain ⟨lv, hl⟩ := limits hc hm
  exact no_trace hS hload hl ho hs hp hrep hb hlen

end Verif.Props
