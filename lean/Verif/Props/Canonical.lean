import Verif.Props.MigrateEx
/-
C64: the checkpoint file is a function of the saved state and identifies it.
-/
namespace Verif.Props
open Verif.Model

/-- a successful checkpoint is the encoding of the snapshot -/
theorem checkpoint_ok {S : Wasi} {lz : Lz} {P : Prog} {m : Machine S} {old file : Option (List Byte)} {io : Io}
    (hc : m.checkpoint lz P old io = (.ok (), file)) : ∃ s b, m.snapshot lz P = .ok s ∧ encode s = some b ∧ file = some b := by
  rcases checkpoint_outcomes lz P m old io with ⟨s', b, h1, h2, h3⟩ | ⟨s', b, k, -, -, -, h3⟩ | ⟨-, h3⟩
  · rw [hc] at h3
    simp only [Prod.mk.injEq, true_and] at h3
    exact ⟨s', b, h1, h2, h3⟩
  · rw [hc] at h3; simp at h3
  · rw [hc] at h3; exact absurd rfl h3

/-- the state a checkpoint is meant to save: registers with their windows, call frames (function, locals, labels, result registers),
linear memory, global values -/
structure SameState {S : Wasi} (m m' : Machine S) : Prop where
  regs : m.rf = m'.rf
  frames : m.frames.map (fun f => (f.func, f.locals, f.n, f.labels, f.resultRegs, f.retRegs)) =
    m'.frames.map (fun f => (f.func, f.locals, f.n, f.labels, f.resultRegs, f.retRegs))
  mem : m.inst.mem.map (·.data) = m'.inst.mem.map (·.data)
  globals : m.inst.globals.map (·.value) = m'.inst.globals.map (·.value)

theorem indices_funcs {P : Prog} : ∀ {fs gs : List Frame}, fs.map (fun f => (f.func, f.locals, f.n, f.labels, f.resultRegs, f.retRegs)) =
    gs.map (fun f => (f.func, f.locals, f.n, f.labels, f.resultRegs, f.retRegs)) →
    indices P fs = indices P gs ∧ fs.map Frame.data = gs.map Frame.data
  | [], [], _ => ⟨rfl, rfl⟩
  | [], _ :: _, h => by simp at h
  | _ :: _, [], h => by simp at h
  | f :: fs, g :: gs, h => by
    simp only [List.map_cons, List.cons.injEq, Prod.mk.injEq] at h
    obtain ⟨⟨h1, h2, h3, h4, h5, h6⟩, ht⟩ := h
    obtain ⟨i1, i2⟩ := indices_funcs (P := P) ht
    refine ⟨?_, ?_⟩
    · simp only [indices, Frame.index, h1, h4, i1]
    · simp only [List.map_cons, i2, Frame.data, h2, h3, h4, h5, h6]

theorem same_snapshot {S : Wasi} (lz : Lz) (P : Prog) {m m' : Machine S} (h : SameState m m') : m.snapshot lz P = m'.snapshot lz P := by
  have hrev : ∀ fs gs : List Frame, fs.map (fun f => (f.func, f.locals, f.n, f.labels, f.resultRegs, f.retRegs)) =
      gs.map (fun f => (f.func, f.locals, f.n, f.labels, f.resultRegs, f.retRegs)) →
      fs.reverse.map (fun f => (f.func, f.locals, f.n, f.labels, f.resultRegs, f.retRegs)) =
      gs.reverse.map (fun f => (f.func, f.locals, f.n, f.labels, f.resultRegs, f.retRegs)) := by
    intro fs gs e
    rw [List.map_reverse, List.map_reverse, e]
  obtain ⟨e1, e2⟩ := indices_funcs (P := P) (hrev _ _ h.frames)
  have e3 : m.inst.image lz = m'.inst.image lz := by
    have := h.mem
    unfold Inst.image
    cases h1 : m.inst.mem <;> cases h2 : m'.inst.mem <;> rw [h1, h2] at this <;> simp at this
    simp only [this]
  simp only [Machine.snapshot, e1, e2, e3, h.regs, h.globals]

/-- The file depends on nothing but the state: processes in the same state — whatever they did before, whatever build or process they
are — write the same bytes (or fail in the same way). -/
theorem same_state_same_file {S : Wasi} (lz : Lz) (P : Prog) {m m' : Machine S} (h : SameState m m') (old : Option (List Byte)) (io : Io) :
    m.checkpoint lz P old io = m'.checkpoint lz P old io := by
  rw [Machine.checkpoint, Machine.checkpoint, same_snapshot lz P h]

/-- Conversely the file identifies the state: two processes of one module that left the same checkpoint file were in the same state. -/
theorem same_file_same_state {S : Wasi} (lz : Lz) (P : Prog) {m m' : Machine S} {s s' : Snapshot}
    (hs : m.snapshot lz P = .ok s) (hs' : m'.snapshot lz P = .ok s') (hf : s.Fits) (hf' : s'.Fits)
    (hi : SameShape m.inst m'.inst) {old old' file : Option (List Byte)} {io io' : Io}
    (hc : m.checkpoint lz P old io = (.ok (), file)) (hc' : m'.checkpoint lz P old' io' = (.ok (), file)) : SameState m m' := by
  obtain ⟨s1, b, h1, h2, h3⟩ := checkpoint_ok hc
  obtain ⟨s2, b', h1', h2', h3'⟩ := checkpoint_ok hc'
  rw [hs] at h1; cases h1
  rw [hs'] at h1'; cases h1'
  have hb : b = b' := by rw [h3] at h3'; exact Option.some.inj h3'
  subst hb
  have := encode_injective s s' hf hf' b h2 h2'
  subst this
  simp only [Machine.snapshot, Res.bind_eq_ok, Res.pure_eq, Res.ok_inj] at hs hs'
  obtain ⟨is, i1, rfl⟩ := hs
  obtain ⟨is', i2, e⟩ := hs'
  simp only [Snapshot.mk.injEq] at e
  obtain ⟨e1, e2, e3, e4, e5, e6, e7⟩ := e
  have f1 := (indices_ok i1).1
  have f2 := (indices_ok i2).1
  rw [f1, f2] at e7
  refine ⟨?_, ?_, ?_, e6.symm⟩
  · cases hm : m.rf; cases hm' : m'.rf
    rw [hm, hm'] at e1 e2 e3
    simp only at e1 e2 e3
    have e2 := List.reverse_inj.mp e2
    subst e1; subst e2; subst e3; rfl
  · rw [List.map_reverse, List.map_reverse, List.reverse_inj] at e4 e7
    generalize m.frames = fs at *
    generalize m'.frames = gs at *
    clear i1 i2 f1 f2 hf hf' h2 h2' hc hc'
    induction fs generalizing gs with
    | nil => cases gs <;> simp_all
    | cons f fs ih =>
      cases gs with
      | nil => simp at e4
      | cons g gs =>
        simp only [List.map_cons, List.cons.injEq, Frame.data, FrameData.mk.injEq, List.reverse_inj] at e4 e7 ⊢
        obtain ⟨⟨a1, a2, a3, a4, a5⟩, at_⟩ := e4
        refine ⟨by rw [a1, a2, a3, a4, a5, e7.1], ih gs ?_ e7.2⟩
        simpa only [Frame.data] using at_
  · have hm := hi.mem
    unfold Inst.image at e5
    cases h1 : m.inst.mem <;> cases h2 : m'.inst.mem <;> rw [h1, h2] at hm <;> simp at hm
    rw [h1, h2] at e5
    have e5 : lz.compress _ = lz.compress _ := e5
    have := congrArg lz.decompress e5
    rw [lz.inv, lz.inv] at this
    simp only [Option.map_some, Option.some.inj this]

/-- Restoring loses nothing a checkpoint saves: a process that restores a checkpoint and is checkpointed before it executes anything
writes the same file again, byte for byte; so does the next, and so on. -/
theorem recheckpoint_same {S : Wasi} (lz : Lz) (P : Prog) (m : Machine S) (s : Snapshot)
    (hs : m.snapshot lz P = .ok s) (hf : s.Fits) {old file : Option (List Byte)} {io : Io}
    (hc : m.checkpoint lz P old io = (.ok (), file)) (i : Inst) (hi : SameShape i m.inst) (w : S.W) :
    ∃ st i', restore lz P i file = (.ok st, i') ∧ SameState (st.resume (S := S) i' w) m ∧
      ∀ old', (st.resume (S := S) i' w).checkpoint lz P old' .fine = (.ok (), file) := by
  obtain ⟨st, i', h1, h2, h3, h4, h5, _⟩ := restore_reproduces lz P m s hs hf old io file hc i hi
  have same : SameState (st.resume (S := S) i' w) m := by
    refine ⟨h2, ?_, congrArg _ h4, congrArg _ h5⟩
    show st.frames.map _ = _
    rw [h3, List.map_map]
    rfl
  refine ⟨st, i', h1, same, fun old' => ?_⟩
  rw [same_state_same_file lz P same]
  obtain ⟨s1, b, e1, e2, e3⟩ := checkpoint_ok hc
  simp only [Machine.checkpoint, e1, saveFile, e2, e3]

/-- C64 on a real checkpoint: the sample stopped inside a callee's loop -/
example : ∃ st i', restore Sample.lz Sample.prog Sample.inst Sample.file = (.ok st, i') ∧
    SameState (st.resume (S := Sample.wasi) i' Sample.mid.world) Sample.mid ∧
    ∀ old', (st.resume (S := Sample.wasi) i' Sample.mid.world).checkpoint Sample.lz Sample.prog old' .fine = (.ok (), Sample.file) :=
  recheckpoint_same Sample.lz Sample.prog Sample.mid Sample.snap Sample.snap_ok Sample.snap_fits Sample.ckpt_ok Sample.inst
    ⟨by decide +kernel, by decide +kernel⟩ Sample.mid.world

/-- and two different processes with the same file: the one that wrote it and the one that restored it -/
example : SameState Sample.mid Sample.resumed := by
  obtain ⟨st, i', h1, h2, h3⟩ := recheckpoint_same Sample.lz Sample.prog Sample.mid Sample.snap Sample.snap_ok Sample.snap_fits Sample.ckpt_ok
    Sample.inst ⟨by decide +kernel, by decide +kernel⟩ Sample.mid.world
  have e : st.resume i' Sample.mid.world = Sample.resumed := by
    have := h1.symm.trans Sample.restore_ok
    simp only [Prod.mk.injEq, Res.ok_inj] at this
    rw [this.1, this.2, Sample.resumed]
  rw [e] at h2 h3
  have hs := (same_snapshot Sample.lz Sample.prog h2).trans Sample.snap_ok
  exact same_file_same_state Sample.lz Sample.prog Sample.snap_ok hs Sample.snap_fits Sample.snap_fits
    ⟨by decide +kernel, by decide +kernel⟩ Sample.ckpt_ok (h3 none)

end Verif.Props
