import Verif.Spec.Console
import Verif.Props.Restore
import Verif.Props.Show
/-
C75: what the interpreter prints about checkpoints is true.
-/
namespace Verif.Props
open Verif.Model Verif.Spec Verif.Lemmas

/-! ### Lines that differ -/

theorem lit_ne {a b x y : List Char} (h : (a.isPrefixOf b || b.isPrefixOf a) = false) : a ++ x ≠ b ++ y := by
  intro e
  rw [Bool.or_eq_false_iff] at h
  have h1 : ¬ a <+: b := fun k => by rw [List.isPrefixOf_iff_prefix.mpr k] at h; exact absurd h.1 (by simp)
  have h2 : ¬ b <+: a := fun k => by rw [List.isPrefixOf_iff_prefix.mpr k] at h; exact absurd h.2 (by simp)
  rcases List.append_eq_append_iff.mp e with ⟨c, k, -⟩ | ⟨c, k, -⟩
  · exact h1 ⟨c, k.symm⟩
  · exact h2 ⟨c, k.symm⟩

theorem lit_ne_left {a b x : List Char} (h : (a.isPrefixOf b || b.isPrefixOf a) = false) : a ++ x ≠ b := by
  have := lit_ne (x := x) (y := []) h
  rwa [List.append_nil] at this

theorem mark_ne {s s' : Stream} {a b : List Char} (h : a ≠ b) : ((s, a) : Line) ≠ (s', b) := fun e => h (Prod.ext_iff.mp e).2
theorem stream_ne {a b : List Char} : ((Stream.err, a) : Line) ≠ (.out, b) := fun e => nomatch (Prod.ext_iff.mp e).1

/-! ### Sizes -/

theorem toString_toList (n : Nat) : (toString n).toList = Nat.toDigits 10 n := by
  show (Nat.repr n).toList = _
  simp [Nat.repr]

theorem cat_len {x : Option (List Byte)} {xs : List (Option (List Byte))} {b : List Byte} (h : cat (x :: xs) = some b) :
    ∃ c, cat xs = some c ∧ b.length = byteCount x + c.length := by
  obtain ⟨a, c, ha, hc, rfl⟩ := cat_cons h
  exact ⟨c, hc, by simp [byteCount, ha]⟩

theorem cat_append : ∀ {xs ys : List (Option (List Byte))} {b : List Byte}, cat (xs ++ ys) = some b →
    ∃ a c, cat xs = some a ∧ cat ys = some c ∧ b = a ++ c
  | [], ys, b, h => ⟨[], b, rfl, h, rfl⟩
  | x :: xs, ys, b, h => by
    obtain ⟨a, c, rfl, hc, rfl⟩ := cat_cons h
    obtain ⟨d, e, h1, h2, rfl⟩ := cat_append hc
    refine ⟨a ++ d, e, ?_, h2, by simp⟩
    simp [cat, h1]

/-- The sizes of the five components make up the encoding. -/
theorem sizes_add_up {s : Snapshot} {b : List Byte} (h : encode s = some b) :
    byteCount (encodeRegs s) + byteCount (putVec putFrame s.frames) + byteCount (putVec putByte s.memory) +
      byteCount (putVec putVal s.globals) + byteCount (putVec (putU 4) s.funcs) = b.length := by
  have h' : cat ([putVec (putCarrier .i32) (s.regs .i32), putVec (putCarrier .i64) (s.regs .i64),
    putVec (putCarrier .f32) (s.regs .f32), putVec (putCarrier .f64) (s.regs .f64),
    putVec (putCarrier .ref) (s.regs .ref), putVec (putCarrier .v128) (s.regs .v128),
    putVec putOffsets s.offsets, putOffsets s.cached] ++
    [putVec putFrame s.frames, putVec putByte s.memory, putVec putVal s.globals, putVec (putU 4) s.funcs]) = some b := h
  obtain ⟨a, c, ha, hc, rfl⟩ := cat_append h'
  have e : byteCount (encodeRegs s) = a.length := by
    unfold encodeRegs byteCount
    rw [ha]; rfl
  obtain ⟨c1, h1, e1⟩ := cat_len hc
  obtain ⟨c2, h2, e2⟩ := cat_len h1
  obtain ⟨c3, h3, e3⟩ := cat_len h2
  obtain ⟨c4, h4, e4⟩ := cat_len h3
  cases h4
  rw [List.length_append, e]
  simp only [List.length_nil] at e4
  omega

/-! ### Writing -/

theorem done_not_in_sizes (s : Snapshot) (raw : Nat) : checkpointDone ∉ sizeLines s raw := by
  simp only [sizeLines, checkpointDone, numLine, List.mem_cons, List.not_mem_nil, or_false, not_or]
  refine ⟨(mark_ne ?_).symm, (mark_ne ?_).symm, (mark_ne ?_).symm, (mark_ne ?_).symm, (mark_ne ?_).symm, (mark_ne ?_).symm⟩
  · decide
  all_goals exact lit_ne_left (by decide)

theorem size_shown (a b : String) (n : Nat) (t : List Char) :
    (a ++ toString n ++ b).toList ++ t = numLine a n (b.toList ++ t) := by
  simp only [String.toList_append, toString_toList, numLine, List.append_assoc]

theorem size_shown' (a b : String) (n : Nat) : (a ++ toString n ++ b).toList = numLine a n b.toList := by
  simp only [String.toList_append, toString_toList, numLine, List.append_assoc]

/-- **C75** "Checkpoint successful." is printed exactly if the whole checkpoint was written. -/
theorem checkpoint_told {S : Wasi} (lz : Lz) (P : Prog) (m : Machine S) (old : Option (List Byte)) (io : Io) :
    checkpointDone ∈ m.checkpointLines lz P io ↔ ∃ s b, m.snapshot lz P = .ok s ∧ encode s = some b ∧
      m.checkpoint lz P old io = (.ok (), some b) := by
  have h0 : checkpointDone ≠ (.out, "Checkpointing state to \"./checkpoint.bin\"...".toList) := mark_ne (by decide)
  unfold Machine.checkpointLines Machine.checkpoint saveFile
  rw [List.mem_cons, or_iff_right h0]
  cases hs : m.snapshot lz P with
  | ok s =>
    simp only [List.mem_append, or_iff_right (done_not_in_sizes s _)]
    cases hb : encode s with
    | none => simp [hb]
    | some b =>
      have h1 : ∀ n, checkpointDone ≠ (.out, numLine "  total encoded:      " n " bytes".toList) := fun n =>
        (mark_ne (lit_ne_left (by decide))).symm
      rw [List.mem_cons, or_iff_right (h1 _)]
      cases io <;> simp [hb, checkpointDone]
  | trap e => simp
  | panic => simp
  | ub => simp

/-- **C75** Whenever a total is printed, the five component sizes are printed before it and add up to it; and it is the number of
bytes of the file, if that could be written. -/
theorem checkpoint_sizes_told {S : Wasi} (lz : Lz) (P : Prog) (m : Machine S) (old : Option (List Byte)) (io : Io) {total : Nat}
    (h : (.out, ("  total encoded:      " ++ toString total ++ " bytes").toList) ∈ m.checkpointLines lz P io) :
    (∃ r f g v k, ShowsSizes (m.checkpointLines lz P io) r f g v k total ∧ r + f + g + v + k = total) ∧
    ∃ b : List Byte, b.length = total ∧
      ((io = .fine ∧ m.checkpoint lz P old io = (.ok (), some b)) ∨
       (io = .createFails ∧ m.checkpoint lz P old io = (.trap .checkpointSaveError, old)) ∨
       ∃ n, io = .stopsAfter n ∧ m.checkpoint lz P old io = (.trap .checkpointSaveError, some (b.take n))) := by
  have h' := h
  rw [size_shown'] at h'
  unfold Machine.checkpointLines at h'
  rw [List.mem_cons] at h'
  have h0 : ((.out, numLine "  total encoded:      " total " bytes".toList) : Line) ≠
      (.out, "Checkpointing state to \"./checkpoint.bin\"...".toList) := mark_ne (lit_ne_left (by decide))
  rw [or_iff_right h0] at h'
  cases hs : m.snapshot lz P with
  | trap e => simp only [hs, List.not_mem_nil] at h'
  | panic => simp only [hs, List.not_mem_nil] at h'
  | ub => simp only [hs, List.not_mem_nil] at h'
  | ok s =>
    simp only [hs, List.mem_append] at h'
    have h1 : ∀ raw, ((.out, numLine "  total encoded:      " total " bytes".toList) : Line) ∉ sizeLines s raw := by
      intro raw
      simp only [sizeLines, numLine, List.mem_cons, List.not_mem_nil, or_false, not_or]
      refine ⟨mark_ne (lit_ne_left (by decide)), mark_ne ?_, mark_ne ?_, mark_ne ?_, mark_ne ?_, mark_ne ?_⟩
      all_goals exact lit_ne (by decide)
    rw [or_iff_right (h1 _)] at h'
    cases hb : encode s with
    | none => simp only [hb, List.not_mem_nil] at h'
    | some b =>
      have hdone : ((.out, numLine "  total encoded:      " total " bytes".toList) : Line) ≠ (.out, "Checkpoint successful.".toList) :=
        mark_ne (lit_ne_left (by decide))
      have ht : total = b.length := by
        have h2 : ((.out, numLine "  total encoded:      " total " bytes".toList) : Line) =
            (.out, numLine "  total encoded:      " b.length " bytes".toList) := by
          rw [hb] at h'
          rcases List.mem_cons.mp h' with h2 | h2
          · exact h2
          · exfalso
            cases io <;> simp_all
        have h3 := List.append_cancel_left (Prod.ext_iff.mp h2).2
        have h4 := List.append_cancel_right h3
        have := congrArg decimal h4
        rwa [(toDigits_digits _).2, (toDigits_digits _).2] at this
      subst ht
      refine ⟨⟨_, _, _, _, _, ?_, sizes_add_up hb⟩, b, rfl, ?_⟩
      · constructor
        · rw [size_shown']; simp [Machine.checkpointLines, hs, sizeLines]
        · refine ⟨Nat.toDigits 10 s.frames.length ++ (numLine " frames, " (s.frames.map (·.labels.length)).sum (numLine " labels, "
            (s.frames.map (·.locals.length)).sum " locals total)".toList)), ?_⟩
          rw [size_shown]
          simp [Machine.checkpointLines, hs, sizeLines, numLine]
        · refine ⟨Nat.toDigits 10 (match m.inst.mem with | some mem => mem.data.length | none => 0) ++
            " bytes, LZ4 compressed)".toList, ?_⟩
          rw [size_shown]
          cases hmem : m.inst.mem <;> simp [Machine.checkpointLines, hs, sizeLines, numLine, hmem]
        · rw [size_shown']; simp [Machine.checkpointLines, hs, sizeLines]
        · rw [size_shown']; simp [Machine.checkpointLines, hs, sizeLines]
        · exact h
      · simp only [Machine.checkpoint, hs, saveFile, hb]
        cases io with
        | fine => exact .inl ⟨rfl, rfl⟩
        | createFails => exact .inr (.inl ⟨rfl, rfl⟩)
        | stopsAfter n => exact .inr (.inr ⟨n, rfl, rfl⟩)

/-- **C75** A checkpoint said to be successful can be read back: the file holds exactly the state of the run. -/
theorem checkpoint_done_readable {S : Wasi} (lz : Lz) (P : Prog) (m : Machine S) (old : Option (List Byte)) (io : Io)
    (h : checkpointDone ∈ m.checkpointLines lz P io) {s : Snapshot} (hs : m.snapshot lz P = .ok s) (hf : s.Fits) :
    ∃ b, m.checkpoint lz P old io = (.ok (), some b) ∧ decode b = some (s, []) := by
  obtain ⟨s', b, h1, h2, h3⟩ := (checkpoint_told lz P m old io).mp h
  rw [hs] at h1
  cases h1
  refine ⟨b, h3, ?_⟩
  have := decode_encode s hf b [] h2
  rwa [List.append_nil] at this

/-! ### Restoring -/

theorem restoreMem_globals {lz : Lz} {i i1 : Inst} {z : List Byte} (h : restoreMem lz i z = some i1) : i1.globals = i.globals := by
  unfold restoreMem at h
  split at h
  · cases h; rfl
  · split at h
    · cases h
    · cases h; rfl

theorem memoryLines_go (lz : Lz) (i : Inst) (z : List Byte) : (memoryLines lz i z).2 = (restoreMem lz i z).isSome := by
  unfold memoryLines restoreMem
  cases i.mem with
  | none => simp only; split <;> rfl
  | some mem => cases lz.decompress z <;> rfl

theorem globalLines_go (i : Inst) (vs : List Val) : (globalLines i vs).2 = (restoreGlobals? i.globals vs).2 := by
  unfold globalLines restoreGlobals?
  split
  · split
    · rename_i h; rw [h]
    · rename_i h; simp only [Bool.not_eq_true] at h; rw [h]
  · rfl

theorem frames_inst {P : Prog} (i j : Inst) (fs : List FrameData) (ks : List Nat) :
    (restoreFrames P i fs ks).isSome = (restoreFrames P j fs ks).isSome := by
  rw [Bool.eq_iff_iff, restoreFrames_some, restoreFrames_some]

theorem done_not_in_memory (lz : Lz) (i : Inst) (z : List Byte) : restoreDone ∉ (memoryLines lz i z).1 := by
  unfold memoryLines
  (repeat' split) <;> simp [restoreDone]

theorem done_not_in_globals (i : Inst) (vs : List Val) : restoreDone ∉ (globalLines i vs).1 := by
  unfold globalLines
  (repeat' split) <;> simp [restoreDone]

/-- **C75** "Restore successful" is printed exactly if the restore succeeded. -/
theorem restore_told (q : List Char) (lz : Lz) (P : Prog) (i : Inst) (file : Option (List Byte)) :
    restoreDone ∈ restoreLines q lz P i file ↔ ∃ st j, restore lz P i file = (.ok st, j) := by
  have h0 : restoreDone ≠ (.out, "Restoring state from ".toList ++ (q ++ "...".toList)) := (mark_ne (lit_ne_left (by decide))).symm
  unfold restoreLines restore
  rw [List.mem_cons, or_iff_right h0]
  cases file with
  | none => simp
  | some b =>
    simp only [Option.bind_some]
    cases decode b with
    | none => simp
    | some p =>
      obtain ⟨s, rest⟩ := p
      simp only [restoreStateLines, restoreState, List.mem_append, or_iff_right (done_not_in_memory lz i s.memory)]
      rw [memoryLines_go]
      cases hm : restoreMem lz i s.memory with
      | none => simp
      | some i1 =>
        simp only [Option.isSome_some, if_true, List.mem_append, or_iff_right (done_not_in_globals i s.globals)]
        rw [globalLines_go, restoreMem_globals hm]
        cases hg : (restoreGlobals? i.globals s.globals).2 with
        | false => simp
        | true =>
          simp only [if_true]
          have e := frames_inst (P := P) i { i1 with globals := (restoreGlobals? i.globals s.globals).1 } s.frames s.funcs
          cases hf : restoreFrames P i s.frames s.funcs with
          | none =>
            rw [hf] at e
            simp only [Option.isSome_none, Bool.false_eq, Option.isSome_eq_false_iff, Option.isNone_iff_eq_none] at e
            simp [e]
          | some fs =>
            rw [hf] at e
            obtain ⟨gs, hgs⟩ := Option.isSome_iff_exists.mp e.symm
            rw [hgs]
            simp [restoreDone]

theorem restoreGlobals_length : ∀ (gs : List Global) (vs : List Val), (restoreGlobals gs vs).1.length = gs.length
  | [], [] => rfl
  | [], _ :: _ => rfl
  | _ :: _, [] => rfl
  | g :: gs, v :: vs => by
    rw [restoreGlobals]
    split
    · simp [restoreGlobals_length gs vs]
    · rfl

theorem restoreGlobals_values : ∀ (gs : List Global) (vs : List Val), gs.length = vs.length → (restoreGlobals gs vs).2 = true →
    (restoreGlobals gs vs).1.map (·.value) = vs
  | [], [], _, _ => rfl
  | g :: gs, v :: vs, hl, h => by
    rw [restoreGlobals] at h ⊢
    split
    · rename_i ht
      rw [if_pos ht] at h
      simp [restoreGlobals_values gs vs (by simpa using hl) h]
    · rename_i ht
      rw [if_neg ht] at h
      cases h

theorem restoreFrames_kept {P : Prog} {i : Inst} : ∀ (fs : List FrameData) (ks : List Nat) {out : List Frame},
    restoreFrames P i fs ks = some out →
    out.map (fun f => (⟨f.locals, f.n, f.labels.reverse, f.resultRegs, f.retRegs⟩ : FrameData)) = fs
  | [], ks, out, h => by
    simp only [restoreFrames, Option.some.injEq] at h
    subst h; rfl
  | f :: fs, [], out, h => by
    simp only [restoreFrames, Option.bind_eq_bind, Option.bind_eq_some_iff, Option.some.injEq] at h
    obtain ⟨r, hr, rfl⟩ := h
    simp [restoreFrames_kept fs [] hr]
  | f :: fs, k :: ks, out, h => by
    rw [restoreFrames] at h
    split at h
    · simp only [Option.bind_eq_bind, Option.bind_eq_some_iff, Option.some.injEq] at h
      obtain ⟨r, hr, rfl⟩ := h
      simp [restoreFrames_kept fs ks hr]
    · cases h

/-- **C75** A warning is printed with a successful restore exactly if something of the file was not taken over. -/
theorem restore_warned_iff (q : List Char) {lz : Lz} {P : Prog} {i : Inst} {b rest : List Byte} {s : Snapshot} {st : Stacks} {j : Inst}
    (hd : decode b = some (s, rest)) (h : restore lz P i (some b) = (.ok st, j)) :
    (∃ t, (.err, t) ∈ restoreLines q lz P i (some b)) ↔ ¬ TakenOver lz s st j := by
  simp only [restore, hd, restoreState] at h
  cases hm : restoreMem lz i s.memory with
  | none => rw [hm] at h; simp at h
  | some i1 =>
    rw [hm] at h
    simp only at h
    have hg0 := restoreMem_globals hm
    rw [hg0] at h
    cases hg : (restoreGlobals? i.globals s.globals).2 with
    | false => rw [hg] at h; simp at h
    | true =>
      rw [hg] at h
      simp only [if_true] at h
      cases hf : restoreFrames P { i1 with globals := (restoreGlobals? i.globals s.globals).1 } s.frames s.funcs with
      | none => rw [hf] at h; simp at h
      | some fs =>
        rw [hf] at h
        simp only [Prod.mk.injEq, Res.ok_inj] at h
        obtain ⟨rfl, rfl⟩ := h
        have e := frames_inst (P := P) i { i1 with globals := (restoreGlobals? i.globals s.globals).1 } s.frames s.funcs
        rw [hf, Option.isSome_some] at e
        obtain ⟨gs, hgs⟩ := Option.isSome_iff_exists.mp e
        have hlines : restoreLines q lz P i (some b) = (.out, "Restoring state from ".toList ++ (q ++ "...".toList)) ::
            ((memoryLines lz i s.memory).1 ++ ((globalLines i s.globals).1 ++
              [(.out, "Frame module references and processed instructions restored.".toList),
               (.out, "Restore successful (state applied to module). Returning Stacks.".toList)])) := by
          simp only [restoreLines, Option.bind_some, hd, restoreStateLines]
          rw [memoryLines_go, hm, globalLines_go, hg, hgs]
          simp
        have hw : (∃ t, (.err, t) ∈ restoreLines q lz P i (some b)) ↔
            (i.mem = none ∧ s.memory ≠ []) ∨ i.globals.length ≠ s.globals.length := by
          have h1 : (∃ t, (.err, t) ∈ (memoryLines lz i s.memory).1) ↔ (i.mem = none ∧ s.memory ≠ []) := by
            unfold memoryLines
            cases i.mem with
            | none => simp only; split <;> simp_all
            | some mem => cases lz.decompress s.memory <;> simp
          have h2 : (∃ t, (.err, t) ∈ (globalLines i s.globals).1) ↔ i.globals.length ≠ s.globals.length := by
            unfold globalLines
            split
            · rename_i hl; simp only [hl, ne_eq, not_true_eq_false, iff_false]
              split <;> simp
            · rename_i hl; simp [hl]
          rw [hlines, ← h1, ← h2]
          simp only [List.mem_cons, List.mem_append, Prod.mk.injEq, List.not_mem_nil, or_false, reduceCtorEq, false_and, false_or,
            exists_or]
        have hmem : (match i1.mem with | some mem => lz.decompress s.memory = some mem.data | none => s.memory = []) ↔
            ¬ (i.mem = none ∧ s.memory ≠ []) := by
          unfold restoreMem at hm
          cases him : i.mem with
          | none =>
            rw [him] at hm
            cases hm
            rw [him]
            simp
          | some mem =>
            rw [him] at hm
            simp only at hm
            cases hz : lz.decompress s.memory with
            | none => rw [hz] at hm; simp at hm
            | some data =>
              rw [hz] at hm
              simp only [Option.some.injEq] at hm
              subst hm
              simp
        rw [hw]
        constructor
        · rintro (k | k) T
          · exact hmem.mp T.memory k
          · have := congrArg List.length T.globals
            rw [List.length_map] at this
            apply k
            rw [← this]
            simp only [restoreGlobals?]
            rw [if_neg k]
        · intro nt
          apply Classical.byContradiction
          rw [not_or]
          rintro ⟨k1, k2⟩
          apply nt
          refine ⟨rfl, ?_, hmem.mpr k1, ?_⟩
          · simp only [List.reverse_reverse]
            exact restoreFrames_kept _ _ hf
          · have hl : i.globals.length = s.globals.length := Classical.byContradiction k2
            simp only [restoreGlobals?, if_pos hl] at hg ⊢
            exact restoreGlobals_values _ _ hl hg

/-! ### The command -/

/-- the lines that close the transcript of a run that ended as `r` -/
def closing {S : Wasi} (R : Ref → List Char) (X : Err → List Char) : Res (Left S) → List Line
  | .ok l => l.report.lines R X
  | _ => []

theorem machine_console {S : Wasi} (R : Ref → List Char) (X : Err → List Char) {lz : Lz} {E : Env} {D : Dispatcher} {en : Bool} {fuel : Nat}
    {old : Option (List Byte)} {io : Io} {m : Machine S} {r : Res (Left S)} (h : m.process lz E D en fuel old io = some r) :
    ∃ mid, m.console R X lz E D en fuel io = some (mid ++ closing R X r) ∧
      ((mid = [] ∧ ∀ l, r = .ok l → l.report ≠ .checkpointed) ∨
       ∃ m' : Machine S, mid = m'.handlingLines X lz E.P io ∧
        ((m'.checkpoint lz E.P old io).1 = .ok () ↔ ∃ l, r = .ok l ∧ l.report = .checkpointed) ∧
        ∀ l, r = .ok l → (∀ c, l.report ≠ .exited c) ∧ l.ckpt = (m'.checkpoint lz E.P old io).2 ∧
          (l.report = .checkpointed ∨ ∃ e, l.report = .runFailed e)) := by
  have hold : ∀ m' : Machine S, (m'.checkpoint lz E.P none io).1 = (m'.checkpoint lz E.P old io).1 := by
    intro m'
    unfold Machine.checkpoint
    cases m'.snapshot lz E.P with
    | ok s =>
      simp only [saveFile]
      cases encode s with
      | none => rfl
      | some b => cases io <;> rfl
    | trap e => rfl
    | panic => rfl
    | ub => rfl
  unfold Machine.console
  unfold Machine.process at h ⊢
  cases hr : m.run E D en fuel with
  | none => rw [hr] at h; cases h
  | some x =>
    rw [hr] at h
    simp only
    cases x with
    | ok e =>
      cases e with
      | done vs m' =>
        simp only [Option.some.injEq] at h
        subst h
        exact ⟨[], rfl, .inl ⟨rfl, fun l e => by cases e; nofun⟩⟩
      | ckpt m' =>
        simp only at h ⊢
        refine ⟨m'.handlingLines X lz E.P io, ?_, .inr ⟨m', rfl, ?_⟩⟩
        · have ho := hold m'
          cases hc : m'.checkpoint lz E.P none io with
          | mk c f =>
            cases hc' : m'.checkpoint lz E.P old io with
            | mk c' f' =>
              rw [hc, hc'] at ho
              simp only at ho
              subst ho
              rw [hc'] at h
              cases c <;> (simp only [Option.some.injEq] at h; subst h; rfl)
        · cases hc' : m'.checkpoint lz E.P old io with
          | mk c' f' =>
            rw [hc'] at h
            cases c' <;> (simp only [Option.some.injEq] at h; subst h; simp)
    | trap e =>
      simp only [Option.some.injEq] at h
      subst h
      refine ⟨[], ?_, .inl ⟨rfl, ?_⟩⟩
      · cases e <;> rfl
      · intro l hl
        cases hl
        unfold Left.failed
        split <;> nofun
    | panic => simp only [Option.some.injEq] at h; subst h; exact ⟨[], rfl, .inl ⟨rfl, nofun⟩⟩
    | ub => simp only [Option.some.injEq] at h; subst h; exact ⟨[], rfl, .inl ⟨rfl, nofun⟩⟩

/-- what precedes the run: warnings, and the lines of a restore -/
def opening (path : List Char × List Char) (stats trace : Bool) (lz : Lz) (o : Options) (file : WFile) : List Line :=
  warningLines stats trace ++
  match loadFile file, o.restore with
  | .ok L, some saved =>
    (.out, "Restoring from checkpoint: ".toList ++ path.1) :: (restoreLines path.2 lz L.prog L.inst saved ++
      match restore lz L.prog L.inst saved with
      | (.ok _, _) => [(.out, "State restored into module instance. Stacks obtained.".toList),
          (.out, "Runtime reconstructed. Resuming execution...".toList)]
      | _ => [])
  | _, _ => []

set_option maxHeartbeats 1000000 in
theorem console_parts {S : Wasi} (R : Ref → List Char) (X : Err → List Char) (path : List Char × List Char) (stats trace : Bool)
    {T : FloatText} {lz : Lz} {H : FloatHost} {p : Process} {file : WFile} {o : Options} {world : S.W} {r : Res (Left S)}
    (h : p.run T lz H file o world = some r) :
    ∃ mid, p.console R X path stats trace T lz H file o world = some (opening path stats trace lz o file ++ (mid ++ closing R X r)) ∧
      ((mid = [] ∧ ∀ l, r = .ok l → l.report ≠ .checkpointed) ∨
       ∃ (P : Prog) (m' : Machine S), mid = m'.handlingLines X lz P p.io ∧
        ((m'.checkpoint lz P p.old p.io).1 = .ok () ↔ ∃ l, r = .ok l ∧ l.report = .checkpointed) ∧
        ∀ l, r = .ok l → (∀ c, l.report ≠ .exited c) ∧ l.ckpt = (m'.checkpoint lz P p.old p.io).2 ∧
          (l.report = .checkpointed ∨ ∃ e, l.report = .runFailed e)) := by
  unfold Process.run command at h
  unfold Process.console console opening
  cases hL : loadFile file with
  | ok L =>
    simp only [hL] at h ⊢
    cases ho : o.restore with
    | some saved =>
      simp only [ho] at h ⊢
      unfold restoredConsole
      simp only [envOf]
      cases hres : restore lz L.prog L.inst saved with
      | mk x i =>
        simp only [hres] at h ⊢
        cases x with
        | ok st =>
          obtain ⟨mid, h1, h2⟩ := machine_console R X h
          refine ⟨mid, ?_, ?_⟩
          · simp only [envOf] at h1
            simp only [h1, Option.map_some, List.cons_append, List.append_assoc, List.nil_append]
          · rcases h2 with h2 | ⟨m', h2⟩
            · exact .inl h2
            · exact .inr ⟨_, m', h2⟩
        | trap e =>
          simp only [Option.some.injEq] at h
          subst h
          exact ⟨[], by simp [closing], .inl ⟨rfl, by rintro l e; cases e; nofun⟩⟩
        | panic => simp only [Option.some.injEq] at h; subst h; exact ⟨[], by simp [closing], .inl ⟨rfl, nofun⟩⟩
        | ub => simp only [Option.some.injEq] at h; subst h; exact ⟨[], by simp [closing], .inl ⟨rfl, nofun⟩⟩
    | none =>
      simp only [ho] at h ⊢
      cases hE : L.exportFunc o.invoke with
      | ok f =>
        simp only [hE] at h ⊢
        cases hP : parseParams T o.params with
        | ok ps =>
          simp only [hP] at h ⊢
          cases hM : Machine.new (S := S) L.prog L.inst world f ps with
          | ok m =>
            simp only [hM] at h ⊢
            obtain ⟨mid, h1, h2⟩ := machine_console R X h
            refine ⟨mid, by simp [h1], ?_⟩
            rcases h2 with h2 | ⟨m', h2⟩
            · exact .inl h2
            · exact .inr ⟨_, m', h2⟩
          | trap e =>
            simp only [hM, Option.some.injEq] at h ⊢
            subst h
            exact ⟨[], by simp [closing], .inl ⟨rfl, by rintro l e; cases e; nofun⟩⟩
          | panic => simp only [hM, Option.some.injEq] at h ⊢; subst h; exact ⟨[], by simp [closing], .inl ⟨rfl, nofun⟩⟩
          | ub => simp only [hM, Option.some.injEq] at h ⊢; subst h; exact ⟨[], by simp [closing], .inl ⟨rfl, nofun⟩⟩
        | trap e => simp only [hP, Option.some.injEq] at h ⊢; subst h; exact ⟨[], by simp [closing], .inl ⟨rfl, nofun⟩⟩
        | panic => simp only [hP, Option.some.injEq] at h ⊢; subst h; exact ⟨[], by simp [closing], .inl ⟨rfl, nofun⟩⟩
        | ub => simp only [hP, Option.some.injEq] at h ⊢; subst h; exact ⟨[], by simp [closing], .inl ⟨rfl, nofun⟩⟩
      | trap e =>
        simp only [hE, Option.some.injEq] at h ⊢
        subst h
        exact ⟨[], by simp [closing], .inl ⟨rfl, by rintro l e; cases e; nofun⟩⟩
      | panic => simp only [hE, Option.some.injEq] at h ⊢; subst h; exact ⟨[], by simp [closing], .inl ⟨rfl, nofun⟩⟩
      | ub => simp only [hE, Option.some.injEq] at h ⊢; subst h; exact ⟨[], by simp [closing], .inl ⟨rfl, nofun⟩⟩
  | trap e => simp only [hL, Option.some.injEq] at h ⊢; subst h; exact ⟨[], by simp [closing], .inl ⟨rfl, nofun⟩⟩
  | panic => simp only [hL, Option.some.injEq] at h ⊢; subst h; exact ⟨[], by simp [closing], .inl ⟨rfl, nofun⟩⟩
  | ub => simp only [hL, Option.some.injEq] at h ⊢; subst h; exact ⟨[], by simp [closing], .inl ⟨rfl, nofun⟩⟩

end Verif.Props
