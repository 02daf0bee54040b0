import Verif.Props.Console
/-
C75 for the whole command: the lines of its transcript and what they mean.
-/
namespace Verif.Props
open Verif.Model Verif.Spec Verif.Lemmas

theorem warning_err (stats trace : Bool) : ∀ l ∈ warningLines stats trace, l.1 = .err := by
  cases stats <;> cases trace <;> simp [warningLines]

theorem restoreLines_out {q : List Char} {lz : Lz} {P : Prog} {i : Inst} {file : Option (List Byte)} {t : List Char}
    (h : (.out, t) ∈ restoreLines q lz P i file) :
    (∃ x, t = "Restoring state from ".toList ++ x) ∨ t = "Memory state restored into module instance.".toList ∨
    t = "Global state restored into module instance.".toList ∨
    t = "Frame module references and processed instructions restored.".toList ∨ (Stream.out, t) = restoreDone := by
  unfold restoreLines at h
  rcases List.mem_cons.mp h with h | h
  · exact .inl ⟨_, (Prod.ext_iff.mp h).2⟩
  · split at h
    · cases h
    · unfold restoreStateLines at h
      rcases List.mem_append.mp h with h | h
      · unfold memoryLines at h
        (repeat' split at h) <;> simp at h
        exact .inr (.inl h)
      · split at h
        · rcases List.mem_append.mp h with h | h
          · unfold globalLines at h
            (repeat' split at h) <;> simp at h
            exact .inr (.inr (.inl h))
          · split at h
            · split at h
              · cases h
              · simp at h
                rcases h with h | h
                · exact .inr (.inr (.inr (.inl h)))
                · exact .inr (.inr (.inr (.inr (by rw [h]; rfl))))
            · cases h
        · cases h

theorem sizeLines_out {s : Snapshot} {raw : Nat} {t : List Char} (h : (.out, t) ∈ sizeLines s raw) :
    (∃ x, t = "  ".toList ++ x) ∨ t = "Checkpoint component sizes:".toList := by
  have hs : ∀ (a : String) (n : Nat) (b : List Char), a.toList.take 2 = "  ".toList → ∃ x, numLine a n b = "  ".toList ++ x := by
    intro a n b e
    refine ⟨a.toList.drop 2 ++ (Nat.toDigits 10 n ++ b), ?_⟩
    rw [numLine, ← e, ← List.append_assoc (a.toList.take 2), List.take_append_drop]
  simp only [sizeLines, List.mem_cons, Prod.mk.injEq, true_and, List.not_mem_nil, or_false] at h
  rcases h with rfl | rfl | rfl | rfl | rfl | rfl
  · exact .inr rfl
  all_goals exact .inl (hs _ _ _ (by decide))

theorem checkpointLines_out {S : Wasi} {lz : Lz} {P : Prog} {m : Machine S} {io : Io} {t : List Char}
    (h : (.out, t) ∈ m.checkpointLines lz P io) : (∃ x, t = "  ".toList ++ x) ∨ t = "Checkpoint component sizes:".toList ∨
    t = "Checkpointing state to \"./checkpoint.bin\"...".toList ∨ (Stream.out, t) = checkpointDone := by
  unfold Machine.checkpointLines at h
  rcases List.mem_cons.mp h with h | h
  · exact .inr (.inr (.inl (Prod.ext_iff.mp h).2))
  · split at h
    · rcases List.mem_append.mp h with h | h
      · rcases sizeLines_out h with h | h
        · exact .inl h
        · exact .inr (.inl h)
      · split at h
        · cases h
        · rcases List.mem_cons.mp h with h | h
          · left
            exact ⟨"total encoded:      ".toList ++ (Nat.toDigits 10 _ ++ " bytes".toList), (Prod.ext_iff.mp h).2⟩
          · split at h
            · exact .inr (.inr (.inr (List.mem_singleton.mp h)))
            · cases h
    · cases h

theorem handling_out {S : Wasi} {X : Err → List Char} {lz : Lz} {P : Prog} {m : Machine S} {io : Io} {t : List Char}
    (h : (.out, t) ∈ m.handlingLines X lz P io) : (.out, t) ∈ m.checkpointLines lz P io ∨
    t = "Runtime handling checkpoint request...".toList ∨ t = "Checkpoint successful (Runtime).".toList := by
  unfold Machine.handlingLines at h
  rcases List.mem_cons.mp h with h | h
  · exact .inr (.inl (Prod.ext_iff.mp h).2)
  · rcases List.mem_append.mp h with h | h
    · exact .inl h
    · split at h <;> simp at h
      exact .inr (.inr h)

theorem closing_out {S : Wasi} {R : Ref → List Char} {X : Err → List Char} {r : Res (Left S)} {t : List Char}
    (h : (.out, t) ∈ closing R X r) : ∃ l, r = .ok l ∧ ((∃ v, l.report = .result (some v) ∧ t = "Result: ".toList ++ v.text R) ∨
      (l.report = .checkpointed ∧ t = "Execution stopped for checkpoint.".toList)) := by
  cases r with
  | ok l =>
    refine ⟨l, rfl, ?_⟩
    simp only [closing] at h
    cases hr : l.report with
    | result v =>
      cases v with
      | none => rw [hr] at h; simp [Report.lines, Report.line] at h
      | some v =>
        rw [hr] at h
        simp only [Report.lines, Report.line, Option.toList_some, List.mem_singleton, Prod.mk.injEq, true_and] at h
        exact .inl ⟨v, rfl, h⟩
    | checkpointed =>
      rw [hr] at h
      simp only [Report.lines, Report.line, Option.toList_some, List.mem_singleton, Prod.mk.injEq, true_and] at h
      exact .inr ⟨rfl, h⟩
    | runFailed => rw [hr] at h; simp [Report.lines, Report.line] at h
    | initFailed => rw [hr] at h; simp [Report.lines, Report.line] at h
    | restoreFailed => rw [hr] at h; simp [Report.lines] at h
    | noFunction => rw [hr] at h; simp [Report.lines, Report.line] at h
    | exited => rw [hr] at h; simp [Report.lines, Report.line] at h
  | trap e => cases h
  | panic => cases h
  | ub => cases h

theorem opening_out {path : List Char × List Char} {stats trace : Bool} {lz : Lz} {o : Options} {file : WFile} {t : List Char}
    (h : (.out, t) ∈ opening path stats trace lz o file) :
    (∃ L saved, loadFile file = .ok L ∧ o.restore = some saved ∧ (.out, t) ∈ restoreLines path.2 lz L.prog L.inst saved) ∨
    (∃ x, t = "Restoring from checkpoint: ".toList ++ x) ∨ t = "State restored into module instance. Stacks obtained.".toList ∨
    t = "Runtime reconstructed. Resuming execution...".toList := by
  unfold opening at h
  rcases List.mem_append.mp h with h | h
  · exact absurd (warning_err _ _ _ h) (by simp)
  · split at h
    · rename_i L saved hL ho
      rcases List.mem_cons.mp h with h | h
      · exact .inr (.inl ⟨_, (Prod.ext_iff.mp h).2⟩)
      · rcases List.mem_append.mp h with h | h
        · exact .inl ⟨L, saved, hL, ho, h⟩
        · split at h
          · simp only [List.mem_cons, Prod.mk.injEq, true_and, List.not_mem_nil, or_false] at h
            rcases h with h | h
            · exact .inr (.inr (.inl h))
            · exact .inr (.inr (.inr h))
          · cases h
    · cases h

/-! ### What the lines mean -/

variable {S : Wasi} {R : Ref → List Char} {X : Err → List Char} {path : List Char × List Char} {stats trace : Bool} {T : FloatText} {lz : Lz}
  {H : FloatHost} {p : Process} {file : WFile} {o : Options} {world : S.W} {r : Res (Left S)} {ls : List Line}

/-- **C75** A finished command has printed "Checkpoint successful." exactly if it ended for a checkpoint; then the sizes it printed add up
to the total it printed, and that is the size of the file it left. -/
theorem console_checkpoint (h : p.run T lz H file o world = some r) (hl : p.console R X path stats trace T lz H file o world = some ls) :
    (checkpointDone ∈ ls ↔ ∃ l, r = .ok l ∧ l.report = .checkpointed) ∧
    (checkpointDone ∈ ls → ∃ (l : Left S) (b : List Byte) (rg f g v k : Nat), r = .ok l ∧ l.ckpt = some b ∧
      ShowsSizes ls rg f g v k b.length ∧ rg + f + g + v + k = b.length) := by
  obtain ⟨mid, h1, h2⟩ := console_parts R X path stats trace h
  rw [hl, Option.some.injEq] at h1
  subst h1
  have e1 : checkpointDone ∉ opening path stats trace lz o file := by
    intro hc
    rcases opening_out hc with ⟨L, saved, -, -, hc⟩ | ⟨x, hc⟩ | hc | hc
    · rcases restoreLines_out hc with ⟨x, hc⟩ | hc | hc | hc | hc
      · exact lit_ne_left (by decide) hc.symm
      all_goals exact absurd hc (by decide)
    · exact lit_ne_left (by decide) hc.symm
    all_goals exact absurd hc (by decide)
  have e2 : checkpointDone ∉ closing R X r := by
    intro hc
    obtain ⟨l, -, ⟨v, -, hc⟩ | ⟨-, hc⟩⟩ := closing_out hc
    · exact lit_ne_left (by decide) hc.symm
    · exact absurd hc (by decide)
  rw [List.mem_append, or_iff_right e1, List.mem_append, or_iff_left e2]
  rcases h2 with ⟨rfl, h2⟩ | ⟨P, m', rfl, h2, h3⟩
  · constructor
    · constructor
      · intro hc; cases hc
      · rintro ⟨l, rfl, hc⟩; exact absurd hc (h2 l rfl)
    · intro hc; cases hc
  · have key : checkpointDone ∈ m'.handlingLines X lz P p.io ↔ (m'.checkpoint lz P p.old p.io).1 = .ok () := by
      constructor
      · intro hc
        rcases handling_out hc with hc | hc | hc
        · obtain ⟨s, b, -, -, k⟩ := (checkpoint_told lz P m' p.old p.io).mp hc
          rw [k]
        all_goals exact absurd hc (by decide)
      · intro hc
        unfold Machine.handlingLines
        refine List.mem_cons_of_mem _ (List.mem_append_left _ ((checkpoint_told lz P m' p.old p.io).mpr ?_))
        rcases checkpoint_outcomes lz P m' p.old p.io with h | ⟨s, b, k, _, _, _, h⟩ | ⟨_, h⟩
        · exact h
        · rw [h] at hc; cases hc
        · exact absurd hc h
    refine ⟨key.trans h2, fun hc => ?_⟩
    obtain ⟨l, rfl, hr⟩ := h2.mp (key.mp hc)
    have hc' : checkpointDone ∈ m'.checkpointLines lz P p.io := by
      rcases handling_out hc with hc | hc | hc
      · exact hc
      all_goals exact absurd hc (by decide)
    obtain ⟨s, b, k1, k2, k3⟩ := (checkpoint_told lz P m' p.old p.io).mp hc'
    have ht : (.out, ("  total encoded:      " ++ toString b.length ++ " bytes").toList) ∈ m'.checkpointLines lz P p.io := by
      rw [size_shown']
      simp [Machine.checkpointLines, k1, k2]
    obtain ⟨⟨rg, f, g, v, k, hs, hsum⟩, -⟩ := checkpoint_sizes_told lz P m' p.old p.io ht
    have sub : ∀ x ∈ m'.checkpointLines lz P p.io,
        x ∈ opening path stats trace lz o file ++ (m'.handlingLines X lz P p.io ++ closing R X (.ok l)) := fun x hx =>
      List.mem_append_right _ (List.mem_append_left _ (List.mem_cons_of_mem _ (List.mem_append_left _ hx)))
    refine ⟨l, b, rg, f, g, v, k, rfl, ?_, ?_, hsum⟩
    · rw [(h3 l rfl).2.1, k3]
    · obtain ⟨a1, ⟨d2, a2⟩, ⟨d3, a3⟩, a4, a5, a6⟩ := hs
      exact ⟨sub _ a1, ⟨d2, sub _ a2⟩, ⟨d3, sub _ a3⟩, sub _ a4, sub _ a5, sub _ a6⟩

/-- **C75** A finished command has printed "Restore successful" exactly if it was asked to restore and the file could be restored. -/
theorem console_restore (h : p.run T lz H file o world = some r) (hl : p.console R X path stats trace T lz H file o world = some ls) :
    restoreDone ∈ ls ↔ ∃ L saved st j, loadFile file = .ok L ∧ o.restore = some saved ∧ restore lz L.prog L.inst saved = (.ok st, j) := by
  obtain ⟨mid, h1, h2⟩ := console_parts R X path stats trace h
  rw [hl, Option.some.injEq] at h1
  subst h1
  have e2 : restoreDone ∉ closing R X r := by
    intro hc
    obtain ⟨l, -, ⟨v, -, hc⟩ | ⟨-, hc⟩⟩ := closing_out hc
    · exact lit_ne_left (by decide) hc.symm
    · exact absurd hc (by decide)
  have e3 : restoreDone ∉ mid := by
    rcases h2 with ⟨rfl, -⟩ | ⟨P, m', rfl, -⟩
    · simp
    · intro hc
      rcases handling_out hc with hc | hc | hc
      · rcases checkpointLines_out hc with ⟨x, hc⟩ | hc | hc | hc
        · exact lit_ne_left (by decide) hc.symm
        all_goals exact absurd hc (by decide)
      all_goals exact absurd hc (by decide)
  rw [List.mem_append, or_iff_left (by rw [List.mem_append, not_or]; exact ⟨e3, e2⟩)]
  constructor
  · intro hc
    rcases opening_out hc with ⟨L, saved, hL, ho, hc⟩ | ⟨x, hc⟩ | hc | hc
    · obtain ⟨st, j, k⟩ := (restore_told _ _ _ _ _).mp hc
      exact ⟨L, saved, st, j, hL, ho, k⟩
    · exact absurd hc.symm (lit_ne_left (by decide))
    all_goals exact absurd hc (by decide)
  · rintro ⟨L, saved, st, j, hL, ho, k⟩
    unfold opening
    simp only [hL, ho]
    exact List.mem_append_right _ (List.mem_cons_of_mem _ (List.mem_append_left _ ((restore_told _ _ _ _ _).mpr ⟨st, j, k⟩)))

/-- **C75** A line "Result: .." is printed exactly for the (last) result of a function that returned, and no other way. -/
theorem console_result (h : p.run T lz H file o world = some r) (hl : p.console R X path stats trace T lz H file o world = some ls)
    (t : List Char) : (.out, "Result: ".toList ++ t) ∈ ls ↔ ∃ l v, r = .ok l ∧ l.report = .result (some v) ∧ t = v.text R := by
  obtain ⟨mid, h1, h2⟩ := console_parts R X path stats trace h
  rw [hl, Option.some.injEq] at h1
  subst h1
  have e1 : (Stream.out, "Result: ".toList ++ t) ∉ opening path stats trace lz o file := by
    intro hc
    rcases opening_out hc with ⟨L, saved, -, -, hc⟩ | ⟨x, hc⟩ | hc | hc
    · rcases restoreLines_out hc with ⟨x, hc⟩ | hc | hc | hc | hc
      · exact lit_ne (by decide) hc
      · exact lit_ne_left (by decide) hc
      · exact lit_ne_left (by decide) hc
      · exact lit_ne_left (by decide) hc
      · exact lit_ne_left (by decide) (Prod.ext_iff.mp hc).2
    · exact lit_ne (by decide) hc
    · exact lit_ne_left (by decide) hc
    · exact lit_ne_left (by decide) hc
  have e3 : (Stream.out, "Result: ".toList ++ t) ∉ mid := by
    rcases h2 with ⟨rfl, -⟩ | ⟨P, m', rfl, -⟩
    · simp
    · intro hc
      rcases handling_out hc with hc | hc | hc
      · rcases checkpointLines_out hc with ⟨x, hc⟩ | hc | hc | hc
        · exact lit_ne (by decide) hc
        · exact lit_ne_left (by decide) hc
        · exact lit_ne_left (by decide) hc
        · exact lit_ne_left (by decide) (Prod.ext_iff.mp hc).2
      · exact lit_ne_left (by decide) hc
      · exact lit_ne_left (by decide) hc
  rw [List.mem_append, or_iff_right e1, List.mem_append, or_iff_right e3]
  constructor
  · intro hc
    obtain ⟨l, rfl, ⟨v, h4, hc⟩ | ⟨-, hc⟩⟩ := closing_out hc
    · exact ⟨l, v, rfl, h4, List.append_cancel_left hc⟩
    · exact absurd hc (lit_ne_left (by decide))
  · rintro ⟨l, v, rfl, h4, rfl⟩
    simp [closing, h4, Report.lines, Report.line]

/-- **C75** Two finished commands that print the same text report the same number. -/
theorem same_console_same_result {p' : Process} {file' : WFile} {o' : Options} {world' : S.W} {r' : Res (Left S)}
    {path' : List Char × List Char} {stats' trace' : Bool} (h : p.run T lz H file o world = some r)
    (hl : p.console R X path stats trace T lz H file o world = some ls) (h' : p'.run T lz H file' o' world' = some r')
    (hl' : p'.console R X path' stats' trace' T lz H file' o' world' = some ls) {l : Left S} {v : Val} (hr : r = .ok l)
    (hv : l.report = .result (some v)) (hn : IsNumber v) : ∃ l', r' = .ok l' ∧ l'.report = .result (some v) := by
  have k := (console_result h hl (v.text R)).mpr ⟨l, v, hr, hv, rfl⟩
  obtain ⟨l', w, e, hw, ht⟩ := (console_result h' hl' _).mp k
  rw [result_text_injective hn ht] at hw
  exact ⟨l', e, hw⟩

/-- **C75** After `proc_exit` the interpreter adds nothing: nothing is printed behind the guest's own output. -/
theorem console_exit (h : p.run T lz H file o world = some r) (ho : o.restore = none) {l : Left S} (hr : r = .ok l) {c : BitVec 32}
    (hc : l.report = .exited c) : p.console R X path stats trace T lz H file o world = some (warningLines stats trace) := by
  obtain ⟨mid, h1, h2⟩ := console_parts R X path stats trace h
  subst hr
  rw [h1]
  rcases h2 with ⟨rfl, -⟩ | ⟨P, m', rfl, -, h3⟩
  · simp only [opening, ho, closing, hc, Report.lines, Report.line]
    cases loadFile file <;> simp
  · exact absurd hc ((h3 l rfl).1 c)

end Verif.Props
