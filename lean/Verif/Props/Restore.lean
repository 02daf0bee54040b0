import Verif.Props.SessionEx
/-
C56: which files can be restored.
-/
namespace Verif.Props
open Verif.Model Verif.Spec Verif.Lemmas

/-- what a checkpoint must agree on with the module it is restored into -/
structure _root_.Verif.Spec.Restorable (lz : Lz) (P : Prog) (i : Inst) (s : Snapshot) : Prop where
  /-- a memory needs an image that can be decompressed -/
  memory : i.mem ≠ none → ∃ d, lz.decompress s.memory = some d
  /-- as many globals: then of the same types -/
  globals : i.globals.length = s.globals.length → i.globals.map (·.value.ty) = s.globals.map (·.ty)
  /-- the functions exist -/
  funcs : ∀ k ∈ s.funcs.take s.frames.length, k < P.funcs.length

theorem restoreGlobals_ok : ∀ (gs : List Global) (vs : List Val), gs.length = vs.length →
    ((restoreGlobals gs vs).2 = true ↔ gs.map (·.value.ty) = vs.map (·.ty))
  | [], [], _ => by simp [restoreGlobals]
  | g :: gs, v :: vs, h => by
    have ih := restoreGlobals_ok gs vs (by simpa using h)
    rw [restoreGlobals]
    split
    · rename_i hg; simp [ih, hg]
    · rename_i hg; simp [hg]

theorem restoreFrames_some {P : Prog} {i : Inst} : ∀ (fs : List FrameData) (ks : List Nat),
    (restoreFrames P i fs ks).isSome = true ↔ ∀ k ∈ ks.take fs.length, k < P.funcs.length
  | [], ks => by simp [restoreFrames]
  | f :: fs, [] => by
    have ih := restoreFrames_some (P := P) (i := i) fs []
    simp only [List.take_nil, List.not_mem_nil, false_imp_iff, implies_true, iff_true] at ih ⊢
    obtain ⟨r, hr⟩ := Option.isSome_iff_exists.mp ih
    simp only [restoreFrames, hr, Option.bind_eq_bind, Option.bind_some, Option.isSome_some]
  | f :: fs, k :: ks => by
    have ih := restoreFrames_some (P := P) (i := i) fs ks
    rw [restoreFrames]
    simp only [List.length_cons, List.take_succ_cons, List.mem_cons, forall_eq_or_imp]
    split
    · rename_i hk
      rw [← ih]
      cases restoreFrames P i fs ks <;> simp [hk]
    · rename_i hk; simp [hk]

/-- **C56** `restore` succeeds exactly for readable files that begin with a serialised checkpoint whose memory image can be
decompressed, whose globals have the module's types — or are a different number: then they are left out, with a warning
(`globals_dropped_violated`) — and whose function indices exist in the module.  Nothing else is compared
(`foreign_checkpoint_violated`). -/
theorem restore_ok_iff_partial (lz : Lz) (P : Prog) (i : Inst) (file : Option (List Byte)) :
    (∃ st j, restore lz P i file = (.ok st, j)) ↔
    ∃ b s rest, file = some b ∧ decode b = some (s, rest) ∧ Restorable lz P i s := by
  constructor
  · rintro ⟨st, j, h⟩
    unfold restore at h
    split at h
    · cases h
    · rename_i b
      split at h
      · cases h
      · rename_i s rest hd
        refine ⟨b, s, rest, rfl, hd, ?_⟩
        unfold restoreState at h
        split at h
        · cases h
        · rename_i i1 h1
          simp only at h
          split at h
          · rename_i hg
            split at h
            · cases h
            · rename_i fs hfs
              refine ⟨fun hm => ?_, fun hl => ?_, ?_⟩
              · unfold restoreMem at h1
                split at h1
                · rename_i hn; exact absurd hn hm
                · split at h1
                  · cases h1
                  · rename_i d hd; exact ⟨d, hd⟩
              · have e : i1.globals = i.globals := by
                  unfold restoreMem at h1
                  split at h1
                  · cases h1; rfl
                  · split at h1
                    · cases h1
                    · cases h1; rfl
                rw [e, restoreGlobals?, if_pos hl] at hg
                exact (restoreGlobals_ok _ _ hl).mp hg
              · exact (restoreFrames_some _ _).mp (by rw [hfs]; rfl)
          · cases h
  · rintro ⟨b, s, rest, rfl, hd, hr⟩
    simp only [restore, hd, restoreState]
    obtain ⟨i1, h1, e⟩ : ∃ i1, restoreMem lz i s.memory = some i1 ∧ i1.globals = i.globals := by
      unfold restoreMem
      split
      · exact ⟨_, rfl, rfl⟩
      · rename_i m hm
        obtain ⟨d, hd⟩ := hr.memory (by rw [hm]; nofun)
        rw [hd]
        exact ⟨_, rfl, rfl⟩
    have hg : (restoreGlobals? i1.globals s.globals).2 = true := by
      rw [e, restoreGlobals?]
      split
      · rename_i hl; exact (restoreGlobals_ok _ _ hl).mpr (hr.globals hl)
      · rfl
    rw [h1]
    simp only [hg, if_true]
    obtain ⟨fs, hfs⟩ := Option.isSome_iff_exists.mp ((restoreFrames_some (P := P)
      (i := { i1 with globals := (restoreGlobals? i1.globals s.globals).1 }) s.frames s.funcs).mpr hr.funcs)
    rw [hfs]
    exact ⟨_, _, rfl⟩

/-- How it fails otherwise: an unreadable file, bytes that are no checkpoint, and globals of other types are reported, in this
order of precedence; function indices the module does not have abort the process. -/
theorem restore_failure (lz : Lz) (P : Prog) (i : Inst) :
    (restore lz P i none).1 = .trap .checkpointLoadError ∧
    (∀ b, decode b = none → (restore lz P i (some b)).1 = .trap .deserializationError) ∧
    (∀ b s rest, decode b = some (s, rest) → i.mem ≠ none → lz.decompress s.memory = none →
      (restore lz P i (some b)).1 = .trap .deserializationError) ∧
    (∀ b s rest, decode b = some (s, rest) → (i.mem ≠ none → ∃ d, lz.decompress s.memory = some d) →
      i.globals.length = s.globals.length → i.globals.map (·.value.ty) ≠ s.globals.map (·.ty) →
      (restore lz P i (some b)).1 = .trap .instructionFailed) := by
  refine ⟨rfl, fun b h => by simp only [restore, h], fun b s rest h hm hd => ?_, fun b s rest h hm hl hne => ?_⟩
  · simp only [restore, h, restoreState, restoreMem]
    cases he : i.mem with
    | none => exact absurd he hm
    | some m => simp only [hd]
  · simp only [restore, h, restoreState]
    obtain ⟨i1, h1, e⟩ : ∃ i1, restoreMem lz i s.memory = some i1 ∧ i1.globals = i.globals := by
      unfold restoreMem
      split
      · exact ⟨_, rfl, rfl⟩
      · rename_i m he
        obtain ⟨d, hd⟩ := hm (by rw [he]; nofun)
        rw [hd]
        exact ⟨_, rfl, rfl⟩
    have hg : ¬ (restoreGlobals? i1.globals s.globals).2 = true := by
      rw [e, restoreGlobals?, if_pos hl]
      exact fun k => hne ((restoreGlobals_ok _ _ hl).mp k)
    rw [h1]
    simp only [hg]
    rfl

/-! ### Files that are not checkpoints of the module -/

namespace ForeignEx
open SessionEx

/-- like `SessionEx.main`, but subtracts -/
def other : WSeq :=
  .block .empty
    (.loop .empty
      (.op (.localGet 0) <| .op (.un (.eqz .s32)) <| .op (.brIf 1) <|
       .op (.call 0) <| .op .drop <|
       .op (.globalGet 0) <| .op (.localGet 0) <| .op (.bin (.int .s32 .sub)) <| .op (.globalSet 0) <|
       .op (.localGet 0) <| .op (ci 1) <| .op (.bin (.int .s32 .sub)) <| .op (.localSet 0) <|
       .op (.br 0) .done)
      .done) <|
  .op (.globalGet 0) .done

/-- another module -/
def B' : SMod := { B with funcs := [⟨1, [], other⟩] }
/-- a module with one more global, initially 40 -/
def B2 : SMod := { B with globals := [(true, .i32, [.i32 40]), (true, .i32, [.i32 0])] }

/-- what a process run on a module's file prints -/
def told (M : SMod) (o : Options) (w : Nat) : Option Report :=
  match calm.run (S := wasi) text lz Sample.host (some M.file) o w with
  | some (.ok l) => some l.report
  | _ => none

/-- stop on `B`, restore on `M` -/
def crossed (M : SMod) : Option Report := do
  let (o, w) ← after (SessionEx.stopped 11) opts 0
  told M o w

/-- A checkpoint of one module is restored into another, and the other's code continues from it: 11 and -1 are what the two
modules compute, 5 + 3 - 2 - 1 what the command prints. -/
theorem foreign_checkpoint_violated : told B opts 0 = some (.result (some (vi 11))) ∧
    told B' opts 0 = some (.result (some ⟨.i32, BitVec.ofInt 32 (-1)⟩)) ∧
    crossed B' = some (.result (some (vi 5))) := by decide +kernel

/-- If the numbers of globals differ, the saved globals are dropped and the execution continues with the module's own. -/
theorem globals_dropped_violated : crossed B = some (.result (some (vi 11))) ∧ ∃ n, n ≠ 11 ∧
    crossed B2 = some (.result (some (vi n))) := ⟨by decide +kernel, 43, by decide +kernel, by decide +kernel⟩

end ForeignEx
end Verif.Props
