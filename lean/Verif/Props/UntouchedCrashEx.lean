import Verif.Props.UntouchedCrash
import Verif.Props.UntouchedEx
/-
C70 at work: a crash in the life of a program that writes tables.
-/
namespace Verif.Props
open Verif.Model Verif.Spec Verif.Lemmas

namespace WriterEx
open SessionEx (text lz calm opts keeps)

/-- the process that stops at look `n`, in a directory whose `./checkpoint.bin` is `c` -/
def proc (n : Nat) (c : Option (List Byte)) (io : Io) : Process := { SessionEx.stopped n with old := c, io := io }

/-- one step of a life: content and world after a process that writes its checkpoint, or begins to -/
def write (n : Nat) (io : Io) (restoring : Bool) (c : Option (List Byte)) (w : Nat) : Option (Option (List Byte) × Nat) :=
  match (proc n c io).run (S := SessionEx.wasi) text lz Sample.host (some C.file) (Options.again opts c restoring) (if restoring then w else (0 : Nat)),
    (proc n c .fine).run (S := SessionEx.wasi) text lz Sample.host (some C.file) (Options.again opts c restoring) (if restoring then w else (0 : Nat)) with
  | some (.ok l), some (.ok ⟨_, .checkpointed, some b, some (i, w')⟩) => if b.length < 2 ^ 32 ∧ clean i then some (l.ckpt, w') else none
  | _, _ => none

theorem write_inv {n : Nat} {io : Io} (hio : io ≠ .createFails) {restoring : Bool} {c : Option (List Byte)} {w : Nat}
    (h : CleanLife (S := SessionEx.wasi) text lz Sample.host (some C.file) opts (0 : Nat) c w) {c' : Option (List Byte)} {w' : Nat}
    (hw : write n io restoring c w = some (c', w')) :
    CleanLife (S := SessionEx.wasi) text lz Sample.host (some C.file) opts (0 : Nat) c' w' := by
  unfold write at hw
  split at hw
  · rename_i l st b i w2 hr hf
    split at hw
    · rename_i hlen
      obtain ⟨rfl, rfl⟩ := Prod.mk.inj (Option.some.inj hw)
      exact .wrote h (proc n c io) rfl restoring hr hio hf rfl rfl rfl hlen.1 (clean_ok hlen.2)
    · cases hw
  · cases hw

/-- begun and cut short after 20 bytes; started over, checkpointed; restored, checkpointed again -/
def story : Option (Option (List Byte) × Nat) := do
  let a ← write 12 (.stopsAfter 20) false none 0
  let a ← write 15 .fine false a.1 a.2
  write 20 .fine true a.1 a.2

/-- what restoring the last file shows -/
def storyEnds : Option (Report × Option (List (List Ref) × List (List Byte) × Nat)) := do
  let a ← story
  ends calm { opts with restore := some a.1 } a.2

theorem story_ends : storyEnds = some (.result (some (vi 8)), some ([[.null, .null]], [[]], 3)) := by decide +kernel

/-- `clean_crash_recovery_partial` applies -/
example : ∃ a wa x, CleanLife (S := SessionEx.wasi) text lz Sample.host (some C.file) opts (0 : Nat) a wa ∧
    calm.run (S := SessionEx.wasi) text lz Sample.host (some C.file) { opts with restore := some a } wa = some x ∧ Finished x ∧
    ∀ q : Process, ∃ fuel r', ({ q.undisturbed with fuel := fuel }).run (S := SessionEx.wasi) text lz Sample.host (some C.file) opts (0 : Nat)
      = some r' ∧ seen r' = seen x := by
  have h := story_ends
  unfold storyEnds at h
  simp only [Option.bind_eq_bind, Option.bind_eq_some_iff, Prod.exists] at h
  obtain ⟨a, wa, h1, h⟩ := h
  unfold story at h1
  simp only [Option.bind_eq_bind, Option.bind_eq_some_iff, Prod.exists] at h1
  obtain ⟨c1, w1, h2, c2, w2, h3, h4⟩ := h1
  have l1 := write_inv (n := 12) (io := .stopsAfter 20) (by intro h; cases h) .start h2
  have l2 := write_inv (n := 15) (io := .fine) (by intro h; cases h) l1 h3
  have l3 := write_inv (n := 20) (io := .fine) (by intro h; cases h) l2 h4
  unfold ends at h
  split at h
  · rename_i st rep c s hr
    obtain ⟨e1, -⟩ := Prod.mk.inj (Option.some.inj h)
    have hfin : Finished (S := SessionEx.wasi) (.ok ⟨st, rep, c, s⟩) := by
      intro l hl; cases hl; subst e1; exact ⟨nofun, nofun, nofun⟩
    obtain ⟨P, hP⟩ := compiles
    refine ⟨a, wa, _, l3, hr, hfin, ?_⟩
    rcases clean_crash_recovery_partial keeps wellFormed hP small rfl l3 calm hr hfin with k | ⟨e, k⟩
    · exact k
    · cases k; cases e1
  · cases h

end WriterEx
end Verif.Props
