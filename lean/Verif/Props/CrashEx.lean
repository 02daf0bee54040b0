import Verif.Props.Crash
import Verif.Props.SessionEx
/-
A crash while a checkpoint is written.
-/
namespace Verif.Props
open Verif.Model Verif.Spec Verif.Lemmas

namespace CrashEx
open SessionEx

/-- the process of `SessionEx` that stops at look `n`, in a directory whose `./checkpoint.bin` is `c` -/
def proc (n : Nat) (c : Option (List Byte)) (io : Io) : Process := { SessionEx.stopped n with old := c, io := io }

/-- one step of a life: content and world after a process that writes its checkpoint, or begins to -/
def write (n : Nat) (io : Io) (restoring : Bool) (c : Option (List Byte)) (w : Nat) : Option (Option (List Byte) × Nat) :=
  match (proc n c io).run (S := wasi) text lz Sample.host (some B.file) (Options.again opts c restoring) (if restoring then w else (0 : Nat)),
    (proc n c .fine).run (S := wasi) text lz Sample.host (some B.file) (Options.again opts c restoring) (if restoring then w else (0 : Nat)) with
  | some (.ok l), some (.ok ⟨_, .checkpointed, some b, some (_, w')⟩) => if b.length < 2 ^ 32 then some (l.ckpt, w') else none
  | _, _ => none

theorem write_inv {n : Nat} {io : Io} (hio : io ≠ .createFails) {restoring : Bool} {c : Option (List Byte)} {w : Nat}
    (h : Life (S := wasi) text lz Sample.host (some B.file) opts (0 : Nat) c w) {c' : Option (List Byte)} {w' : Nat}
    (hw : write n io restoring c w = some (c', w')) : Life (S := wasi) text lz Sample.host (some B.file) opts (0 : Nat) c' w' := by
  unfold write at hw
  split at hw
  · rename_i l st b i w2 hr hf
    split at hw
    · rename_i hlen
      obtain ⟨rfl, rfl⟩ := Prod.mk.inj (Option.some.inj hw)
      exact .wrote h (proc n c io) rfl restoring hr hio hf rfl rfl rfl hlen
    · cases hw
  · cases hw

/-- checkpointed; restored and killed after ten bytes of the next checkpoint -/
def story : Option ((Option (List Byte) × Nat) × Option (List Byte) × Nat) := do
  let a ← write 9 .fine false none 0
  let b ← write 7 (.stopsAfter 10) true a.1 a.2
  pure (a, b)

/-- what restoring either of the two shows -/
def shows : Option (Option (Report × Option Nat) × Option (Report × Option Nat)) := do
  let (a, b) ← story
  pure (ends calm { opts with restore := some a.1 } a.2, ends calm { opts with restore := some b.1 } b.2)

theorem shows_eq : shows = some (some (.result (some (vi 11)), some 3), some (.restoreFailed .deserializationError, none)) := by
  decide +kernel

/-- **C70 is false of the code** in full: a completed checkpoint does not survive a crash of the next process to write one.  The file
the first process left would have led to the end of the program; after the crash nothing can be restored. -/
theorem checkpoint_lost_violated : ∃ a b wa wb, Life (S := wasi) text lz Sample.host (some B.file) opts (0 : Nat) a wa ∧
    Life (S := wasi) text lz Sample.host (some B.file) opts (0 : Nat) b wb ∧
    ends calm { opts with restore := some a } wa = some (.result (some (vi 11)), some 3) ∧
    write 7 (.stopsAfter 10) true a wa = some (b, wb) ∧
    ends calm { opts with restore := some b } wb = some (.restoreFailed .deserializationError, none) := by
  have h := shows_eq
  unfold shows at h
  simp only [Option.bind_eq_bind, Option.bind_eq_some_iff, Option.pure_def, Option.some.injEq, Prod.mk.injEq] at h
  obtain ⟨⟨⟨a, wa⟩, ⟨b, wb⟩⟩, h1, h2, h3⟩ := h
  unfold story at h1
  simp only [Option.bind_eq_bind, Option.bind_eq_some_iff, Option.pure_def, Option.some.injEq, Prod.mk.injEq] at h1
  obtain ⟨x, hx, y, hy, rfl, rfl⟩ := h1
  have l1 := write_inv (n := 9) (io := .fine) (by intro h; cases h) .start hx
  have l2 := write_inv (n := 7) (io := .stopsAfter 10) (by intro h; cases h) l1 hy
  exact ⟨a, b, wa, wb, l1, l2, h2, hy, h3⟩

/-- `crash_recovery_partial` applies to both files -/
example : ∃ a wa x, Life (S := wasi) text lz Sample.host (some B.file) opts (0 : Nat) a wa ∧
    calm.run (S := wasi) text lz Sample.host (some B.file) { opts with restore := some a } wa = some x ∧ Finished x ∧
    ∀ q : Process, ∃ fuel r', ({ q.undisturbed with fuel := fuel }).run (S := wasi) text lz Sample.host (some B.file) opts (0 : Nat)
      = some r' ∧ seen r' = seen x := by
  obtain ⟨a, b, wa, wb, l1, -, h, -⟩ := checkpoint_lost_violated
  unfold ends at h
  split at h
  · rename_i st rep c s hr
    obtain ⟨h1, h2⟩ := Prod.mk.inj (Option.some.inj h)
    have hfin : Finished (S := wasi) (.ok ⟨st, rep, c, s⟩) := by
      intro l hl; cases hl; subst h1; exact ⟨nofun, nofun, nofun⟩
    obtain ⟨P, hP⟩ := compiles
    refine ⟨a, wa, _, l1, hr, hfin, ?_⟩
    rcases crash_recovery_partial keeps wellFormed hP movable rfl l1 calm hr hfin with k | ⟨e, k⟩
    · exact k
    · cases k; cases h1
  · cases h

/-- a host whose functions return 0 and do nothing else -/
def still : Wasi := { W := Nat, call := fun _ _ m w => .ok (some (some (vi 0)), m, w) }

theorem wellFormed_still : B.WellFormed still Sample.host where
  imports := wellFormed.imports
  tables := wellFormed.tables
  mems := wellFormed.mems
  decls := wellFormed.decls
  globals := wellFormed.globals
  exports := wellFormed.exports
  dataLen := wellFormed.dataLen
  accepted := by
    refine ⟨accepted.1, accepted.2, fun t id h args m w r m' w' _ hc => ?_, accepted.4⟩
    rw [funcs] at h
    simp only [List.mem_cons, SFunc.wasi.injEq, reduceCtorEq, List.not_mem_nil, or_false] at h
    obtain ⟨rfl, rfl⟩ := h
    simp only [still, Res.ok_inj, Prod.mk.injEq, Option.some.injEq] at hc
    obtain ⟨rfl, _⟩ := hc
    rfl

/-- such a host meets the condition of `life_world`, and its programs do get checkpointed -/
example : (∀ {c w}, Life (S := still) text lz Sample.host (some B.file) opts (7 : Nat) c w → w = (7 : Nat)) ∧
    (match (proc 9 none .fine).run (S := still) text lz Sample.host (some B.file) opts (7 : Nat) with
      | some (.ok ⟨_, .checkpointed, some b, some (_, w)⟩) => decide (b.length < 2 ^ 32) && Nat.beq w 7
      | _ => false) = true := by
  refine ⟨fun {c w} h => ?_, by decide +kernel⟩
  obtain ⟨P, hP⟩ := compiles
  refine life_world wellFormed_still hP (.inr ?_) rfl h
  intro id ps mem w r hr
  cases hr; rfl

end CrashEx
end Verif.Props
