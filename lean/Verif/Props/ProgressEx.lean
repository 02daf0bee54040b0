import Verif.Props.Progress
import Verif.Props.UntouchedEx
/-
A program that is moved again and again.
-/
namespace Verif.Props
open Verif.Model Verif.Spec Verif.Lemmas

namespace WriterEx
open SessionEx (text lz calm opts keeps)

theorem after_more {Q : Process → Prop} {p : Process} (hp : Q p) {o : Options} {w : Nat} {x : Options × Nat} (h : after p o w = some x)
    {n : Nat} {o0 : Options} {w0 : Nat} (hs : Moves (S := SessionEx.wasi) Q text lz Sample.host (some C.file) o0 w0 n o w) :
    Moves (S := SessionEx.wasi) Q text lz Sample.host (some C.file) o0 w0 (n + 1) x.1 x.2 := by
  unfold after at h
  split at h
  · rename_i st b i w' hr
    split at h
    · rename_i hlen
      cases h
      exact .more hs p hp hr rfl rfl rfl hlen.1 (clean_ok hlen.2)
    · cases h
  · cases h

/-- it ends if left alone -/
theorem alone : ∃ r st, calm.undisturbed.run (S := SessionEx.wasi) text lz Sample.host (some C.file) opts (0 : Nat) = some r ∧
    seen r = .ok (.result (some (vi 8)), some (st, (3 : Nat))) := by
  have h : ends calm.undisturbed opts 0 = some (.result (some (vi 8)), some ([[.null, .null]], [[]], 3)) := by decide +kernel
  unfold ends at h
  split at h
  · rename_i st rep c s hr
    obtain ⟨h1, h2⟩ := Prod.mk.inj (Option.some.inj h)
    obtain ⟨⟨i, w2⟩, rfl, h3⟩ := Option.map_eq_some_iff.mp h2
    have h4 := (Prod.mk.inj (Prod.mk.inj h3).2).2
    clear h3
    subst h1 h4
    exact ⟨_, _, hr, rfl⟩
  · cases h

/-- three moves of processes stopped after one, nine and one instruction -/
def thrice : Option (Options × Nat) := do
  let (o, w) ← after (SessionEx.stopped 1) opts 0
  let (o, w) ← after (SessionEx.stopped 9) o w
  after (SessionEx.stopped 1) o w

theorem thrice_some : thrice.isSome = true := by decide +kernel

theorem stopped_begins {n : Nat} (h : n ≠ 0) : (SessionEx.stopped n).Begins := by
  intro _
  simp only [SessionEx.stopped, beq_eq_false_iff_ne, ne_eq]
  exact fun e => h e.symm

/-- So `moved_program_ends_partial` applies to sessions with moves: after these three, too, any process left alone prints 8, and there
is a number that no session of this program has more moves than. -/
example : ∃ N, 3 ≤ N ∧ (∀ n o' w', Moves (S := SessionEx.wasi) Process.Begins text lz Sample.host (some C.file) opts (0 : Nat) n o' w' → n ≤ N) ∧
    ∃ o' w', Moves (S := SessionEx.wasi) Process.Begins text lz Sample.host (some C.file) opts (0 : Nat) 3 o' w' ∧
      ∀ p : Process, ∃ st fuel r', ({ p.undisturbed with fuel := fuel }).run (S := SessionEx.wasi) text lz Sample.host (some C.file) o' w' =
        some r' ∧ seen r' = .ok (.result (some (vi 8)), some (st, (3 : Nat))) := by
  obtain ⟨x, hx⟩ := Option.isSome_iff_exists.mp thrice_some
  unfold thrice at hx
  simp only [Option.bind_eq_bind, Option.bind_eq_some_iff, Prod.exists] at hx
  obtain ⟨o1, w1, h1, o2, w2, h2, h3⟩ := hx
  have s3 := after_more (stopped_begins (by decide)) h3 (after_more (stopped_begins (by decide)) h2
    (after_more (stopped_begins (by decide)) h1 .none))
  obtain ⟨P, hP⟩ := compiles
  obtain ⟨r, st, hr, hseen⟩ := alone
  obtain ⟨N, hN⟩ := moved_program_ends_partial keeps wellFormed hP small rfl hr
  refine ⟨N, (hN _ _ _ s3).1, fun n o' w' h => (hN n o' w' h).1, _, _, s3, fun p => ?_⟩
  obtain ⟨fuel, r', e1, e2⟩ := (hN _ _ _ s3).2 p
  exact ⟨st, fuel, r', e1, e2.trans hseen⟩

/-- the file a process leaves that is stopped before it has executed anything -/
def stuck : Option (Options × Nat) := after (SessionEx.stopped 0) opts 0

theorem after_opts {p : Process} {o : Options} {w : Nat} {z : Options × Nat} (h : after p o w = some z) :
    z.1 = { o with restore := z.1.restore } := by
  unfold after at h
  split at h
  · split at h
    · cases h; rfl
    · cases h
  · cases h

theorem after_same {p : Process} {x y : Options × Nat} (h : after p x.1 x.2 = some y) (e1 : y.1.restore = x.1.restore) (e2 : y.2 = x.2) :
    after p x.1 x.2 = some x := by
  rw [h]
  congr 1
  refine Prod.ext ?_ e2
  rw [after_opts h, e1]

/-- restored and stopped so again, it leaves the same file -/
theorem stuck_again : stuck.isSome = true ∧ (stuck.bind fun x => (after (SessionEx.stopped 0) x.1 x.2).map fun y => (y.1.restore, y.2)) =
    stuck.map fun x => (x.1.restore, x.2) := by decide +kernel

/-- **C78 is false of the code** for processes that need not begin: in the build with atomics the flag is looked at before the first
instruction (dispatch_loop.rs:21, dispatch_tco.rs:23), so processes that each find it raised when they start move this program for ever,
although it ends if left alone. -/
theorem stuck_violated :
    (∃ r st, calm.undisturbed.run (S := SessionEx.wasi) text lz Sample.host (some C.file) opts (0 : Nat) = some r ∧
      seen r = .ok (.result (some (vi 8)), some (st, (3 : Nat)))) ∧
    ∀ n, ∃ o' w', Moves (S := SessionEx.wasi) (· = SessionEx.stopped 0) text lz Sample.host (some C.file) opts (0 : Nat) n o' w' := by
  refine ⟨alone, ?_⟩
  obtain ⟨x, hx⟩ := Option.isSome_iff_exists.mp stuck_again.1
  have h2 := stuck_again.2
  rw [hx] at h2
  simp only [Option.bind_some, Option.map_some, Option.map_eq_some_iff, Prod.mk.injEq] at h2
  obtain ⟨y, hy, e1, e2⟩ := h2
  have hy' := after_same hy e1 e2
  have key : ∀ n, Moves (S := SessionEx.wasi) (· = SessionEx.stopped 0) text lz Sample.host (some C.file) opts (0 : Nat) (n + 1) x.1 x.2 := by
    intro n
    induction n with
    | zero => exact after_more (Q := (· = SessionEx.stopped 0)) rfl hx .none
    | succ n ih => exact after_more (Q := (· = SessionEx.stopped 0)) rfl hy' ih
  intro n
  cases n with
  | zero => exact ⟨_, _, .none⟩
  | succ n => exact ⟨_, _, key n⟩

end WriterEx
end Verif.Props
