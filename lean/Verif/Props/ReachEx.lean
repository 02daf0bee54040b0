import Verif.Props.Reach
import Verif.Props.ExecutedEx
import Verif.Props.NoTraceEx
import Verif.Props.Covered
/-
C80 at work, and where it fails.
-/
namespace Verif.Props
open Verif.Model Verif.Spec Verif.Lemmas

namespace DropEx
open SessionEx (text lz opts keeps)

/-- what there is to see of a process that has stopped for a checkpoint -/
def halted (p : Process) (o : Options) (w : Nat) : Option (Inst × Nat) :=
  match p.run (S := SessionEx.wasi) text lz Sample.host (some C.file) o w with
  | some (.ok ⟨_, .checkpointed, some _, some x⟩) => some x
  | _ => none

/-- a single process of one build, stopped after 20 instructions -/
def alone : Option (Nat × List Val × List (List Ref) × List (List Byte) × Nat) := do
  let l ← execs byLoop (SessionEx.stoppedL 21) opts 0
  let (i, w) ← halted (SessionEx.stoppedL 21) opts 0
  return (l.length, i.globals.map (·.value), i.tables, i.datas, w)

/-- two processes of another, one after the other, the second stopped when they have executed 11 and 9 -/
def both : Option (Nat × Nat × List Val × List (List Ref) × List (List Byte) × Nat) := do
  let l1 ← execs byTco (SessionEx.stopped 12) opts 0
  let (o, w) ← after (SessionEx.stopped 12) opts 0
  let l2 ← execs byTco (SessionEx.stopped 9) o w
  let (i, w) ← halted (SessionEx.stopped 9) o w
  return (l1.length, l2.length, i.globals.map (·.value), i.tables, i.datas, w)

theorem alone_is : alone = some (20, [vi 6], [[.null, .func 1]], [[9]], 2) := by decide +kernel
theorem both_are : both = some (11, 9, [vi 6], [[.null, .func 1]], [[9]], 2) := by decide +kernel

/-- A session of this program, however often and between whatever platforms it has been moved, that stops with 20 instructions
executed, has counted to 6, has called the host twice, and has its data segment. -/
example {o' : Options} {w' : Nat} {l : List (Nat × Nat)} (s : CleanExecuted (S := SessionEx.wasi) text lz Sample.host (some C.file) opts (0 : Nat) o' w' l)
    {p : Process} {x : Left SessionEx.wasi} {i : Inst} {v : Nat} {j : List (Nat × Nat)}
    (r : p.run (S := SessionEx.wasi) text lz Sample.host (some C.file) o' w' = some (.ok x)) (c : x.report = .checkpointed) (e : x.state = some (i, v))
    (k : p.Executes (S := SessionEx.wasi) text lz Sample.host (some C.file) o' w' j) (hlen : (l ++ j).length = 20) :
    i.globals.map (·.value) = [vi 6] ∧ i.tables = [[.null, .func 1]] ∧ i.datas = [[9]] ∧ v = 2 := by
  have h := alone_is
  unfold alone at h
  simp only [Option.bind_eq_bind, Option.bind_eq_some_iff, Prod.exists] at h
  obtain ⟨l2, e2, i2, v2, h2, h⟩ := h
  have h := Option.some.inj h
  simp only [Prod.mk.injEq] at h
  obtain ⟨n1, n2, n3, n4, n5⟩ := h
  obtain ⟨P, hP⟩ := compiles
  unfold halted at h2
  split at h2
  · rename_i st b y hr
    cases h2
    obtain ⟨-, a, a'⟩ := progress_determines_state_partial keeps wellFormed hP small rfl s r c e k .start hr rfl rfl
      (execs_ok e2 .loop) (by rw [hlen, List.nil_append, n1])
    simp only [storeOf, Store.mk.injEq] at a
    obtain ⟨-, a2, a3, a4⟩ := a
    exact ⟨by rw [a2, n2], by rw [a3, n3], by rw [a4, n4], a'.trans n5⟩
  · cases h2

theorem after_advanced {tr : Env → Tracer} {p : Process} {o : Options} {w : Nat} {x : Options × Nat} (h : after p o w = some x) {o₀ : Options} {w₀ n : Nat}
    (before : Advanced (S := SessionEx.wasi) text lz Sample.host (some C.file) o₀ w₀ n o w) {j : List (Nat × Nat)}
    (he : execs tr p o w = some j) (ht : Traced p.D tr) :
    Advanced (S := SessionEx.wasi) text lz Sample.host (some C.file) o₀ w₀ (if j = [] then n else n + 1) x.1 x.2 := by
  unfold after at h
  split at h
  · rename_i st b i w' hr
    split at h
    · rename_i hlen
      cases h
      exact .move before p hr rfl rfl rfl hlen.1 (clean_ok hlen.2) (execs_ok he ht)
    · cases h
  · cases h

/-- two moves, both of processes that execute something; left alone the program executes 43 instructions -/
def counted : Option (Nat × Nat × Nat) := do
  let l1 ← execs byTco (SessionEx.stopped 12) opts 0
  let (o, w) ← after (SessionEx.stopped 12) opts 0
  let l2 ← execs byTco (SessionEx.stopped 9) o w
  let _ ← after (SessionEx.stopped 9) o w
  let k ← execs byLoop SessionEx.calm opts 0
  return (if l1 = [] then 0 else 1, if l2 = [] then 0 else 1, k.length)

theorem counted_is : counted = some (1, 1, 43) := by decide +kernel

example : ∃ o' w', Advanced (S := SessionEx.wasi) text lz Sample.host (some C.file) opts (0 : Nat) 2 o' w' := by
  have h := counted_is
  unfold counted at h
  simp only [Option.bind_eq_bind, Option.bind_eq_some_iff, Prod.exists] at h
  obtain ⟨l1, e1, o1, w1, h1, l2, e2, o2, w2, h2, k, -, h⟩ := h
  have h := Option.some.inj h
  simp only [Prod.mk.injEq] at h
  have n1 : l1 ≠ [] := fun e => by rw [if_pos e] at h; cases h.1
  have n2 : l2 ≠ [] := fun e => by rw [if_pos e] at h; cases h.2.1
  have := after_advanced h2 (after_advanced h1 .start e1 .tco) e2 .tco
  rw [if_neg n1, if_neg n2] at this
  exact ⟨o2, w2, this⟩

/-- The same session, its last process watched for a short while only: any undisturbed process gets that far, the same way. -/
example (u : Process) : ∃ n0, ∀ n k, n0 ≤ n →
    ({ u.undisturbed with fuel := n }).Executes (S := SessionEx.wasi) text lz Sample.host (some C.file) opts (0 : Nat) k →
    (2, 0) :: turn ++ inside ++ turn ++ inside.take 2 <+: k := by
  have h : (do
      let l1 ← execs byTco (SessionEx.stopped 12) opts 0
      let (o, w) ← after (SessionEx.stopped 12) opts 0
      let l2 ← execs byTco (SessionEx.stopped 9) o w
      let (o, w) ← after (SessionEx.stopped 9) o w
      let l3 ← execs byLoop { SessionEx.calm with fuel := 2 } o w
      return (l1 ++ l2) ++ l3) = some ((2, 0) :: turn ++ inside ++ turn ++ inside.take 2) := by decide +kernel
  simp only [Option.bind_eq_bind, Option.bind_eq_some_iff, Prod.exists] at h
  obtain ⟨l1, e1, o1, w1, h1, l2, e2, o2, w2, h2, l3, e3, h⟩ := h
  have h := Option.some.inj h
  obtain ⟨P, hP⟩ := compiles
  have s2 := after_executed h2 (after_executed h1 .start e1 .tco) e2 .tco
  have := session_covered_partial keeps wellFormed hP small rfl s2 (execs_ok e3 .loop) u
  rw [List.nil_append, h] at this
  exact this

end DropEx

/-! ### without the condition -/

namespace SkipEx
open SessionEx (text lz calm opts)

/-- the tables of a process that has stopped -/
def tablesOf (p : Process) (o : Options) (w : Nat) : Option (List (List Ref)) :=
  match p.run (S := SessionEx.wasi) text lz Sample.host (some A.file) o w with
  | some (.ok ⟨_, .checkpointed, _, some (i, _)⟩) => some i.tables
  | _ => none

/-- what is executed in two processes that are stopped, and the tables at the end -/
def twice (n k : Nat) : List (Nat × Nat) × List (Nat × Nat) × Option (List (List Ref)) :=
  match (SessionEx.stopped n).run (S := SessionEx.wasi) text lz Sample.host (some A.file) opts (0 : Nat) with
  | some (.ok ⟨_, .checkpointed, some b, some (_, w')⟩) =>
    (execs DropEx.byTco (SessionEx.stopped n) opts 0, execs DropEx.byTco (SessionEx.stopped k) { opts with restore := some (some b) } w',
      tablesOf (SessionEx.stopped k) { opts with restore := some (some b) } w')
  | _ => ([], [], none)

/-- **C80 is false of the code** without the condition: the same four instructions executed, and the entry of the table that they have
emptied is empty in the one process and not in the session of two. -/
theorem same_progress_other_state_violated :
    (execs DropEx.byTco (SessionEx.stopped 4) opts 0, tablesOf (SessionEx.stopped 4) opts 0) =
      ([(0, 0), (0, 1), (0, 2), (0, 3)], some [[.null]]) ∧
    twice 3 1 = ([(0, 0), (0, 1), (0, 2)], [(0, 3)], some [[.func 0]]) := by
  refine ⟨?_, ?_⟩ <;> decide +kernel

end SkipEx

end Verif.Props
