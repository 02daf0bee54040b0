import Verif.Props.Executed
import Verif.Props.UntouchedMoreEx
/-
C79: a session, and what its processes execute.
-/
namespace Verif.Props
open Verif.Model Verif.Spec Verif.Lemmas

namespace DropEx
open SessionEx (text lz calm opts keeps)

/-- the machine the process starts to run -/
def began (o : Options) (w : Nat) : Option (Loaded × Machine SessionEx.wasi) :=
  match loadFile (some C.file) with
  | .ok L =>
    match o.restore with
    | some saved =>
      match restore lz L.prog L.inst saved with
      | (.ok st, i) => some (L, st.resume i w)
      | _ => none
    | none =>
      match L.exportFunc o.invoke, parseParams text o.params with
      | .ok f, .ok ps =>
        match Machine.new (S := SessionEx.wasi) L.prog L.inst w f ps with
        | .ok m => some (L, m)
        | _ => none
      | _, _ => none
  | _ => none

theorem began_ok {o : Options} {w : Nat} {L : Loaded} {m : Machine SessionEx.wasi} (h : began o w = some (L, m)) :
    Begins text lz (some C.file) o w L m := by
  unfold began at h
  split at h
  · rename_i L' hL
    split at h
    · rename_i saved ho
      split at h
      · rename_i st i hr
        cases h
        exact .resumed hL ho hr
      · cases h
    · rename_i ho
      split at h
      · rename_i f ps hf hp
        split at h
        · rename_i m' hm
          cases h
          exact .fresh hL ho hf hp hm
        · cases h
      · cases h
  · cases h

/-- what the process executes -/
def execs (tr : Env → Tracer) (p : Process) (o : Options) (w : Nat) : Option (List (Nat × Nat)) :=
  (began o w).map fun x => x.2.runPcs (envOf Sample.host p.atomics p.trig x.1.prog x.1.hasWasi)
    (p.D (envOf Sample.host p.atomics p.trig x.1.prog x.1.hasWasi)) (tr (envOf Sample.host p.atomics p.trig x.1.prog x.1.hasWasi)) p.cr p.fuel

abbrev byLoop (E : Env) : Tracer := fun n code d => loopPcs E code n d
abbrev byTco (E : Env) : Tracer := fun n code d => tcoPcs E code n d

theorem execs_ok {tr : Env → Tracer} {p : Process} {o : Options} {w : Nat} {l : List (Nat × Nat)} (h : execs tr p o w = some l)
    (ht : Traced p.D tr) : p.Executes (S := SessionEx.wasi) text lz Sample.host (some C.file) o w l := by
  obtain ⟨⟨L, m⟩, h1, rfl⟩ := Option.map_eq_some_iff.mp h
  exact ⟨tr, ht, .inl ⟨L, m, began_ok h1, rfl⟩⟩

/-- what three processes execute: two of the build with atomics and tail calls, which are stopped, one of the other build -/
def pieces : Option (List (Nat × Nat) × List (Nat × Nat) × List (Nat × Nat)) := do
  let l1 ← execs byTco (SessionEx.stopped 12) opts 0
  let (o, w) ← after (SessionEx.stopped 12) opts 0
  let l2 ← execs byTco (SessionEx.stopped 9) o w
  let (o, w) ← after (SessionEx.stopped 9) o w
  let l3 ← execs byLoop calm o w
  return (l1, l2, l3)

/-- positions of function `main` (2) and of the function it calls in each turn of its loop (1) -/
abbrev turn : List (Nat × Nat) := [(2, 1), (2, 2), (2, 3), (2, 4), (2, 5), (2, 6), (2, 7)]
abbrev inside : List (Nat × Nat) := [(1, 0), (1, 1), (2, 8), (2, 9), (2, 10)]

/-- The first is stopped in its first turn (after the call), the second in its second (before the call). -/
theorem pieces_are : pieces = some ((2, 0) :: turn ++ inside.take 3, inside.drop 3 ++ turn, inside ++ turn ++ inside ++ [(2, 1), (2, 2), (2, 3), (2, 13), (2, 14), (2, 15)]) := by
  decide +kernel

theorem after_executed {tr : Env → Tracer} {p : Process} {o : Options} {w : Nat} {x : Options × Nat} (h : after p o w = some x) {o₀ : Options} {w₀ : Nat}
    {l j : List (Nat × Nat)} (before : CleanExecuted (S := SessionEx.wasi) text lz Sample.host (some C.file) o₀ w₀ o w l)
    (he : execs tr p o w = some j) (ht : Traced p.D tr) :
    CleanExecuted (S := SessionEx.wasi) text lz Sample.host (some C.file) o₀ w₀ x.1 x.2 (l ++ j) := by
  unfold after at h
  split at h
  · rename_i st b i w' hr
    split at h
    · rename_i hlen
      cases h
      exact .move before p hr rfl rfl rfl hlen.1 (clean_ok hlen.2) (execs_ok he ht)
    · cases h
  · cases h

/-- What any undisturbed process executes, of whatever build. -/
example (u : Process) : ∃ fuel r, ({ u.undisturbed with fuel := fuel }).run (S := SessionEx.wasi) text lz Sample.host (some C.file) opts (0 : Nat) = some r ∧
    (∃ st w', seen r = .ok (.result (some (vi 8)), some (st, w')) ∧ st.datas = [[]]) ∧
    ∀ k, ({ u.undisturbed with fuel := fuel }).Executes (S := SessionEx.wasi) text lz Sample.host (some C.file) opts (0 : Nat) k ↔
      k = (2, 0) :: turn ++ inside ++ turn ++ inside ++ turn ++ inside ++ [(2, 1), (2, 2), (2, 3), (2, 13), (2, 14), (2, 15)] := by
  have h : whole = some (.result (some (vi 8)), some [[]]) := by decide +kernel
  have hp := pieces_are
  unfold whole at h
  unfold pieces at hp
  simp only [Option.bind_eq_bind, Option.bind_eq_some_iff, Prod.exists] at h hp
  obtain ⟨o1, w1, h1, o2, w2, h2, h3⟩ := h
  obtain ⟨l1, e1, o1', w1', h1', l2, e2, o2', w2', h2', l3, e3, hp⟩ := hp
  rw [h1] at h1'; cases h1'
  rw [h2] at h2'; cases h2'
  obtain ⟨rfl, rfl, rfl⟩ : _ ∧ _ ∧ _ := by
    have := Option.some.inj hp
    simp only [Prod.mk.injEq] at this
    exact this
  have s2 := after_executed h2 (after_executed h1 .start e1 .tco) e2 .tco
  unfold ends at h3
  split at h3
  · rename_i s rep c x hr
    obtain ⟨d1, d2⟩ := Prod.mk.inj (Option.some.inj h3)
    obtain ⟨⟨i, w3⟩, rfl, d3⟩ := Option.map_eq_some_iff.mp d2
    subst d1
    obtain ⟨P, hP⟩ := compiles
    have hfin : Finished (S := SessionEx.wasi) (.ok ⟨s, .result (some (vi 8)), c, some (i, w3)⟩) :=
      fun l hl => by cases hl; exact ⟨nofun, nofun, nofun⟩
    obtain ⟨fuel, r', k1, k2, k3⟩ := ended_session_executes_partial keeps wellFormed hP small rfl s2 (execs_ok e3 .loop) hr hfin u
    refine ⟨fuel, r', k1, ⟨_, _, by rw [k2]; rfl, d3⟩, fun k => (k3 k).trans ?_⟩
    have e : ([] : List (Nat × Nat)) ++ ((2, 0) :: turn ++ inside.take 3) ++ (inside.drop 3 ++ turn) ++
        (inside ++ turn ++ inside ++ [(2, 1), (2, 2), (2, 3), (2, 13), (2, 14), (2, 15)]) =
      (2, 0) :: turn ++ inside ++ turn ++ inside ++ turn ++ inside ++ [(2, 1), (2, 2), (2, 3), (2, 13), (2, 14), (2, 15)] := by decide
    rw [← e]
  · cases h3

end DropEx

/-! ### without the condition -/

namespace SkipEx
open SessionEx (text lz calm opts)

/-- empties the first entry of its table, and gives 9 if it finds it empty, 7 if not -/
def main : WSeq :=
  .op (ci 0) <| .op .refNull <| .op (.tableSet 0) <|
  .block .empty
    (.op (ci 0) <| .op (.tableGet 0) <| .op .refIsNull <| .op (.brIf 0) <|
     .op (ci 7) <| .op (.globalSet 0) .done) <|
  .op (.globalGet 0) .done

/-- a module with a function in its table -/
def A : SMod where
  types := [⟨[.i32], [.i32]⟩]
  imports := []
  funcs := [⟨0, [], main⟩]
  tables := [⟨1, none⟩]
  mems := [⟨0, some 4⟩]
  globals := [(true, .i32, [.i32 9])]
  exports := [("run", .func 0)]
  start := none
  elems := [([0], .active none [.i32 0])]
  datas := []

/-- what the process executes, of the program started afresh or restored -/
def execs (tr : Env → Tracer) (p : Process) (o : Options) (w : Nat) : List (Nat × Nat) :=
  let go (L : Loaded) (m : Machine SessionEx.wasi) := m.runPcs (envOf Sample.host p.atomics p.trig L.prog L.hasWasi)
    (p.D (envOf Sample.host p.atomics p.trig L.prog L.hasWasi)) (tr (envOf Sample.host p.atomics p.trig L.prog L.hasWasi)) p.cr p.fuel
  match loadFile (some A.file) with
  | .ok L =>
    match o.restore with
    | some saved =>
      match restore lz L.prog L.inst saved with
      | (.ok st, i) => go L (st.resume i w)
      | _ => []
    | none =>
      match L.exportFunc o.invoke, parseParams text o.params with
      | .ok f, .ok ps =>
        match Machine.new (S := SessionEx.wasi) L.prog L.inst w f ps with
        | .ok m => go L m
        | _ => []
      | _, _ => []
  | _ => []

/-- what is executed in a process that is stopped, and after it in one that restores its checkpoint -/
def moved (n : Nat) : List (Nat × Nat) × List (Nat × Nat) :=
  match (SessionEx.stopped n).run (S := SessionEx.wasi) text lz Sample.host (some A.file) opts (0 : Nat) with
  | some (.ok ⟨_, .checkpointed, some b, some (_, w')⟩) =>
    (execs DropEx.byTco (SessionEx.stopped n) opts 0, execs DropEx.byLoop calm { opts with restore := some (some b) } w')
  | _ => ([], [])

/-- **C79 is false of the code** without the condition: stopped when the table has been written, the program goes on in the next process
with instructions (8, 9 and 10) it never executes when left alone. -/
theorem other_path_violated : execs DropEx.byLoop calm opts 0 = [(0, 0), (0, 1), (0, 2), (0, 3), (0, 4), (0, 5), (0, 6), (0, 7), (0, 11), (0, 12)] ∧
    moved 2 = ([(0, 0), (0, 1)], [(0, 2), (0, 3), (0, 4), (0, 5), (0, 6), (0, 7), (0, 11), (0, 12)]) ∧
    moved 3 = ([(0, 0), (0, 1), (0, 2)], [(0, 3), (0, 4), (0, 5), (0, 6), (0, 7), (0, 8), (0, 9), (0, 10), (0, 11), (0, 12)]) := by
  refine ⟨?_, ?_, ?_⟩ <;> decide +kernel

end SkipEx

end Verif.Props
