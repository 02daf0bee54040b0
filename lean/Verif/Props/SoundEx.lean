import Verif.Props.Sound
/-
Checkpoint files nobody's run has written.
-/
namespace Verif.Props
open Verif.Model Verif.Spec Verif.Lemmas

namespace SoundEx
open SessionEx

/-- a frame of function 1 of `SessionEx.B` without its local, and no registers at all -/
def crafted : Snapshot where
  regs := fun _ => []
  offsets := [fun _ => 0]
  cached := fun _ => 0
  frames := [⟨[], 1, [⟨false, 0, 0⟩], [], []⟩]
  memory := lz.compress []
  globals := [vi 5]
  funcs := [1]

/-- is the outcome undefined? -/
def undefined {α : Type} : Option (Res α) → Bool
  | some .ub => true
  | _ => false

/-- a process restoring the file -/
def attack : Bool :=
  match encode crafted with
  | some b => undefined (calm.run (S := wasi) text lz Sample.host (some B.file) { opts with restore := some (some b) } (0 : Nat))
  | none => false

theorem undefined_eq {α : Type} : ∀ {r : Option (Res α)}, undefined r = true → r = some .ub
  | some .ub, _ => rfl
  | none, h => nomatch h
  | some (.ok _), h => nomatch h
  | some (.trap _), h => nomatch h
  | some .panic, h => nomatch h

/-- **C71 is false of the code**: there is a file that `--restore` accepts and whose execution is undefined — in a module that
never accesses memory. -/
theorem crafted_checkpoint_violated : ∃ b, calm.run (S := wasi) text lz Sample.host (some B.file)
    { opts with restore := some (some b) } (0 : Nat) = some .ub := by
  have h : attack = true := by decide +kernel
  unfold attack at h
  split at h
  · exact ⟨_, undefined_eq h⟩
  · cases h

/-- a file of the program `Ex.prog` (recursion, loop, indirect call, host call), just started on `n`, whose memory image and globals
somebody has replaced -/
def edited (n : BitVec 32) (memory : List Byte) (globals : List Val) : Snapshot where
  regs := (Ex.machine Ex.inst n).rf.regs
  offsets := (Ex.machine Ex.inst n).rf.frames.reverse
  cached := (Ex.machine Ex.inst n).rf.cached
  frames := (Ex.machine Ex.inst n).frames.reverse.map Frame.data
  memory := memory
  globals := globals
  funcs := [2]

/-- it makes sense -/
theorem edited_sound (n : BitVec 32) (memory : List Byte) (globals : List Val) : Sound Ex.loaded (edited n memory globals) := by
  have h := checkpoints_sound (S := Ex.wasi) Ex.validated Ex.load (.start (Ex.started Ex.inst n)) (lz := lz)
    (s := edited n (Inst.image lz Ex.inst) (Ex.inst.globals.map (·.value))) rfl
  exact ⟨h.frames, h.cached⟩

/-- so `untrusted_checkpoint_partial` applies to it -/
example (n : BitVec 32) (memory : List Byte) (globals : List Val) {i i' : Inst} {b rest : List Byte} {st : Stacks} {w : List Val} {k : Nat}
    (hd : decode b = some (edited n memory globals, rest)) (hr : restore lz Ex.loaded i (some b) = (.ok st, i'))
    (hub : (st.resume (S := Ex.wasi) i' w).run Ex.env (tcoD Ex.env) true k = some .ub) :
    ∃ m' f fs, Reach Ex.env (tcoD Ex.env) true { st.resume (S := Ex.wasi) i' w with frames := setFirstEnable true st.frames } m' ∧
      m'.frames = f :: fs ∧ (MemoryWrong Ex.env m' f ∨ HostWrong Ex.env (tcoD Ex.env) m' f) := by
  refine untrusted_checkpoint_partial (E := Ex.env) Ex.validated Ex.load .tco hr (fun b' s rest' hb hd' => ?_) hub
  cases hb
  rw [hd] at hd'
  cases hd'
  exact edited_sound n memory globals

/-- and there are such files, that are restored and end in undefined behaviour: the memory image is empty, and `main` stores -/
def emptied : Option (Option (Res Unit)) := do
  let b ← encode (edited 1#32 (lz.compress []) (Ex.inst.globals.map (·.value)))
  match restore lz Ex.loaded Ex.inst (some b) with
  | (.ok st, i) => some (((st.resume (S := Ex.wasi) i ([] : List Val)).run Ex.env (tcoD Ex.env) true 60).map fun
      | .ok _ => .ok ()
      | .trap e => .trap e
      | .panic => .panic
      | .ub => .ub)
  | _ => none

example : (emptied.map undefined) = some true := by decide +kernel

end SoundEx
end Verif.Props
