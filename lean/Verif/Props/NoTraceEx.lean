import Verif.Props.NoTrace
import Verif.Props.SessionEx
/-
C77 at work: checkpoint files of a session and of single processes.
-/
namespace Verif.Props
open Verif.Model Verif.Spec Verif.Lemmas

namespace SessionEx

/-- one whose looks are those of every iteration of the other interpreter -/
def stoppedL (n : Nat) : Process := ⟨true, (· == n), loopD, .loop, true, none, .fine, 200⟩

/-- the module `B`, with something to do in the block before the loop -/
def early : SMod := { B with funcs := [⟨1, [],
  .block .empty
    (.op (ci 7) <| .op (.globalSet 0) <| .op (ci 6) <| .op (.globalSet 0) <|
     .loop .empty
      (.op (.localGet 0) <| .op (.un (.eqz .s32)) <| .op (.brIf 1) <|
       .op (.localGet 0) <| .op (ci 1) <| .op (.bin (.int .s32 .sub)) <| .op (.localSet 0) <|
       .op (.br 0) .done)
      .done) <|
  .op (.globalGet 0) .done⟩] }

/-- the checkpoint file a process running a module leaves -/
def leavesOf (M : SMod) (p : Process) (o : Options) (w : Nat) : Option (List Byte) :=
  match p.run (S := wasi) text lz Sample.host (some M.file) o w with
  | some (.ok ⟨_, .checkpointed, some b, _⟩) => some b
  | _ => none

/-- one function, in a loop in a block: `k` is what the block remembers -/
def inLoop (k : Nat) : List (List Label) := [[⟨false, 0, 0⟩, ⟨false, 1, k⟩, ⟨true, 6, 8⟩]]

/-- Why only what is read is said to be the same: stopped in the block before the loop, moved, and stopped in the loop, the
interpreter writes the position it had in the block the first time, which a process stopped only in the loop does not — one of the
files' bytes differs, none of those ever read. -/
theorem unread_differs : ∃ (b0 b b' : List Byte) (s s' : Snapshot), leavesOf early (stopped 2) opts 0 = some b0 ∧
    leavesOf early (stopped 6) { opts with restore := some (some b0) } 0 = some b ∧ leavesOf early (stoppedL 8) opts 0 = some b' ∧
    b ≠ b' ∧ b.length = b'.length ∧ decode b = some (s, []) ∧ decode b' = some (s', []) ∧
    s.frames.map FrameData.labels = inLoop 2 ∧
    s'.frames.map FrameData.labels = inLoop 1 := by
  have h : (do
      let b0 ← leavesOf early (stopped 2) opts 0
      let b ← leavesOf early (stopped 6) { opts with restore := some (some b0) } 0
      let b' ← leavesOf early (stoppedL 8) opts 0
      let s ← decode b
      let s' ← decode b'
      if b ≠ b' ∧ b.length = b'.length ∧ s.2 = [] ∧ s'.2 = [] ∧ s.1.frames.map FrameData.labels = inLoop 2 ∧
        s'.1.frames.map FrameData.labels = inLoop 1 then some () else none).isSome = true := by decide +kernel
  obtain ⟨u, hu⟩ := Option.isSome_iff_exists.mp h
  simp only [Option.bind_eq_bind, Option.bind_eq_some_iff, Prod.exists] at hu
  obtain ⟨b0, h0, b, h1, b', h2, s, r, h3, s', r', h4, h5⟩ := hu
  split at h5
  · rename_i hc
    obtain ⟨c1, c2, c3, c4, c5, c6⟩ := hc
    exact ⟨b0, b, b', s, s', h0, h1, h2, c1, c2, c3 ▸ h3, c4 ▸ h4, c5, c6⟩
  · cases h5

theorem after_sofar {p : Process} {o : Options} {w : Nat} {x : Options × Nat} (h : after p o w = some x) {o0 : Options} {w0 : Nat}
    {A : Ask wasi.W → Prop} (hs : SoFar (S := wasi) text lz Sample.host (some B.file) o0 w0 o w A) :
    ∃ A', SoFar (S := wasi) text lz Sample.host (some B.file) o0 w0 x.1 x.2 A' := by
  unfold after at h
  split at h
  · rename_i st b i w' hr
    split at h
    · rename_i hlen
      cases h
      exact ⟨_, .move hs p hr rfl rfl rfl hlen⟩
    · cases h
  · cases h

theorem leaves_inv {p : Process} {o : Options} {w : Nat} {b : List Byte} (h : leavesOf B p o w = some b) :
    ∃ l, p.run (S := wasi) text lz Sample.host (some B.file) o w = some (.ok l) ∧ l.report = .checkpointed ∧ l.ckpt = some b := by
  unfold leavesOf at h
  split at h
  · rename_i st b' s hr
    cases h
    exact ⟨_, hr, rfl, rfl⟩
  · cases h

/-- two moves, then another checkpoint -/
def third : Option (List Byte) := do
  let (o, w) ← after (stopped 9) opts 0
  let (o, w) ← after (stopped 7) o w
  leavesOf B (stopped 12) o w

/-- So `moved_without_trace` applies to the third checkpoint of a session: one process could have left it. -/
example : ∃ b, third = some b ∧ ∃ (q : Process) (l' : Left wasi) (b' : List Byte),
    q.run (S := wasi) text lz Sample.host (some B.file) opts (0 : Nat) = some (.ok l') ∧ l'.ckpt = some b' ∧ b'.length = b.length ∧
    ∃ s s', decode b = some (s, []) ∧ decode b' = some (s', []) ∧ Snapshot.read s' = Snapshot.read s := by
  have h0 : third.any (fun b => decide (b.length < 2 ^ 32)) = true := by decide +kernel
  obtain ⟨b, h, hlen⟩ := (Option.any_eq_true ..).mp h0
  refine ⟨b, h, ?_⟩
  simp only [decide_eq_true_eq] at hlen
  unfold third at h
  simp only [Option.bind_eq_bind, Option.bind_eq_some_iff, Prod.exists] at h
  obtain ⟨o1, w1, h1, o2, w2, h2, h3⟩ := h
  obtain ⟨A1, s1⟩ := after_sofar h1 .start
  obtain ⟨A2, s2⟩ := after_sofar h2 s1
  obtain ⟨l, hl, hrep, hb⟩ := leaves_inv h3
  obtain ⟨P, hP⟩ := compiles
  obtain ⟨q, l', b', e1, -, e3, e4, e5⟩ := moved_without_trace keeps wellFormed hP movable rfl s2 hl hrep hb hlen
  exact ⟨q, l', b', e1, e3, e4, e5⟩

end SessionEx
end Verif.Props
