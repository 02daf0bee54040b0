import Verif.Spec.Untouched
/-
Moving a program again and again.
-/
namespace Verif.Spec
open Verif.Model Verif.Props

/-- The trigger is not up already at the first look, before anything is executed.  (Only the build with atomics looks then; the other
one looks after every 1024 polls.) -/
def Process.Begins (p : Process) : Prop := p.atomics = true → p.trig 0 = false

/-- The beginning of a session of `n` moves, each of a process that is as `Q` says, with tables and data segments as loaded at each of
them: `o'` and `w'` are what the next process is given. -/
inductive Moves {S : Wasi} (Q : Process → Prop) (T : FloatText) (lz : Lz) (H : FloatHost) (file : WFile) (o : Options) (world : S.W) :
    Nat → Options → S.W → Prop
  | none : Moves Q T lz H file o world 0 o world
  | more {n : Nat} {o' : Options} {w' : S.W} (before : Moves Q T lz H file o world n o' w') (p : Process) (hp : Q p) {l : Left S}
      {b : List Byte} {i : Inst} {w : S.W} (h : p.run T lz H file o' w' = some (.ok l)) (hl : l.report = .checkpointed)
      (hb : l.ckpt = some b) (hs : l.state = some (i, w)) (hlen : b.length < 2 ^ 32) (clean : AsLoaded file i) :
      Moves Q T lz H file o world (n + 1) { o' with restore := some (some b) } w

end Verif.Spec
