import Verif.Model.Executed
import Verif.Spec.UntouchedMore
/-
What a process executes: the instructions whose handlers it calls, each named by function and position, in order.
-/
namespace Verif.Spec
open Verif.Model Verif.Props

/-- a dispatcher and the list of the positions it executes -/
inductive Traced : (Env → Dispatcher) → (Env → Tracer) → Prop
  | loop : Traced loopD (fun E n code d => loopPcs E code n d)
  | tco : Traced tcoD (fun E n code d => tcoPcs E code n d)

/-- the process executes the instructions `l`, as long as we watch it (none if it does not get that far) -/
def Process.Executes {S : Wasi} (T : FloatText) (lz : Lz) (H : FloatHost) (p : Process) (file : WFile) (o : Options) (world : S.W)
    (l : List (Nat × Nat)) : Prop :=
  ∃ tr, Traced p.D tr ∧
    ((∃ L m, Begins T lz file o world L m ∧
      l = m.runPcs (envOf H p.atomics p.trig L.prog L.hasWasi) (p.D (envOf H p.atomics p.trig L.prog L.hasWasi))
        (tr (envOf H p.atomics p.trig L.prog L.hasWasi)) p.cr p.fuel) ∨
    ((∀ L m, ¬ Begins T lz file o world L m) ∧ l = []))

/-- The beginning of a session (as `CleanSoFar`): `l` is what its processes have executed, one after the other. -/
inductive CleanExecuted {S : Wasi} (T : FloatText) (lz : Lz) (H : FloatHost) (file : WFile) (o : Options) (world : S.W) :
    Options → S.W → List (Nat × Nat) → Prop
  | start : CleanExecuted T lz H file o world o world []
  | move {o' : Options} {w' : S.W} {l j : List (Nat × Nat)} (before : CleanExecuted T lz H file o world o' w' l) (p : Process) {x : Left S}
      {b : List Byte} {i : Inst} {w : S.W} (h : p.run T lz H file o' w' = some (.ok x)) (hl : x.report = .checkpointed)
      (hb : x.ckpt = some b) (hs : x.state = some (i, w)) (hlen : b.length < 2 ^ 32) (clean : AsLoaded file i)
      (he : p.Executes T lz H file o' w' j) : CleanExecuted T lz H file o world { o' with restore := some (some b) } w (l ++ j)

/-- The beginning of a session (as `CleanExecuted`) in which `n` of the processes have executed something before they were stopped. -/
inductive Advanced {S : Wasi} (T : FloatText) (lz : Lz) (H : FloatHost) (file : WFile) (o : Options) (world : S.W) :
    Nat → Options → S.W → Prop
  | start : Advanced T lz H file o world 0 o world
  | move {n : Nat} {o' : Options} {w' : S.W} {j : List (Nat × Nat)} (before : Advanced T lz H file o world n o' w') (p : Process) {x : Left S}
      {b : List Byte} {i : Inst} {w : S.W} (h : p.run T lz H file o' w' = some (.ok x)) (hl : x.report = .checkpointed)
      (hb : x.ckpt = some b) (hs : x.state = some (i, w)) (hlen : b.length < 2 ^ 32) (clean : AsLoaded file i)
      (he : p.Executes T lz H file o' w' j) :
      Advanced T lz H file o world (if j = [] then n else n + 1) { o' with restore := some (some b) } w

end Verif.Spec
