import Verif.Spec.Session
import Verif.Model.Passthrough
/-
C62: sessions in which a process leaves something behind that the next one does not find, such as open descriptors.
-/
namespace Verif.Spec
open Verif.Model

/-- A session as in `Session`, except that the world a new process finds is not quite the one its predecessor left: `fresh w` is
what remains of `w` when the process is gone (files stay, descriptors it had opened are closed). -/
inductive MovedSession {S : Wasi} (fresh : S.W → S.W) (T : FloatText) (lz : Lz) (H : FloatHost) (file : WFile) : Options → S.W → Res (Left S) → Prop
  | last {o : Options} {world : S.W} {r : Res (Left S)} (p : Process) (h : p.run T lz H file o world = some r) (hr : Finished r) :
      MovedSession fresh T lz H file o world r
  | move {o : Options} {world : S.W} {r : Res (Left S)} (p : Process) {l : Left S} {b : List Byte} {i : Inst} {w : S.W}
      (h : p.run T lz H file o world = some (.ok l)) (hl : l.report = .checkpointed) (hb : l.ckpt = some b)
      (hs : l.state = some (i, w)) (hlen : b.length < 2 ^ 32)
      (next : MovedSession fresh T lz H file { o with restore := some (some b) } (fresh w) r) : MovedSession fresh T lz H file o world r

/-- the same outcome, up to a relation between the values -/
def Alike {α : Type} (Q : α → α → Prop) : Res α → Res α → Prop
  | .ok a, .ok b => Q a b
  | .trap e, .trap e' => e = e'
  | .panic, .panic => True
  | .ub, .ub => True
  | _, _ => False

/-- The host functions do not tell related worlds apart: same result, same memory, related worlds again — and the world a new
process finds is related to whatever the world it came from was related to. -/
structure Unaware (S : Wasi) (fresh : S.W → S.W) (R : S.W → S.W → Prop) : Prop where
  call : ∀ id ps mem w w', R w w' → Alike (fun x y => x.1 = y.1 ∧ x.2.1 = y.2.1 ∧ R x.2.2 y.2.2) (S.call id ps mem w) (S.call id ps mem w')
  fresh : ∀ w w', R w w' → R w (fresh w')

/-- what the user sees is the same, up to a relation between the worlds -/
def SeenAlike {W : Type} (R : W → W → Prop) : Res (Report × Option (Store × W)) → Res (Report × Option (Store × W)) → Prop :=
  Alike fun x y => x.1 = y.1 ∧ match x.2, y.2 with
    | some (s, w), some (s', w') => s = s' ∧ R w w'
    | none, none => True
    | _, _ => False

/-- The same of the native host under the interpreter: the answers of its functions do not depend on what a process leaves
behind. -/
structure NativeUnaware (N : Native) (fresh : N.W → N.W) (R : N.W → N.W → Prop) : Prop where
  call : ∀ fn args w w', R w w' → (N.call fn args w).1 = (N.call fn args w').1 ∧ R (N.call fn args w).2 (N.call fn args w').2
  envSizes : ∀ w w', R w w' → N.envSizes w = N.envSizes w'
  envGet : ∀ w w', R w w' → N.envGet w = N.envGet w'
  fresh : ∀ w w', R w w' → R w (fresh w')

end Verif.Spec
