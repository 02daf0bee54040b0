import Verif.Spec.Session
import Verif.Spec.Asks
import Verif.Spec.Crash
/-
Sessions in which tables and data segments are, whenever the program is stopped, as the module file describes them: what a
checkpoint leaves out is then the same anyway.  The program may contain any instructions.
-/
namespace Verif.Spec
open Verif.Model Verif.Props

/-- tables and data segments are those of the module as loaded -/
def AsLoaded (file : WFile) (i : Inst) : Prop := ∀ L, loadFile file = .ok L → i.tables = L.inst.tables ∧ i.datas = L.inst.datas

/-- sizes a checkpoint can describe -/
structure Small (Q : SProg) : Prop where
  bodies : ∀ t ls b, SFunc.wasm t ls b ∈ Q.funcs → b.body.length < 2 ^ 32
  funcs : Q.funcs.length ≤ 2 ^ 32
  results : ∀ t ls b, SFunc.wasm t ls b ∈ Q.funcs → t.results.length < 2 ^ 32

/-- A session (`Session`) with tables and data segments as loaded at each of its checkpoints. -/
inductive CleanSession {S : Wasi} (T : FloatText) (lz : Lz) (H : FloatHost) (file : WFile) : Options → S.W → Res (Left S) → Prop
  | last {o : Options} {world : S.W} {r : Res (Left S)} (p : Process) (h : p.run T lz H file o world = some r) (hr : Finished r) :
      CleanSession T lz H file o world r
  | move {o : Options} {world : S.W} {r : Res (Left S)} (p : Process) {l : Left S} {b : List Byte} {i : Inst} {w : S.W}
      (h : p.run T lz H file o world = some (.ok l)) (hl : l.report = .checkpointed) (hb : l.ckpt = some b)
      (hs : l.state = some (i, w)) (hlen : b.length < 2 ^ 32) (clean : AsLoaded file i)
      (next : CleanSession T lz H file { o with restore := some (some b) } w r) : CleanSession T lz H file o world r

/-- The beginning of a session, with tables and data segments as loaded at each of its checkpoints: `o'` and `w'` are what the next
process is given. -/
inductive CleanSoFar {S : Wasi} (T : FloatText) (lz : Lz) (H : FloatHost) (file : WFile) (o : Options) (world : S.W) : Options → S.W → Prop
  | start : CleanSoFar T lz H file o world o world
  | move {o' : Options} {w' : S.W} (before : CleanSoFar T lz H file o world o' w') (p : Process) {l : Left S} {b : List Byte}
      {i : Inst} {w : S.W} (h : p.run T lz H file o' w' = some (.ok l)) (hl : l.report = .checkpointed) (hb : l.ckpt = some b)
      (hs : l.state = some (i, w)) (hlen : b.length < 2 ^ 32) (clean : AsLoaded file i) :
      CleanSoFar T lz H file o world { o' with restore := some (some b) } w

/-- A `Life` in which tables and data segments are as loaded whenever a checkpoint is written (or begun). -/
inductive CleanLife {S : Wasi} (T : FloatText) (lz : Lz) (H : FloatHost) (file : WFile) (o : Options) (w0 : S.W) :
    Option (List Byte) → S.W → Prop
  | start : CleanLife T lz H file o w0 none w0
  | wrote {c : Option (List Byte)} {w w' : S.W} (before : CleanLife T lz H file o w0 c w) (p : Process) (hold : p.old = c)
      (restoring : Bool) {l whole : Left S} {i : Inst} {b : List Byte}
      (run : p.run T lz H file (Options.again o c restoring) (if restoring then w else w0) = some (.ok l)) (hio : p.io ≠ .createFails)
      (fine : { p with io := .fine }.run T lz H file (Options.again o c restoring) (if restoring then w else w0) = some (.ok whole))
      (hrep : whole.report = .checkpointed) (hb : whole.ckpt = some b) (hs : whole.state = some (i, w')) (hlen : b.length < 2 ^ 32)
      (clean : AsLoaded file i) :
      CleanLife T lz H file o w0 l.ckpt w'


end Verif.Spec
