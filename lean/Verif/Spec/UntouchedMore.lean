import Verif.Spec.Untouched
import Verif.Spec.Platforms
import Verif.Spec.Moved
/-
The sessions of `MixedSession`, `NaNFreeSession`, `MovedSession` and `SoFar` for programs with any instructions: tables and data
segments are as loaded whenever the program is stopped.
-/
namespace Verif.Spec
open Verif.Model Verif.Props

/-- `MixedSession` (every process runs on a machine of its own), tables and data segments as loaded at each checkpoint -/
inductive CleanMixedSession {S : Wasi} (T : FloatText) (lz : Lz) (file : WFile) : Options → S.W → Res (Left S) → Prop
  | last {o : Options} {world : S.W} {r : Res (Left S)} (H : FloatHost) (p : Process) (h : p.run T lz H file o world = some r)
      (hr : Finished r) : CleanMixedSession T lz file o world r
  | move {o : Options} {world : S.W} {r : Res (Left S)} (H : FloatHost) (p : Process) {l : Left S} {b : List Byte} {i : Inst} {w : S.W}
      (h : p.run T lz H file o world = some (.ok l)) (hl : l.report = .checkpointed) (hb : l.ckpt = some b)
      (hs : l.state = some (i, w)) (hlen : b.length < 2 ^ 32) (clean : AsLoaded file i)
      (next : CleanMixedSession T lz file { o with restore := some (some b) } w r) : CleanMixedSession T lz file o world r

/-- `NaNFreeSession` (on machines of their own, the processes make no NaN), tables and data segments as loaded at each checkpoint -/
inductive CleanNaNFreeSession {S : Wasi} (T : FloatText) (lz : Lz) (file : WFile) : Options → S.W → Res (Left S) → Prop
  | last {o : Options} {world : S.W} {r : Res (Left S)} (H : FloatHost) (p : Process) (h : p.run T lz H file o world = some r)
      (hn : p.NaNFree T lz H file o world) (hr : Finished r) : CleanNaNFreeSession T lz file o world r
  | move {o : Options} {world : S.W} {r : Res (Left S)} (H : FloatHost) (p : Process) {l : Left S} {b : List Byte} {i : Inst} {w : S.W}
      (h : p.run T lz H file o world = some (.ok l)) (hn : p.NaNFree T lz H file o world) (hl : l.report = .checkpointed)
      (hb : l.ckpt = some b) (hs : l.state = some (i, w)) (hlen : b.length < 2 ^ 32) (clean : AsLoaded file i)
      (next : CleanNaNFreeSession T lz file { o with restore := some (some b) } w r) : CleanNaNFreeSession T lz file o world r

/-- `MovedSession` (a new process finds what remains of the world its predecessor left), tables and data segments as loaded at each
checkpoint -/
inductive CleanMovedSession {S : Wasi} (fresh : S.W → S.W) (T : FloatText) (lz : Lz) (H : FloatHost) (file : WFile) :
    Options → S.W → Res (Left S) → Prop
  | last {o : Options} {world : S.W} {r : Res (Left S)} (p : Process) (h : p.run T lz H file o world = some r) (hr : Finished r) :
      CleanMovedSession fresh T lz H file o world r
  | move {o : Options} {world : S.W} {r : Res (Left S)} (p : Process) {l : Left S} {b : List Byte} {i : Inst} {w : S.W}
      (h : p.run T lz H file o world = some (.ok l)) (hl : l.report = .checkpointed) (hb : l.ckpt = some b)
      (hs : l.state = some (i, w)) (hlen : b.length < 2 ^ 32) (clean : AsLoaded file i)
      (next : CleanMovedSession fresh T lz H file { o with restore := some (some b) } (fresh w) r) :
      CleanMovedSession fresh T lz H file o world r

/-- `SoFar` (the beginning of a session; `A` is what the host has been asked up to now), tables and data segments as loaded at each
checkpoint -/
inductive CleanAsked {S : Wasi} (T : FloatText) (lz : Lz) (H : FloatHost) (file : WFile) (o : Options) (world : S.W) :
    Options → S.W → (Ask S.W → Prop) → Prop
  | start : CleanAsked T lz H file o world o world (fun _ => False)
  | move {o' : Options} {w' : S.W} {A : Ask S.W → Prop} (before : CleanAsked T lz H file o world o' w' A) (p : Process) {l : Left S}
      {b : List Byte} {i : Inst} {w : S.W} (h : p.run T lz H file o' w' = some (.ok l)) (hl : l.report = .checkpointed)
      (hb : l.ckpt = some b) (hs : l.state = some (i, w)) (hlen : b.length < 2 ^ 32) (clean : AsLoaded file i) :
      CleanAsked T lz H file o world { o' with restore := some (some b) } w (fun q => A q ∨ p.Asks T lz H file o' w' q)

end Verif.Spec
