import Verif.Spec.Session
/-
Processes that die: what `./checkpoint.bin` can hold after any number of processes, each killed at any moment or stopped by the
file system.
-/
namespace Verif.Spec
open Verif.Model Verif.Props

/-- the options of a process that starts over, or of one that restores `./checkpoint.bin`, whose content is `c` -/
def Options.again (o : Options) (c : Option (List Byte)) : Bool → Options
  | false => o
  | true => { o with restore := some c }

/-- Content of `./checkpoint.bin`, and the outside world at the moment its writing began.

Processes are started one after the other in one directory, on one file, with one command line `o`; each starts over in the outside
world `w0`, or restores `./checkpoint.bin`, the outside world being as it was when that was written (as it is if the program does
not change it, or if it is rolled back).  A process that is killed before it writes, comes to an end, or cannot create the file
leaves the content as it was, so these need no rule.  A process that does get to write its checkpoint — `whole` would be the result
— may be stopped anywhere in the middle, by an error or a crash: what it leaves is `l.ckpt`. -/
inductive Life {S : Wasi} (T : FloatText) (lz : Lz) (H : FloatHost) (file : WFile) (o : Options) (w0 : S.W) :
    Option (List Byte) → S.W → Prop
  | start : Life T lz H file o w0 none w0
  | wrote {c : Option (List Byte)} {w w' : S.W} (before : Life T lz H file o w0 c w) (p : Process) (hold : p.old = c)
      (restoring : Bool) {l whole : Left S} {i : Inst} {b : List Byte}
      (run : p.run T lz H file (Options.again o c restoring) (if restoring then w else w0) = some (.ok l)) (hio : p.io ≠ .createFails)
      (fine : { p with io := .fine }.run T lz H file (Options.again o c restoring) (if restoring then w else w0) = some (.ok whole))
      (hrep : whole.report = .checkpointed) (hb : whole.ckpt = some b) (hs : whole.state = some (i, w')) (hlen : b.length < 2 ^ 32) :
      Life T lz H file o w0 l.ckpt w'

end Verif.Spec
