import Verif.Spec.File
import Verif.Spec.WebAssembly
/-
What WebAssembly says instantiation leaves behind: the initial store, and then the effects of the start function.
-/
namespace Verif.Spec
open Verif.Model

/-- `Started S A H w st w'`: instantiating `A` in world `w` succeeds and leaves store `st` and world `w'`. -/
inductive Started (S : Wasi) (A : SMod) (H : FloatHost) (w : S.W) : Store → S.W → Prop
  /-- no start section: nothing is executed -/
  | none {st} (hs : A.start = none) (hst : InitialStore A st) : Started S A H w st w
  /-- the start function, which takes and returns nothing, is called once -/
  | start {f F st0 st w'} (hs : A.start = some f) (hf : (A.source H).funcs[f]? = some F) (hst : InitialStore A st0)
      (hc : Call S (A.source H) ((A.source H).info A.globalTypes) F [] st0 w (.ok [] st w')) : Started S A H w st w'

end Verif.Spec
