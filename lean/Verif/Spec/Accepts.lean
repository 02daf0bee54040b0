import Verif.Spec.Subset
/-
The function bodies the preprocessor accepts.
-/
namespace Verif.Spec
open Verif.Model

/-- Operators the preprocessor rejects although they are WebAssembly: locals and `select` at the vector type, globals and
constants that are not numbers, and all operators it has no arm for.  (`un (.mov _)` is not a WebAssembly operator; the model's operator type contains it.) -/
def supportedOp (K : FnCtx) : WOp → Bool
  | .localGet i | .localSet i | .localTee i => decide ((localTypes K.params K.locals)[i]? ≠ some .v128)
  | .globalGet g | .globalSet g => match K.M.globals[g]? with
    | some c => numeric c
    | none => false
  | .const c _ => numeric c
  | .un (.mov _) => false
  | .selectT c => decide (c ≠ .v128)
  | .other _ _ => false
  | _ => true

/-- all operators that can be reached are supported -/
def supported (K : FnCtx) : WSeq → Bool
  | .done => true
  | .op o k => supportedOp K o && (isTerm o || supported K k)
  | .block _ b k | .loop _ b k | .ite _ b k => supported K b && supported K k
  | .itee _ t e k => supported K t && supported K e && supported K k

end Verif.Spec
