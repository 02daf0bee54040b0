import Verif.Spec.Source
/-
What of a function body's validity the preprocessor looks at (C67).
-/
namespace Verif.Spec
open Verif.Model

/-- number of blocks an operator opens -/
def opens1 : WOp → Nat
  | .block _ | .loop _ | .ite _ => 1
  | _ => 0

/-- number of blocks an operator closes -/
def closes1 : WOp → Nat
  | .fin => 1
  | _ => 0

/-- blocks opened in a stretch of a body -/
def opened (ops : List WOp) : Nat := (ops.map opens1).sum
/-- `end`s in a stretch of a body -/
def closed (ops : List WOp) : Nat := (ops.map closes1).sum

/-- operators after which the code cannot be reached -/
def leaves : WOp → Bool
  | .br _ | .brTable _ _ | .ret | .unreachable => true
  | _ => false

/-- Operators of the interpreter's repertoire: all but vector locals, non-numeric constants and globals, the operators it
has no arm for, and `local.tee`, `select` and `call_indirect` (which look at the operand stack).  Local and global indices
may be out of range. -/
def repOp (K : FnCtx) : WOp → Bool
  | .localGet i | .localSet i => decide ((localTypes K.params K.locals)[i]? ≠ some .v128)
  | .globalGet g | .globalSet g => match K.M.globals[g]? with
    | some c => numeric c
    | none => true
  | .const c _ => numeric c
  | .un (.mov _) => false
  | .selectT c => decide (c ≠ .v128)
  | .localTee _ | .select | .callIndirect _ _ | .other _ _ => false
  | _ => true

/-- a body of such operators -/
def repSeq (K : FnCtx) : WSeq → Bool
  | .done => true
  | .op o k => repOp K o && repSeq K k
  | .block _ b k | .loop _ b k | .ite _ b k => repSeq K b && repSeq K k
  | .itee _ t e k => repSeq K t && repSeq K e && repSeq K k

end Verif.Spec
