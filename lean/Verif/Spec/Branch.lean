import Verif.Model.VM
/-
Where branches should lead, said on the bracket structure of a code array: `block`/`loop`/`if` open, `end` closes, the
jump emitted for `else` divides.
-/
namespace Verif.Spec
open Verif.Model

/-- positions of the brackets open before position `p`, innermost first -/
def enclosing (code : List Instr) : Nat → List Nat
  | 0 => []
  | p + 1 =>
    match code[p]? with
    | some (.block _) => p :: enclosing code p
    | some (.ite _ _ _) => p :: enclosing code p
    | some (.fin _ _) => (enclosing code p).tail
    | _ => enclosing code p

/-- the `end` at `e` closes the bracket opened at `s` -/
def Closes (code : List Instr) (s e : Nat) : Prop :=
  (∃ a b, code[e]? = some (.fin a b)) ∧ (enclosing code e).head? = some s

/-- the `else` of the `if` at `s` is at `q` -/
def Divides (code : List Instr) (s q : Nat) : Prop :=
  (∃ t, code[q]? = some (.jump t)) ∧ (enclosing code q).head? = some s

/-- WebAssembly: a branch at `p` to label `d` continues at the header of a loop, behind the `end` of a block or `if`, and
at the end of the function if `d` is the function's own label. -/
def Leads (code : List Instr) (p d t : Nat) : Prop :=
  match (enclosing code p)[d]? with
  | some s => (code[s]? = some (.block true) ∧ t = s) ∨ (code[s]? ≠ some (.block true) ∧ ∃ e, Closes code s e ∧ t = e + 1)
  | none => t = code.length

/-- The branches of a body are right.  The depth of a `br_table` entry that designates the function's own label is a known
exception: its target is then 0. -/
structure Routed (body : List Instr) : Prop where
  /-- every bracket is closed -/
  stop : enclosing body body.length = []
  br : ∀ p d t s r, body[p]? = some (.br d t s r) → Leads body p d t
  brIf : ∀ p d t c s r, body[p]? = some (.brIf d t c s r) → Leads body p d t
  table : ∀ p ts df i s, body[p]? = some (.brTable ts df i s) → ∀ x ∈ df :: ts,
    if x.1 < (enclosing body p).length then Leads body p x.1 x.2.1 else x.2.1 = 0
  /-- a false condition continues in the `else` arm, if there is one, and behind the `end` otherwise -/
  ite : ∀ p c t h, body[p]? = some (.ite c t h) → ∃ e, Closes body p e ∧
    ((∃ q, Divides body p q ∧ t = q + 1 ∧ h = true) ∨ ((∀ q, ¬ Divides body p q) ∧ t = e + 1 ∧ h = false))
  /-- the end of the `then` arm continues behind the `end` -/
  jump : ∀ q t, body[q]? = some (.jump t) → ∃ s e, Divides body s q ∧ Closes body s e ∧ t = e + 1

/-- the label of a bracket: loop or not, and the position remembered when it was entered -/
def labelOf (code : List Instr) (s : Nat) : Bool × Nat :=
  match code[s]? with
  | some (.block l) => (l, s + 1)
  | some (.ite _ t _) => (false, t)
  | _ => (false, 0)

/-- the label stack is exactly that of the brackets around `p`, followed by the function's own label -/
def LabelsAt (code : List Instr) (p : Nat) (ls : List Label) : Prop :=
  ls.map (fun l => (l.isLoop, l.returnIp)) = (enclosing code p).map (labelOf code) ++ [(false, 0)]

end Verif.Spec
