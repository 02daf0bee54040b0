import Verif.Spec.Source
/-
The function bodies the preprocessor translates faithfully.  What is excluded here is excluded because the translation is
wrong for it (see the `_violated` theorems), not for convenience.  Code that cannot be reached is not restricted.
-/
namespace Verif.Spec
open Verif.Model

/-- operators after which the code is unreachable -/
def isTerm : WOp → Bool
  | .unreachable | .br _ | .brTable _ _ | .ret => true
  | _ => false

/-- class of a constant or local -/
def leafCls (K : FnCtx) : WOp → Option Cls
  | .const c _ => some c
  | .localGet i => (localTypes K.params K.locals)[i]?
  | _ => none

/-- unary operators that may take a constant or local directly: counting, tests for zero, sign and rounding operations -/
def leafUn : Op1 → Bool
  | .int _ .clz | .int _ .ctz | .int _ .popcnt => true
  | .eqz _ | .abs _ | .neg _ | .round _ _ => true
  | _ => false

/-- is the next operator a store -/
def storesNext : WSeq → Bool
  | .op (.store _ _) _ => true
  | _ => false

/-- `leaf; leaf'; unop` with `leaf` of the class of `unop`, not followed by a store at `leaf`: then the consumer of `leaf` is
given the wrong operands (`straight_line_correct_violated`) -/
def crossed (K : FnCtx) : WSeq → Bool
  | .op a (.op b (.op (.un op) k)) =>
    leafUn op && decide (leafCls K a = some op.src) && (leafCls K b).isSome && !storesNext k
  | _ => false

/-- no such triple -/
def uncrossed (K : FnCtx) : WSeq → Bool
  | .done => true
  | .op o k => !crossed K (.op o k) && (isTerm o || uncrossed K k)
  | .block _ b k | .loop _ b k | .ite _ b k => uncrossed K b && uncrossed K k
  | .itee _ t e k => uncrossed K t && uncrossed K e && uncrossed K k

/-- a label: types of the values a branch to it carries, is it a loop's, and the types of the operands that lie between the
bracket's own operand stack and that of the current sequence (top first) -/
structure Target where
  types : List Cls
  loop : Bool
  below : List Cls

/-- seen from a bracket opened over more operands, of types `r` -/
def Target.under (r : List Cls) (l : Target) : Target := { l with below := r ++ l.below }

/-- the carried values are all that lies above the bracket's base, so that they need not be moved -/
def Target.inPlace (l : Target) (ts : List Cls) : Bool :=
  l.types.isEmpty || decide (l.below.length + ts.length = l.types.length)

/-- types of all operands of the function below the current sequence: the last label is the function's own -/
def beneath (N : List Target) : List Cls :=
  match N.getLast? with
  | some l => l.below
  | none => []

/-- Values carried out of a block, of these types, over operands of types `r`.  Each must be followed by values of its own type
only (`branch_results_violated`), or be the first of its type in the function: no operand below it and no declared local is of
that type. -/
def carried (K : FnCtx) : List Cls → List Cls → Bool
  | [], _ => true
  | c :: cs, r =>
    (cs.all (fun d => decide (d = c)) || (!r.contains c && K.locals.all fun l => decide (l.1 = 0 ∨ l.2 ≠ c))) && carried K cs (c :: r)

/-- A branch with operands `ts`: values carried to a loop must be in place, because they are not moved
(`loop_parameters_violated`). -/
def Target.reached (K : FnCtx) (N : List Target) (l : Target) (ts : List Cls) : Bool :=
  if l.loop then l.inPlace ts else carried K l.types (ts.drop l.types.length ++ beneath N)

/-- `br` and `br_if`: the function itself is branched to only if it has no results
(`function_label_branch_returns_violated`) -/
def branchOk (K : FnCtx) (N : List Target) (d : Nat) (ts : List Cls) : Bool :=
  match N[d]? with
  | some l => l.reached K N ts && (decide (d + 1 < N.length) || l.types.isEmpty)
  | none => false

/-- an entry of a `br_table`: not the function itself (`function_label_br_table_violated`); if the default entry is a loop,
nothing is moved for any entry -/
def entryOk (K : FnCtx) (N : List Target) (d k : Nat) (ts : List Cls) : Bool :=
  decide (k + 1 < N.length) &&
  match N[k]?, N[d]? with
  | some l, some m => l.reached K N ts && (!m.loop || l.inPlace ts)
  | _, _ => false

/-- Restrictions on single operators; `ts` are the operand types before it.  `select t` at numeric types
(`select_on_references_violated`).  Calls return no vectors; host functions at most one result.
Operators the preprocessor does not know are rejected by it (`supported`). -/
def plainOp (K : FnCtx) (N : List Target) (ts : List Cls) : WOp → Bool
  | .br d => branchOk K N d ts
  | .brIf d => branchOk K N d ts.tail
  | .brTable ds d => (d :: ds).all fun k => entryOk K N d k ts.tail
  | .selectT c => numeric c
  | .call f => match K.M.funcs[f]? with
    | some (some _, t) => decide (t.results.length ≤ 1) && t.results.all fun c => decide (c ≠ .v128)
    | some (none, t) => t.results.all fun c => decide (c ≠ .v128)
    | none => false
  | .callIndirect ty _ => match K.M.types[ty]? with
    | some t => t.results.all fun c => decide (c ≠ .v128)
    | none => false
  | .other _ _ => false
  | _ => true

/-- the restrictions on all reachable operators of a sequence with operand types `ts` -/
def plain (K : FnCtx) (N : List Target) : WSeq → List Cls → Bool
  | .done, _ => true
  | .op o k, ts =>
    plainOp K N ts o &&
    match stepTy K (N.map (·.types)) o ts with
    | some (some ts') => plain K N k ts'
    | _ => true
  | .block bt b k, ts =>
    let r := ts.drop (K.M.blockParams bt).length
    plain K (⟨K.M.blockResults bt, false, []⟩ :: N.map (·.under r)) b (K.M.blockParams bt).reverse &&
      plain K N k ((K.M.blockResults bt).reverse ++ r)
  | .loop bt b k, ts =>
    let r := ts.drop (K.M.blockParams bt).length
    plain K (⟨K.M.blockParams bt, true, []⟩ :: N.map (·.under r)) b (K.M.blockParams bt).reverse &&
      plain K N k ((K.M.blockResults bt).reverse ++ r)
  | .ite bt b k, ts =>
    let r := ts.drop ((K.M.blockParams bt).length + 1)
    plain K (⟨K.M.blockResults bt, false, []⟩ :: N.map (·.under r)) b (K.M.blockParams bt).reverse &&
      plain K N k ((K.M.blockResults bt).reverse ++ r)
  | .itee bt t e k, ts =>
    let r := ts.drop ((K.M.blockParams bt).length + 1)
    plain K (⟨K.M.blockResults bt, false, []⟩ :: N.map (·.under r)) t (K.M.blockParams bt).reverse &&
      plain K (⟨K.M.blockResults bt, false, []⟩ :: N.map (·.under r)) e (K.M.blockParams bt).reverse &&
      plain K N k ((K.M.blockResults bt).reverse ++ r)

/-- A function body that is valid and translated faithfully -/
structure Faithful (K : FnCtx) (w : WSeq) : Prop where
  valid : ValidFn K w
  uncrossed : uncrossed K w = true
  plain : plain K [⟨K.results, false, []⟩] w [] = true
  locals : (localTypes K.params K.locals).length ≤ 65536

end Verif.Spec
