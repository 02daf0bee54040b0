import Verif.Model.Compile
import Verif.Model.Runtime
/-
The WebAssembly side of the compiler properties: structured function bodies, their validation, and their meaning as
stack code.  Nothing here knows about registers, program counters, labels or pending operands.

The meaning of a single numeric or memory operator is taken from the interpreter's own operator functions (`Op1.eval`,
`Op2.eval`, `Mem.load`, …): whether those are right is the subject of other properties.  What is specified here is
everything the preprocessor is responsible for: which values reach which operator, where its result goes, and which
operator comes next.
-/
namespace Verif.Spec
open Verif.Model

/-- A structured instruction sequence.  `op o k` is the operator `o` followed by `k`; the bracketed forms carry their
bodies and the sequence that follows their `end`. -/
inductive WSeq
  | done
  | op (o : WOp) (k : WSeq)
  | block (bt : BlockTy) (body k : WSeq)
  | loop (bt : BlockTy) (body k : WSeq)
  | ite (bt : BlockTy) (t k : WSeq)
  | itee (bt : BlockTy) (t e k : WSeq)

/-- the operators that open, divide or close a bracket; they may not appear as `WSeq.op` -/
def isBracket : WOp → Bool
  | .block _ | .loop _ | .ite _ | .els | .fin => true
  | _ => false

/-- the operator stream of the binary format -/
def WSeq.flat : WSeq → List WOp
  | .done => []
  | .op o k => o :: k.flat
  | .block bt b k => .block bt :: (b.flat ++ .fin :: k.flat)
  | .loop bt b k => .loop bt :: (b.flat ++ .fin :: k.flat)
  | .ite bt t k => .ite bt :: (t.flat ++ .fin :: k.flat)
  | .itee bt t e k => .ite bt :: (t.flat ++ .els :: (e.flat ++ .fin :: k.flat))

/-- the stream of a function body ends with an `end` of its own -/
def WSeq.body (w : WSeq) : List WOp := w.flat ++ [.fin]

/-- only non-bracket operators occur as `op` -/
def WSeq.Proper : WSeq → Prop
  | .done => True
  | .op o k => isBracket o = false ∧ k.Proper
  | .block _ b k | .loop _ b k | .ite _ b k => b.Proper ∧ k.Proper
  | .itee _ t e k => t.Proper ∧ e.Proper ∧ k.Proper

/-! ## Validation -/

/-- the local index space: parameters, then the expanded declarations -/
def localTypes (params : List Cls) (locals : List (Nat × Cls)) : List Cls :=
  params ++ locals.flatMap fun p => List.replicate p.1 p.2

/-- numeric classes -/
def numeric : Cls → Bool
  | .i32 | .i64 | .f32 | .f64 => true
  | _ => false

/-- pop the given types (leftmost deepest); type stacks have their top first -/
def popTys (want : List Cls) (ts : List Cls) : Option (List Cls) :=
  if ts.take want.length = want.reverse then some (ts.drop want.length) else none

/-- pop then push -/
def sig (pops pushes : List Cls) (ts : List Cls) : Option (List Cls) :=
  match popTys pops ts with
  | some r => some (pushes.reverse ++ r)
  | none => none

/-- type rule of an operator that falls through -/
def opTy (K : FnCtx) (o : WOp) (ts : List Cls) : Option (List Cls) :=
  match o with
  | .localGet i =>
    match (localTypes K.params K.locals)[i]? with
    | some c => sig [] [c] ts
    | none => none
  | .localSet i =>
    match (localTypes K.params K.locals)[i]? with
    | some c => sig [c] [] ts
    | none => none
  | .localTee i =>
    match (localTypes K.params K.locals)[i]? with
    | some c => sig [c] [c] ts
    | none => none
  | .globalGet g =>
    match K.M.globals[g]? with
    | some c => sig [] [c] ts
    | none => none
  | .globalSet g =>
    match K.M.globals[g]? with
    | some c => sig [c] [] ts
    | none => none
  | .const c _ => sig [] [c] ts
  | .un op => sig [op.src] [op.dst] ts
  | .bin op => sig [op.src, op.src] [op.dst] ts
  | .load op _ => sig [.i32] [op.cls] ts
  | .store op _ => sig [.i32, op.cls] [] ts
  | .memSize => sig [] [.i32] ts
  | .memGrow => sig [.i32] [.i32] ts
  | .memCopy => sig [.i32, .i32, .i32] [] ts
  | .memInit _ => sig [.i32, .i32, .i32] [] ts
  | .memFill => sig [.i32, .i32, .i32] [] ts
  | .dataDrop _ => some ts
  | .select =>
    match ts with
    | .i32 :: a :: b :: r => if a = b ∧ numeric a = true then some (a :: r) else none
    | _ => none
  | .selectT c => sig [c, c, .i32] [c] ts
  | .refNull => sig [] [.ref] ts
  | .refIsNull => sig [.ref] [.i32] ts
  | .tableGet _ => sig [.i32] [.ref] ts
  | .tableSet _ => sig [.i32, .ref] [] ts
  | .tableFill _ => sig [.i32, .ref, .i32] [] ts
  | .drop => match ts with | _ :: r => some r | [] => none
  | .nop => some ts
  | .call f =>
    match K.M.funcs[f]? with
    | some (_, t) => sig t.params t.results ts
    | none => none
  | .callIndirect ty _ =>
    match K.M.types[ty]? with
    | some t => sig (t.params ++ [.i32]) t.results ts
    | none => none
  | .other pops pushes => sig pops pushes ts
  | _ => none

/-- are the label's types on top of the stack -/
def labelOk (L : List (List Cls)) (ts : List Cls) (d : Nat) : Bool :=
  match L[d]? with
  | some lt => (popTys lt ts).isSome
  | none => false

/-- Type of an operator: `none` is invalid, `some none` leaves the following code unreachable.  `L` lists the label
types, innermost first, ending with the function's results. -/
def stepTy (K : FnCtx) (L : List (List Cls)) (o : WOp) (ts : List Cls) : Option (Option (List Cls)) :=
  match o with
  | .unreachable => some none
  | .br d => if labelOk L ts d then some none else none
  | .brTable ds d =>
    match popTys [.i32] ts with
    | some r =>
      if (d :: ds).all fun k => labelOk L r k && decide ((L[k]?).map List.length = (L[d]?).map List.length) then
        some none else none
    | none => none
  | .ret => if (popTys K.results ts).isSome then some none else none
  | .brIf d =>
    match popTys [.i32] ts with
    | some r => if labelOk L r d then some (some r) else none
    | none => none
  | o => (opTy K o ts).map some

/-- the end of a block delivers exactly its results, or is unreachable -/
def fits (τ : Option (List Cls)) (results : List Cls) : Bool :=
  match τ with
  | none => true
  | some ts => decide (ts = results.reverse)

/-- Validation of a sequence whose operand stack has the types `ts`.  Unreachable code is not inspected, so everything a
WebAssembly validator accepts is accepted. -/
def check (K : FnCtx) (L : List (List Cls)) : WSeq → List Cls → Option (Option (List Cls))
  | .done, ts => some (some ts)
  | .op o k, ts =>
    match stepTy K L o ts with
    | none => none
    | some none => some none
    | some (some ts') => check K L k ts'
  | .block bt b k, ts =>
    match popTys (K.M.blockParams bt) ts, check K (K.M.blockResults bt :: L) b (K.M.blockParams bt).reverse with
    | some r, some τ => if fits τ (K.M.blockResults bt) then check K L k ((K.M.blockResults bt).reverse ++ r) else none
    | _, _ => none
  | .loop bt b k, ts =>
    match popTys (K.M.blockParams bt) ts, check K (K.M.blockParams bt :: L) b (K.M.blockParams bt).reverse with
    | some r, some τ => if fits τ (K.M.blockResults bt) then check K L k ((K.M.blockResults bt).reverse ++ r) else none
    | _, _ => none
  | .ite bt t k, ts =>
    match popTys (K.M.blockParams bt ++ [.i32]) ts, check K (K.M.blockResults bt :: L) t (K.M.blockParams bt).reverse with
    | some r, some τ =>
      if fits τ (K.M.blockResults bt) ∧ K.M.blockParams bt = K.M.blockResults bt then
        check K L k ((K.M.blockResults bt).reverse ++ r) else none
    | _, _ => none
  | .itee bt t e k, ts =>
    match popTys (K.M.blockParams bt ++ [.i32]) ts, check K (K.M.blockResults bt :: L) t (K.M.blockParams bt).reverse,
        check K (K.M.blockResults bt :: L) e (K.M.blockParams bt).reverse with
    | some r, some τ, some τ' =>
      if fits τ (K.M.blockResults bt) ∧ fits τ' (K.M.blockResults bt) then
        check K L k ((K.M.blockResults bt).reverse ++ r) else none
    | _, _, _ => none

/-- a valid function body -/
structure ValidFn (K : FnCtx) (w : WSeq) : Prop where
  proper : w.Proper
  typed : ∃ τ, check K [K.results] w [] = some τ ∧ fits τ K.results = true

/-! ## Meaning -/

/-- the part of the store a function body can change -/
structure Store where
  mem : Option Mem
  globals : List Global
  tables : List (List Ref)
  datas : List (List Byte)

/-- locals of the running function, store, outside world -/
structure SSt (W : Type) where
  locals : List Val
  st : Store
  world : W

/-- abnormal ends -/
inductive Fail | trap (e : Err) | panic | ub
  deriving DecidableEq

/-- a source function -/
inductive SFunc
  | wasm (type : FuncType) (locals : List (Nat × Cls)) (body : WSeq)
  | wasi (type : FuncType) (id : Nat)

/-- type of a source function -/
def SFunc.type : SFunc → FuncType
  | .wasm t _ _ => t
  | .wasi t _ => t

/-- a source module with its host -/
structure SProg where
  H : FloatHost
  types : List FuncType
  funcs : List SFunc

/-- How a sequence ends.  Operand stacks have their top first.  `fail`: with the store and the outside world as the failing
operator leaves them (operators that fail change nothing).  `stuck`: the code is invalid; `timeout`: out of fuel;
`gap`: an indirect call of a host function, which is left open here. -/
inductive SOut (W : Type)
  | norm (vs : List Val) (s : SSt W)
  | br (d : Nat) (vs : List Val) (s : SSt W)
  | ret (vs : List Val) (s : SSt W)
  | fail (f : Fail) (st : Store) (w : W)
  | stuck
  | timeout
  | gap

/-- how a call ends: results in declared order; a failing call leaves what was done until then -/
inductive COut (W : Type)
  | ok (vs : List Val) (st : Store) (w : W)
  | fail (f : Fail) (st : Store) (w : W)
  | stuck
  | timeout
  | gap

/-- pop a value of a class -/
def popV (c : Cls) : List Val → Option (c.Carrier × List Val)
  | v :: r => if h : v.cls = c then some (h ▸ v.v, r) else none
  | [] => none

/-- pop values of the given types; the values come in the order of the types -/
def popVs (ts : List Cls) (stk : List Val) : Option (List Val × List Val) :=
  if (stk.take ts.length).map (·.cls) = ts.reverse then some ((stk.take ts.length).reverse, stk.drop ts.length) else none

variable {W : Type}

/-- push the outcome of an operator -/
def push (c : Cls) (x : Res c.Carrier) (r : List Val) (s : SSt W) : Res (List Val × SSt W) :=
  x.bind fun v => .ok (⟨c, v⟩ :: r, s)

/-- change the memory; with no memory (an invalid module) the outcome is `e` -/
def onMem (s : SSt W) (e : Res (List Val × SSt W)) (f : Mem → Res (List Val × SSt W)) : Res (List Val × SSt W) :=
  match s.st.mem with
  | some m => f m
  | none => e

/-- replace the memory -/
def SSt.setMem (s : SSt W) (m : Mem) : SSt W := { s with st := { s.st with mem := some m } }

/-- three i32 operands, first pushed first -/
def pop3 (stk : List Val) : Option ((BitVec 32 × BitVec 32 × BitVec 32) × List Val) :=
  match popV .i32 stk with
  | none => none
  | some (n, r) =>
    match popV .i32 r with
    | none => none
    | some (b, r) =>
      match popV .i32 r with
      | none => none
      | some (a, r) => some ((a, b, n), r)

/-- Meaning of the operators that neither branch nor call; `none` is stuck. -/
def opSem (H : FloatHost) (o : WOp) (stk : List Val) (s : SSt W) : Option (Res (List Val × SSt W)) :=
  match o with
  | .localGet i =>
    match s.locals[i]? with
    | some v => some (.ok (v :: stk, s))
    | none => none
  | .localSet i =>
    match stk with
    | v :: r => some (.ok (r, { s with locals := s.locals.set i v }))
    | [] => none
  | .localTee i =>
    match stk with
    | v :: r => some (.ok (v :: r, { s with locals := s.locals.set i v }))
    | [] => none
  | .globalGet g =>
    match s.st.globals[g]? with
    | some gl => some (.ok (gl.value :: stk, s))
    | none => none
  | .globalSet g =>
    match stk, s.st.globals[g]? with
    | v :: r, some gl => some (.ok (r, { s with st := { s.st with globals := s.st.globals.set g { gl with value := v } } }))
    | _, _ => none
  | .const c v => some (.ok (⟨c, v⟩ :: stk, s))
  | .un op =>
    match popV op.src stk with
    | some (a, r) => some (push op.dst (op.eval H a) r s)
    | none => none
  | .bin op =>
    match popV op.src stk with
    | some (b, r) =>
      match popV op.src r with
      | some (a, r) => some (push op.dst (op.eval H a b) r s)
      | none => none
    | none => none
  | .load op off =>
    match popV .i32 stk with
    | some (p, r) => some (onMem s .ub fun m => push op.cls (m.load op p off) r s)
    | none => none
  | .store op off =>
    match popV op.cls stk with
    | some (v, r) =>
      match popV .i32 r with
      | some (p, r) => some (onMem s .ub fun m => (m.store op p off v).bind fun m => .ok (r, s.setMem m))
      | none => none
    | none => none
  | .memSize => some (onMem s (.trap .memoryNotFound) fun m => push .i32 (.ok m.size) stk s)
  | .memGrow =>
    match popV .i32 stk with
    | some (d, r) =>
      some (onMem s (.trap .memoryNotFound) fun m => (m.growInstr d).bind fun x => push .i32 (.ok x.1) r (s.setMem x.2))
    | none => none
  | .memCopy =>
    match pop3 stk with
    | some (x, r) =>
      some (onMem s (.trap .memoryNotFound) fun m => (m.copy x.1 x.2.1 x.2.2).bind fun m => .ok (r, s.setMem m))
    | none => none
  | .memInit k =>
    match pop3 stk with
    | some (x, r) =>
      some (onMem s (.trap .memoryNotFound) fun m =>
        match s.st.datas[k]? with
        | none => .trap .invalidDataSegmentIndex
        | some seg => (m.initInstr seg x.1 x.2.1 x.2.2).bind fun m => .ok (r, s.setMem m))
    | none => none
  | .memFill =>
    match pop3 stk with
    | some (x, r) =>
      some (onMem s (.trap .memoryNotFound) fun m => (m.fill x.1 x.2.1 x.2.2).bind fun m => .ok (r, s.setMem m))
    | none => none
  | .dataDrop k => some (.ok (stk, { s with st := { s.st with datas := s.st.datas.set k [] } }))
  | .select | .selectT _ =>
    match popV .i32 stk with
    | some (c, v2 :: v1 :: r) => some (.ok ((if c ≠ (0 : BitVec 32) then v1 else v2) :: r, s))
    | _ => none
  | .refNull => some (.ok (⟨.ref, Ref.null⟩ :: stk, s))
  | .refIsNull =>
    match popV .ref stk with
    | some (x, r) => some (.ok (⟨.i32, if x = Ref.null then (1 : BitVec 32) else (0 : BitVec 32)⟩ :: r, s))
    | none => none
  | .tableGet t =>
    match popV .i32 stk with
    | some (i, r) =>
      match s.st.tables[t]? with
      | none => some (.trap .tableNotFound)
      | some tb =>
        match tb[BitVec.toNat (w := 32) i]? with
        | none => some .panic
        | some x => some (.ok (⟨.ref, x⟩ :: r, s))
    | none => none
  | .tableSet t =>
    match popV .ref stk with
    | some (x, r) =>
      match popV .i32 r with
      | some (i, r) =>
        match s.st.tables[t]? with
        | none => some (.trap .tableNotFound)
        | some tb =>
          if BitVec.toNat (w := 32) i < tb.length then
            some (.ok (r, { s with st := { s.st with
              tables := s.st.tables.set t (tb.set (BitVec.toNat (w := 32) i) x) } }))
          else some .panic
      | none => none
    | none => none
  | .tableFill t =>
    match popV .i32 stk with
    | some (n, r) =>
      match popV .ref r with
      | some (x, r) =>
        match popV .i32 r with
        | some (i, r) =>
          match s.st.tables[t]? with
          | none => some (.trap .tableNotFound)
          | some tb =>
            some ((fillTable tb i x n).bind fun tb =>
              .ok (r, { s with st := { s.st with tables := s.st.tables.set t tb } }))
        | none => none
      | none => none
    | none => none
  | .drop => match stk with | _ :: r => some (.ok (r, s)) | [] => none
  | .nop => some (.ok (stk, s))
  | .unreachable => some .panic
  | _ => none

/-- continue with a fallen-through operator; `s` is the state before it -/
def SOut.cont (s : SSt W) (x : Option (Res (List Val × SSt W))) (k : List Val → SSt W → SOut W) : SOut W :=
  match x with
  | none => .stuck
  | some (.ok (vs, s)) => k vs s
  | some (.trap e) => .fail (.trap e) s.st s.world
  | some .panic => .fail .panic s.st s.world
  | some .ub => .fail .ub s.st s.world

/-- the `end` of a block (or `if`) with `n` results: `rest` is the stack below the block -/
def SOut.land (n : Nat) (rest : List Val) (k : List Val → SSt W → SOut W) : SOut W → SOut W
  | .norm vs s => k (vs ++ rest) s
  | .br 0 vs s => k (vs.take n ++ rest) s
  | .br (d + 1) vs s => .br d vs s
  | o => o

/-- the `end` of a loop; a branch to it goes back to `again` with the `n` parameters -/
def SOut.turn (n : Nat) (rest : List Val) (k again : List Val → SSt W → SOut W) : SOut W → SOut W
  | .norm vs s => k (vs ++ rest) s
  | .br 0 vs s => again (vs.take n ++ rest) s
  | .br (d + 1) vs s => .br d vs s
  | o => o

/-- continue after a call; results are pushed in order -/
def COut.cont (x : COut W) (locals : List Val) (r : List Val) (k : List Val → SSt W → SOut W) : SOut W :=
  match x with
  | .ok vs st w => k (vs.reverse ++ r) ⟨locals, st, w⟩
  | .fail f st w => .fail f st w
  | .stuck => .stuck
  | .timeout => .timeout
  | .gap => .gap

/-- label chosen by `br_table` -/
def pick (ds : List Nat) (d : Nat) (i : BitVec 32) : Nat := (ds[i.toNat]?).getD d

/-- `call` of function `f` -/
def callTo (Q : SProg) (call : SFunc → List Val → Store → W → COut W) (f : Nat) (stk : List Val) (s : SSt W)
    (k : List Val → SSt W → SOut W) : SOut W :=
  match Q.funcs[f]? with
  | none => .stuck
  | some F =>
    match popVs F.type.params stk with
    | none => .stuck
    | some (args, r) => (call F args s.st s.world).cont s.locals r k

/-- `call_indirect`: the table entry must exist, be a function and have the expected type -/
def callThrough (Q : SProg) (call : SFunc → List Val → Store → W → COut W) (ty t : Nat) (stk : List Val) (s : SSt W)
    (k : List Val → SSt W → SOut W) : SOut W :=
  match popV .i32 stk with
  | none => .stuck
  | some (i, r) =>
    match s.st.tables[t]? with
    | none => .fail (.trap .tableNotFound) s.st s.world
    | some tb =>
      match tb[BitVec.toNat (w := 32) i]? with
      | some (.func f) =>
        match Q.funcs[f]?, Q.types[ty]? with
        | some F, some want =>
          if F.type = want then
            match F, popVs want.params r with
            | .wasi _ _, _ => .gap
            | _, none => .stuck
            | F, some (args, r) => (call F args s.st s.world).cont s.locals r k
          else .fail (.trap .indirectCallTypeMismatch) s.st s.world
        | _, _ => .fail .panic s.st s.world
      | _ => .fail .panic s.st s.world

/-- Meaning of a sequence.  `again` runs a loop another time, `call` runs a function. -/
def ev (Q : SProg) (M : MInfo) (again : WSeq → List Val → SSt W → SOut W)
    (call : SFunc → List Val → Store → W → COut W) : WSeq → List Val → SSt W → SOut W
  | .done, stk, s => .norm stk s
  | .op o k, stk, s =>
    match o with
    | .br d => .br d stk s
    | .brIf d =>
      match popV .i32 stk with
      | none => .stuck
      | some (c, r) => if c = (0 : BitVec 32) then ev Q M again call k r s else .br d r s
    | .brTable ds d =>
      match popV .i32 stk with
      | none => .stuck
      | some (i, r) => .br (pick ds d i) r s
    | .ret => .ret stk s
    | .call f => callTo Q call f stk s (ev Q M again call k)
    | .callIndirect ty t => callThrough Q call ty t stk s (ev Q M again call k)
    | o => SOut.cont s (opSem Q.H o stk s) (ev Q M again call k)
  | .block bt b k, stk, s =>
    match popVs (M.blockParams bt) stk with
    | none => .stuck
    | some (ps, r) =>
      (ev Q M again call b ps.reverse s).land (M.blockResults bt).length r (ev Q M again call k)
  | .loop bt b k, stk, s =>
    match popVs (M.blockParams bt) stk with
    | none => .stuck
    | some (ps, r) =>
      (ev Q M again call b ps.reverse s).turn (M.blockParams bt).length r (ev Q M again call k) (again (.loop bt b k))
  | .ite bt t k, stk, s =>
    match popV .i32 stk with
    | none => .stuck
    | some (c, stk) =>
      match popVs (M.blockParams bt) stk with
      | none => .stuck
      | some (ps, r) =>
        (if c ≠ (0 : BitVec 32) then ev Q M again call t ps.reverse s else .norm ps.reverse s).land
          (M.blockResults bt).length r (ev Q M again call k)
  | .itee bt t e k, stk, s =>
    match popV .i32 stk with
    | none => .stuck
    | some (c, stk) =>
      match popVs (M.blockParams bt) stk with
      | none => .stuck
      | some (ps, r) =>
        (if c ≠ (0 : BitVec 32) then ev Q M again call t ps.reverse s else ev Q M again call e ps.reverse s).land
          (M.blockResults bt).length r (ev Q M again call k)

/-- results of a finished function body of `n` results, in declared order -/
def finishCall (n : Nat) : SOut W → COut W
  | .norm vs s => .ok vs.reverse s.st s.world
  | .br _ vs s => .ok (vs.take n).reverse s.st s.world
  | .ret vs s => .ok (vs.take n).reverse s.st s.world
  | .fail f st w => .fail f st w
  | .stuck => .stuck
  | .timeout => .timeout
  | .gap => .gap

/-- result of a host function, which must match the import's declared type -/
def hostResult (results : List Cls) (mem : Mem) (w : W) (st : Store) : Option (Option Val) → COut W
  | none => .fail (.trap .executionFailed) { st with mem := some mem } w
  | some (some v) => if [v.cls] = results then .ok [v] { st with mem := some mem } w else .stuck
  | some none => if results = [] then .ok [] { st with mem := some mem } w else .stuck

/-- a call, given how to run a function body -/
def callWith (S : Wasi) (runBody : WSeq → List Val → SSt S.W → SOut S.W) (F : SFunc) (args : List Val) (st : Store)
    (w : S.W) : COut S.W :=
  match F with
  | .wasm t ls b => finishCall t.results.length (runBody b [] ⟨args ++ declLocals ls, st, w⟩)
  | .wasi t id =>
    match st.mem with
    | none => .fail (.trap .executionFailed) st w
    | some m =>
      match S.call id args m w with
      | .ok r => hostResult t.results r.2.1 r.2.2 st r.1
      | .trap e => .fail (.trap e) st w
      | .panic => .fail .panic st w
      | .ub => .fail .ub st w

/-- Meaning with fuel: loop turns and calls cost one unit. -/
def run (S : Wasi) (Q : SProg) (M : MInfo) : Nat → WSeq → List Val → SSt S.W → SOut S.W
  | 0 => fun _ _ _ => .timeout
  | n + 1 => ev Q M (run S Q M n) (callWith S (run S Q M n))

/-- a call of function `F` of the module, with fuel -/
def invoke (S : Wasi) (Q : SProg) (M : MInfo) (n : Nat) (F : SFunc) (args : List Val) (st : Store) (w : S.W) : COut S.W :=
  callWith S (run S Q M n) F args st w

end Verif.Spec
