import Verif.Model.VM
/-
Model of the preprocessor, src/parser.rs: `decode_processed_instrs_and_fixups` (phase 1), `preprocess_instructions`
(phases 2 and 3), `decode_code_section`.  Input is the operator sequence `wasmparser` delivers; its binary decoding is
not modelled.
-/
namespace Verif.Model
open Verif.Spec (LoadOp StoreOp IUnOp)

/-- `wasmparser::BlockType` -/
inductive BlockTy | empty | val (c : Cls) | func (i : Nat)
  deriving DecidableEq, Repr

/-- `wasmparser::Operator`, the supported ones.  `un (.mov _)` is not an operator and is rejected by the model. -/
inductive WOp
  | localGet (i : Nat) | localSet (i : Nat) | localTee (i : Nat)
  | globalGet (g : Nat) | globalSet (g : Nat)
  | const (c : Cls) (v : c.Carrier)
  | un (op : Op1) | bin (op : Op2)
  | load (op : LoadOp) (offset : BitVec 64) | store (op : StoreOp) (offset : BitVec 64)
  | memSize | memGrow | memCopy | memInit (d : Nat) | memFill | dataDrop (d : Nat)
  | select | selectT (c : Cls)
  | refNull | refIsNull | tableGet (t : Nat) | tableSet (t : Nat) | tableFill (t : Nat)
  | drop | nop | unreachable
  | block (bt : BlockTy) | loop (bt : BlockTy) | ite (bt : BlockTy) | els | fin
  | br (d : Nat) | brIf (d : Nat) | brTable (ds : List Nat) (d : Nat) | ret
  | call (f : Nat) | callIndirect (ty tbl : Nat)
  /-- an operator without an arm in the preprocessor (`table.size`, `table.grow`, `table.copy`, `table.init`, `elem.drop`,
  `ref.func`, the vector operators, …) that takes and leaves values of these classes, leftmost deepest -/
  | other (pops pushes : List Cls)

/-- what the preprocessor looks up in the module: types, global types (imported ones first), and for every function of
the index space whether it is a WASI import (and which) together with its type -/
structure MInfo where
  types : List FuncType
  globals : List Cls
  funcs : List (Option Nat × FuncType)

/-- the function being compiled -/
structure FnCtx where
  M : MInfo
  params : List Cls
  locals : List (Nat × Cls)
  results : List Cls

/-- loop of `get_local_type` over the declared locals (parser.rs:1779-1788); not found: I32 -/
def declType : List (Nat × Cls) → Nat → Cls
  | [], _ => .i32
  | (n, c) :: ls, i => if i < n then c else declType ls (i - n)

/-- parser.rs:1764-1789 `get_local_type` -/
def getLocalType (params : List Cls) (locals : List (Nat × Cls)) (i : Nat) : Cls :=
  match params[i]? with
  | some c => c
  | none => declType locals (i - params.length)

/-- `get_local_type` in a function -/
def FnCtx.localType (K : FnCtx) (i : Nat) : Cls := getLocalType K.params K.locals i

/-- parser.rs:1794-1810 `get_global_type` -/
def MInfo.globalType (M : MInfo) (g : Nat) : Cls := (M.globals[g]?).getD .i32

/-- parser.rs:795-808 `get_block_result_types` -/
def MInfo.blockResults (M : MInfo) : BlockTy → List Cls
  | .empty => []
  | .val c => [c]
  | .func i => match M.types[i]? with | some t => t.results | none => []

/-- parser.rs:811-824 `get_block_param_types` -/
def MInfo.blockParams (M : MInfo) : BlockTy → List Cls
  | .empty => []
  | .val _ => []
  | .func i => match M.types[i]? with | some t => t.params | none => []

/-- type of a callee (parser.rs:5312-5330, 5360-5395); an unknown index has the empty type -/
def MInfo.callee (M : MInfo) (f : Nat) : Option Nat × FuncType := (M.funcs[f]?).getD (none, ⟨[], []⟩)

/-- parser.rs:60-70 `PendingOperand` -/
inductive Pend
  | const (c : Cls) (v : c.Carrier)
  | loc (c : Cls) (i : Nat)

/-- class of a pending operand -/
def Pend.cls : Pend → Cls
  | .const c _ => c
  | .loc c _ => c

/-- as an operand -/
def Pend.opnd : (p : Pend) → Opnd p.cls
  | .const _ v => .const v
  | .loc _ i => .param i

/-- parser.rs:73-140 `take_i32_operand` … `take_f64_operand`; the stack has its top first -/
def take (p : List Pend) (c : Cls) (r : Nat) : Opnd c × List Pend :=
  match p with
  | x :: rest => if h : x.cls = c then (h ▸ x.opnd, rest) else (.reg r, p)
  | [] => (.reg r, [])

/-- unary operators among the foldable consumers (the sign extensions are not listed), parser.rs:255-292, 488-582 -/
def foldUn : Op1 → Bool
  | .int _ .clz | .int _ .ctz | .int _ .popcnt => true
  | .eqz _ | .abs _ | .neg _ | .round _ _ => true
  | _ => false

/-- parser.rs:255-292, 466-582 `is_i32_foldable_consumer` … `is_f64_foldable_consumer` -/
def consumes (c : Cls) : WOp → Bool
  | .un op => foldUn op && decide (op.src = c)
  | .bin op => decide (op.src = c)
  | _ => false

/-- second arm of `can_fold_*`: constant of the class, or any `local.get` -/
def producerFor (c : Cls) : WOp → Bool
  | .const d _ => decide (d = c)
  | .localGet _ => true
  | _ => false

/-- parser.rs:142-250 `can_fold_i32` … `can_fold_f64` -/
def canFold (c : Cls) : List WOp → Bool
  | [] => false
  | u :: rest =>
    if consumes c u then true
    else if producerFor c u then
      match rest with
      | w :: _ => consumes c w
      | [] => false
    else false

/-- parser.rs:296-331 `can_fold_for_load` -/
def canFoldLoad : List WOp → Bool
  | .load _ _ :: _ => true
  | _ => false

/-- parser.rs:335-385 `can_fold_for_store` -/
def canFoldStore : List WOp → Bool
  | .const _ _ :: .store _ _ :: _ => true
  | .localGet _ :: .store _ _ :: _ => true
  | _ => false

/-- the folding test of `local.get` and constants of class `c` (parser.rs:1946-2035, 2329-2333, 3279, 4094, 4619):
addresses are folded for i32 only -/
def canFoldOperand (c : Cls) (rest : List WOp) : Bool :=
  match c with
  | .i32 => canFold .i32 rest || canFoldLoad rest || canFoldStore rest
  | .i64 => canFold .i64 rest
  | .f32 => canFold .f32 rest
  | .f64 => canFold .f64 rest
  | .ref => false
  | .v128 => false

/-- `as u16` -/
def u16 (i : Nat) : Nat := i % 65536

/-- parser.rs:387-463 `try_fold_dst_*` -/
def foldDst (K : FnCtx) (c : Cls) : List WOp → Option Nat
  | .localSet i :: _ => if K.localType i = c then some (u16 i) else none
  | _ => none

/-- parser.rs:591-601 `ControlBlockInfo` (`param_regs` is always empty) -/
structure Ctl where
  bt : BlockTy
  isLoop : Bool
  resultRegs : List Reg

/-- local variables of phase 1 (parser.rs:1877-1902).  `current_processed_pc` is `code.length`.  Stacks have their top
first.  The list of fixups is implicit: every emitted `br`, `br_if`, `if`, `else` jump has exactly one, carrying its own
depth (0 for `if` and `else`).  Block types and result registers recorded only for later passes that do not read them
are left out. -/
structure CS where
  code : List Instr
  alloc : Alloc
  pend : List Pend
  ctrl : List Ctl
  saved : List Alloc.Saved
  dead : Nat
  /-- `control_stack_for_map_building`: start pc, is it an `if`, start of the else branch -/
  mapCtl : List (Nat × Bool × Option Nat)
  /-- `block_end_map` -/
  ends : List (Nat × Nat)
  /-- `if_else_map` -/
  elses : List (Nat × Nat)

/-- parser.rs:1885-1902 -/
def CS.init (K : FnCtx) : CS :=
  { code := [], alloc := Alloc.new K.locals, pend := [], ctrl := [], saved := [], dead := 0, mapCtl := [], ends := [],
    elses := [] }

/-- append an instruction -/
def CS.emit (st : CS) (i : Instr) : CS := { st with code := st.code ++ [i] }

/-- push a list of types, collecting the registers -/
def pushAll (a : Alloc) : List Cls → List Reg × Alloc
  | [] => ([], a)
  | c :: cs =>
    let r := a.push c
    let rs := pushAll r.2 cs
    (r.1 :: rs.1, rs.2)

/-- pop a list of types, first one first -/
def popAll (a : Alloc) : List Cls → Alloc
  | [] => a
  | c :: cs => popAll (a.pop c).2 cs

/-- parser.rs:5396-5402: peek and pop, collecting the registers in parameter order; the list is the parameters reversed -/
def popParams (a : Alloc) : List Cls → List Reg × Alloc
  | [] => ([], a)
  | c :: cs =>
    let r := popParams (a.pop c).2 cs
    (r.1 ++ (a.peek c).toList, r.2)

/-- the end of an arm producing one value of class `c` in `a`: `try_fold_dst_*` if `fold`, else a fresh register
(e.g. parser.rs:2356-2384) -/
def finish (K : FnCtx) (st : CS) (a : Alloc) (c : Cls) (fold : Bool) (mk : Dst → Instr) (rest : List WOp) :
    CS × List WOp :=
  match if fold then foldDst K c rest else none with
  | some l => ({ st with alloc := ((a.push c).2.pop c).2 }.emit (mk (.loc l)), rest.tail)
  | none => ({ st with alloc := (a.push c).2 }.emit (mk (.reg (a.push c).1.idx)), rest)

/-- operands that are taken from the pending stack: the I32Reg … F64Reg families; conversions use registers only
(parser.rs:5610-6430) -/
def takesPending : Op1 → Bool
  | .int _ _ | .eqz _ | .abs _ | .neg _ | .round _ _ => true
  | _ => false

/-- arms without destination folding: i64.eqz and the i64 / float comparisons (parser.rs:3919-4092, 4522-4617, 5047-5141) -/
def un_folds : Op1 → Bool
  | .eqz .s64 => false
  | _ => true
/-- see `un_folds` -/
def bin_folds : Op2 → Bool
  | .rel .s64 _ => false
  | .frel _ _ => false
  | _ => true

/-- parser.rs:7310-7375 `compute_branch_regs` -/
def branchRegs (st : CS) (d : Nat) : List Reg × List Reg :=
  match st.ctrl[d]? with
  | none => ([], [])
  | some b =>
    let tgt := if b.isLoop then [] else b.resultRegs
    (tgt.mapIdx fun i r => Alloc.mkReg r.cls (st.alloc.depth r.cls - (tgt.length - i)), tgt)

/-- `match val_type` of the select arms: handler bank (parser.rs:7040-7048, 7068-7074) -/
def selectBank : Cls → Option Cls
  | .i32 => some .i32
  | .i64 => some .i64
  | .f32 => some .f32
  | .f64 => some .f64
  | _ => none
/-- `select t` additionally maps references to the i64 handler (parser.rs:7046) -/
def selectBankT : Cls → Option Cls
  | .ref => some .i64
  | c => selectBank c

/-- select arms after the type is known (parser.rs:7036-7058, 7076-7090) -/
def compSelect (st : CS) (a : Alloc) (cond : Reg) (c bank : Cls) : CS :=
  let v2 := a.pop c
  let v1 := v2.2.pop c
  let d := v1.2.push c
  { st with alloc := d.2 }.emit (.select bank d.1.idx v1.1.idx v2.1.idx cond.idx)

/-- opening a block: pop the parameters, remember the state, compute result registers, push the parameters back
(parser.rs:5189-5231, 5238-5270) -/
def openBlock (K : FnCtx) (st : CS) (a : Alloc) (bt : BlockTy) (isLoop : Bool) : CS :=
  let a0 := popAll a (K.M.blockParams bt).reverse
  let s := a0.save
  { st with
    alloc := (pushAll a0 (K.M.blockParams bt)).2
    saved := s :: st.saved
    ctrl := ⟨bt, isLoop, s.nextRegs (K.M.blockResults bt)⟩ :: st.ctrl }

/-- result types at an `end` (parser.rs:5144-5148) -/
def endTypes (K : FnCtx) (st : CS) : List Cls :=
  match st.ctrl with
  | b :: _ => K.M.blockResults b.bt
  | [] => K.results

/-- allocator after an `end` (parser.rs:5160-5179) -/
def endAlloc (K : FnCtx) (st : CS) : Alloc :=
  match st.saved with
  | s :: _ => (pushAll (st.alloc.restore s) (match st.ctrl with | b :: _ => K.M.blockResults b.bt | [] => [])).2
  | [] => st.alloc

/-- `end`: instruction and allocator (parser.rs:5143-5185) -/
def compEnd (K : FnCtx) (st : CS) : CS :=
  { st with
    alloc := endAlloc K st
    ctrl := st.ctrl.tail
    saved := st.saved.tail }.emit
      (.fin (st.alloc.peekRegs (endTypes K st)) (match st.ctrl with | b :: _ => b.resultRegs | [] => []))

/-- map building at an `end` (parser.rs:7212-7226); `pc` is where the `end` was emitted.  `none`: unmatched `end`. -/
def closeMaps (st : CS) (pc : Nat) (rest : List WOp) : Option CS :=
  match st.mapCtl with
  | (start, isIf, e) :: m =>
    some { st with mapCtl := m, ends := (start, pc + 1) :: st.ends,
                   elses := if isIf then (start, e.getD (pc + 1)) :: st.elses else st.elses }
  | [] => if rest.isEmpty then some st else none

/-- allocator at an `else` (parser.rs:5286-5297) -/
def elseAlloc (K : FnCtx) (st : CS) : Alloc :=
  let a := match st.saved with | s :: _ => st.alloc.restore s | [] => st.alloc
  match st.ctrl with
  | b :: _ => (pushAll a (K.M.blockParams b.bt)).2
  | [] => a

/-- `local.get` (parser.rs:1942-2041) -/
def compLocalGet (K : FnCtx) (st : CS) (i : Nat) (rest : List WOp) : Option CS :=
  let c := K.localType i
  match c with
  | .ref => some ({ st with alloc := (st.alloc.push .ref).2 }.emit (.refLocalGet (st.alloc.push .ref).1.idx (u16 i)))
  | .v128 => none
  | _ =>
    if canFoldOperand c rest then
      some { st with pend := .loc c (u16 i) :: st.pend, alloc := (st.alloc.push c).2 }
    else
      some ({ st with alloc := (st.alloc.push c).2 }.emit
        (.op1 (.mov c) (.reg (st.alloc.push c).1.idx) (.param (u16 i))))

/-- constants (parser.rs:2329-2350, 3279-3297, 4094-4113, 4619-4638) -/
def compConst (st : CS) (c : Cls) (v : c.Carrier) (rest : List WOp) : Option CS :=
  if c = .ref ∨ c = .v128 then none
  else if canFoldOperand c rest then
    some { st with pend := .const c v :: st.pend, alloc := (st.alloc.push c).2 }
  else
    some ({ st with alloc := (st.alloc.push c).2 }.emit (.op1 (.mov c) (.reg (st.alloc.push c).1.idx) (.const v)))

/-- `local.set` / `local.tee` with the register of the value (parser.rs:2042-2148) -/
def storeLocal (st : CS) (c : Cls) (src i : Nat) : Option CS :=
  match c with
  | .ref => some (st.emit (.refLocalSet src (u16 i)))
  | .v128 => none
  | _ => some (st.emit (.op1 (.mov c) (.loc (u16 i)) (.reg src)))

/-- `global.set` source: a folded constant is ignored (parser.rs:2262-2266) -/
def globalSrc {c : Cls} (r : Nat) : Opnd c → Dst
  | .param i => .loc i
  | _ => .reg r

/-- one operator of phase 1 in reachable code (parser.rs:1939-7180; `other` is 7178-7180), with the map building of 7186-7230 and the marking of
unreachable code (7275-7285).  `none`: the preprocessor reports an error or panics. -/
def compOp (K : FnCtx) (st : CS) (op : WOp) (rest : List WOp) : Option (CS × List WOp) :=
  let a := st.alloc
  match op with
  | .localGet i => (compLocalGet K st i rest).map (·, rest)
  | .localSet i =>
    let p := a.pop (K.localType i)
    (storeLocal { st with alloc := p.2 } (K.localType i) p.1.idx i).map (·, rest)
  | .localTee i =>
    match a.peek (K.localType i) with
    | none => none
    | some r => (storeLocal st (K.localType i) r.idx i).map (·, rest)
  | .globalGet g =>
    match selectBank (K.M.globalType g) with
    | none => none
    | some c => some (finish K st a c true (fun d => .globalGet c d g) rest)
  | .globalSet g =>
    match selectBank (K.M.globalType g) with
    | none => none
    | some c =>
      let p := a.pop c
      let t := take st.pend c p.1.idx
      some ({ st with alloc := p.2, pend := t.2 }.emit (.globalSet c (globalSrc p.1.idx t.1) g), rest)
  | .const c v => (compConst st c v rest).map (·, rest)
  | .un (.mov _) => none
  | .un op =>
    let p := a.pop op.src
    if takesPending op then
      let t := take st.pend op.src p.1.idx
      some (finish K { st with pend := t.2 } p.2 op.dst (un_folds op) (fun d => .op1 op d t.1) rest)
    else some (finish K st p.2 op.dst true (fun d => .op1 op d (.reg p.1.idx)) rest)
  | .bin op =>
    let p2 := a.pop op.src
    let p1 := p2.2.pop op.src
    let t2 := take st.pend op.src p2.1.idx
    let t1 := take t2.2 op.src p1.1.idx
    some (finish K { st with pend := t1.2 } p1.2 op.dst (bin_folds op) (fun d => .op2 op d t1.1 t2.1) rest)
  | .load op off =>
    let p := a.pop .i32
    let t := take st.pend .i32 p.1.idx
    some (finish K { st with pend := t.2 } p.2 op.cls true (fun d => .load op d t.1 off) rest)
  | .store op off =>
    let v := a.pop op.cls
    let p := v.2.pop .i32
    let t := take st.pend .i32 p.1.idx
    some ({ st with alloc := p.2, pend := t.2 }.emit (.store op t.1 v.1.idx off), rest)
  | .memSize => some ({ st with alloc := (a.push .i32).2 }.emit (.memSize (a.push .i32).1.idx), rest)
  | .memGrow =>
    let p := a.pop .i32
    let d := p.2.push .i32
    some ({ st with alloc := d.2 }.emit (.memGrow d.1.idx p.1.idx), rest)
  | .memCopy =>
    let n := a.pop .i32
    let s := n.2.pop .i32
    let d := s.2.pop .i32
    some ({ st with alloc := d.2 }.emit (.memCopy d.1.idx s.1.idx n.1.idx), rest)
  | .memInit k =>
    let n := a.pop .i32
    let s := n.2.pop .i32
    let d := s.2.pop .i32
    some ({ st with alloc := d.2 }.emit (.memInit k d.1.idx s.1.idx n.1.idx), rest)
  | .memFill =>
    let n := a.pop .i32
    let s := n.2.pop .i32
    let d := s.2.pop .i32
    some ({ st with alloc := d.2 }.emit (.memFill d.1.idx s.1.idx n.1.idx), rest)
  | .dataDrop k => some (st.emit (.dataDrop k), rest)
  | .selectT c =>
    let p := a.pop .i32
    match selectBankT c with
    | none => none
    | some b => some (compSelect st p.2 p.1 c b, rest)
  | .select =>
    let p := a.pop .i32
    let c := p.2.peekType.getD .i32
    match selectBank c with
    | none => none
    | some b => some (compSelect st p.2 p.1 c b, rest)
  | .refNull => some ({ st with alloc := (a.push .ref).2 }.emit (.refNull (a.push .ref).1.idx), rest)
  | .refIsNull =>
    let p := a.pop .ref
    let d := p.2.push .i32
    some ({ st with alloc := d.2 }.emit (.refIsNull d.1.idx p.1.idx), rest)
  | .tableGet t =>
    let p := a.pop .i32
    let d := p.2.push .ref
    some ({ st with alloc := d.2 }.emit (.tableGet t d.1.idx p.1.idx), rest)
  | .tableSet t =>
    let v := a.pop .ref
    let i := v.2.pop .i32
    some ({ st with alloc := i.2 }.emit (.tableSet t i.1.idx v.1.idx), rest)
  | .tableFill t =>
    let n := a.pop .i32
    let v := n.2.pop .ref
    let i := v.2.pop .i32
    some ({ st with alloc := i.2 }.emit (.tableFill t i.1.idx v.1.idx n.1.idx), rest)
  | .drop => some ({ st with alloc := match a.popAny with | some p => p.2 | none => a }, rest)
  | .nop => some (st, rest)
  | .unreachable => some ({ st.emit .unreachable with dead := 1 }, rest)
  | .block bt =>
    some ({ openBlock K st a bt false with mapCtl := (st.code.length, false, none) :: st.mapCtl }.emit (.block false), rest)
  | .loop bt =>
    some ({ openBlock K st a bt true with mapCtl := (st.code.length, false, none) :: st.mapCtl }.emit (.block true), rest)
  | .ite bt =>
    let p := a.pop .i32
    some ({ openBlock K st p.2 bt false with mapCtl := (st.code.length, true, none) :: st.mapCtl }.emit
      (.ite p.1.idx 0 false), rest)
  | .els =>
    match st.mapCtl with
    | (s, true, none) :: m =>
      some ({ st with alloc := elseAlloc K st, mapCtl := (s, true, some (st.code.length + 1)) :: m }.emit (.jump 0), rest)
    | _ => none
  | .fin => (closeMaps (compEnd K st) st.code.length rest).map (·, rest)
  | .br d =>
    let r := branchRegs st d
    some ({ st.emit (.br d 0 r.1 r.2) with dead := 1 }, rest)
  | .brIf d =>
    let c := (a.peek .i32).getD ⟨.i32, 0⟩
    let st := { st with alloc := (a.pop .i32).2 }
    let r := branchRegs st d
    some (st.emit (.brIf d 0 c.idx r.1 r.2), rest)
  | .brTable ds d =>
    let c := (a.peek .i32).getD ⟨.i32, 0⟩
    let st := { st with alloc := (a.pop .i32).2 }
    let r := branchRegs st d
    some ({ st.emit (.brTable (ds.map fun k => (k, 0, (branchRegs st k).2)) (d, 0, r.2) c.idx r.1) with dead := 1 }, rest)
  | .ret =>
    some ({ { st with alloc := popAll a K.results.reverse }.emit (.ret (a.peekRegs K.results)) with dead := 1 }, rest)
  | .call f =>
    match K.M.callee f with
    | (some id, t) =>
      let a1 := popAll a t.params.reverse
      let r := pushAll a1 (t.results.take 1)
      some ({ st with alloc := r.2 }.emit (.callWasi id (a.peekRegs t.params) r.1.head?), rest)
    | (none, t) =>
      let p := popParams a t.params.reverse
      let r := pushAll p.2 t.results
      some ({ st with alloc := r.2 }.emit (.call f p.1 r.1), rest)
  | .callIndirect ty tbl =>
    match a.peek .i32 with
    | none => none
    | some i =>
      let t := match K.M.types[ty]? with | some t => t | none => ⟨[], []⟩
      let p := popParams (a.pop .i32).2 t.params.reverse
      let r := pushAll p.2 t.results
      some ({ st with alloc := r.2 }.emit (.callIndirect ty tbl i.idx p.1 r.1), rest)
  | .other _ _ => none

/-- `unreachable_depth` after looking at an operator in unreachable code (parser.rs:1911-1929) -/
def deadNext (dead : Nat) : WOp → Nat
  | .block _ | .loop _ | .ite _ => dead + 1
  | .fin => dead - 1
  | .els => if dead = 1 then 0 else dead
  | _ => dead

/-- one turn of the phase 1 loop (parser.rs:1904-7287) -/
def compStep (K : FnCtx) (st : CS) (op : WOp) (rest : List WOp) : Option (CS × List WOp) :=
  if st.dead = 0 then compOp K st op rest
  else if 0 < deadNext st.dead op then some ({ st.emit .nop with dead := deadNext st.dead op }, rest)
  else compOp K { st with dead := 0 } op rest

/-- phase 1, with as many turns as there are operators -/
def compRun (K : FnCtx) : Nat → CS → List WOp → Option CS
  | _, st, [] => if st.mapCtl.isEmpty then some st else none
  | 0, _, _ :: _ => none
  | n + 1, st, op :: rest =>
    match compStep K st op rest with
    | none => none
    | some (st', rest') => compRun K n st' rest'

/-- control stack of phases 2 and 3 after one instruction (parser.rs:1317-1342, 1457-1480): start pc, is it a loop -/
def scanStep (stk : List (Nat × Bool)) (pc : Nat) : Instr → List (Nat × Bool)
  | .block l => (pc, l) :: stk
  | .ite _ _ _ => (pc, false) :: stk
  | .fin _ _ => stk.tail
  | _ => stk

/-- `block_end_map.get` / `if_else_map.get`; keys are inserted once -/
def lookup (m : List (Nat × Nat)) (k : Nat) : Option Nat := (m.find? (·.1 == k)).map (·.2)

/-- target of a branch to an open block (parser.rs:1393-1400): loops restart, others continue after their end -/
def blockTarget (ends : List (Nat × Nat)) (b : Nat × Bool) : Option Nat :=
  if b.2 then some b.1 else lookup ends b.1

/-- phase 2 target of depth `d` (parser.rs:1344-1400): beyond the open blocks it is the end of the function -/
def target2 (ends : List (Nat × Nat)) (len : Nat) (stk : List (Nat × Bool)) (d : Nat) : Option Nat :=
  match stk[d]? with
  | none => some len
  | some b => blockTarget ends b

/-- phase 3 target (parser.rs:1503-1548): beyond the open blocks it is 0 -/
def target3 (ends : List (Nat × Nat)) (stk : List (Nat × Bool)) (d : Nat) : Nat :=
  match stk[d]? with
  | none => 0
  | some b => (blockTarget ends b).getD 0

/-- phases 2 and 3 for the instruction at one pc, `stk` being the control stack including it (parser.rs:1402-1560).
`none`: "Missing EndMarker". -/
def patch (ends elses : List (Nat × Nat)) (len : Nat) (stk : List (Nat × Bool)) : Instr → Option Instr
  | .br d _ s t => (target2 ends len stk d).map fun x => .br d x s t
  | .brIf d _ c s t => (target2 ends len stk d).map fun x => .brIf d x c s t
  | .ite c e h =>
    match stk[0]? with
    | none => some (.ite c e h)
    | some b => (blockTarget ends b).map fun x =>
        .ite c ((lookup elses b.1).getD x) (decide ((lookup elses b.1).getD x ≠ x))
  | .jump e =>
    match stk[0]? with
    | none => some (.jump e)
    | some b => (blockTarget ends b).map .jump
  | .brTable ts d i s =>
    some (.brTable (ts.map fun t => (t.1, target3 ends stk t.1, t.2.2)) (d.1, target3 ends stk d.1, d.2.2) i s)
  | i => some i

/-- phases 2 and 3 from `pc` on (parser.rs:1284-1757) -/
def patchFrom (ends elses : List (Nat × Nat)) (len : Nat) : Nat → List (Nat × Bool) → List Instr → Option (List Instr)
  | _, _, [] => some []
  | pc, stk, i :: is =>
    match patch ends elses len (scanStep stk pc i) i, patchFrom ends elses len (pc + 1) (scanStep stk pc i) is with
    | some j, some js => some (j :: js)
    | _, _ => none

/-- parser.rs:1183-1260 `decode_code_section` -/
def compileFn (K : FnCtx) (ops : List WOp) : Option Code :=
  match compRun K ops.length (CS.init K) ops with
  | none => none
  | some st =>
    match patchFrom st.ends st.elses st.code.length 0 [] st.code with
    | none => none
    | some body => some { locals := K.locals, body := body, alloc := some st.alloc.finalize }

end Verif.Model
