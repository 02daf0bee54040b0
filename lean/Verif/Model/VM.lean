import Verif.Model.IR
/-
Model of src/execution/state.rs (`VmState`, labels), operand.rs, global.rs, table.rs, data.rs and of the handlers of
handlers.rs.  One call of `step` is one handler invocation up to its `advance!`.
-/
namespace Verif.Model
open Verif.Spec (LoadOp StoreOp)

/-- structure/types.rs `FuncType` -/
structure FuncType where
  params : List Cls
  results : List Cls
  deriving DecidableEq, Repr

/-- structure/module.rs `Func`: declared locals, body, register allocation.  (`handlers` is `select_handler` of the body
plus a final `halt`, parser.rs:1235-1242.) -/
structure Code where
  locals : List (Nat × Cls)
  body : List Instr
  alloc : Option (Cls → Nat)

/-- func.rs:17-31 `FuncInst`.  `HostFunc` is never constructed by the code base and is left out. -/
inductive FuncInst
  | runtime (type : FuncType) (code : Code)
  | wasi (type : FuncType) (id : Nat)

/-- func.rs:122-131 `func_type` -/
def FuncInst.type : FuncInst → FuncType
  | .runtime t _ => t
  | .wasi t _ => t

/-- the immutable part of module.rs `ModuleInst` -/
structure Prog where
  types : List FuncType
  funcs : List FuncInst

/-- global.rs:17-21 `GlobalInst` -/
structure Global where
  mutable_ : Bool
  value : Val

/-- The mutable part of `ModuleInst`: memory 0, globals, tables, data segments.  Table elements are always references
(`TableInst.elem : Vec<Val>` is only ever filled with `Val::Ref`).  `memGen` counts (re)allocations of memory 0: a raw
`mem_ptr` is modelled by the value of `memGen` at the time it was taken. -/
structure Inst where
  mem : Option Mem
  memGen : Nat
  globals : List Global
  tables : List (List Ref)
  datas : List (List Byte)

/-- state.rs:246-257 `Label` + `ip` of `LabelStack` (the instruction list is the frame's function body) -/
structure Label where
  isLoop : Bool
  returnIp : Nat
  ip : Nat
  deriving DecidableEq, Repr

/-- state.rs:24-57 `VmState`.  `labels` has the innermost label first; `current_label_idx` is `labels.length - 1`
throughout (set from `len() - 1` at frame entry and after every push/pop/truncate), so it is not stored. -/
structure VM where
  rf : RegFile
  locals : List Val
  pc : Nat
  labels : List Label
  retRegs : List Reg
  memPtr : Option Nat
  inst : Inst

/-- value.rs `to_i32` … with `unwrap_or(0)`, and the `_ => 0` arms of operand.rs: a value of another class reads as 0 -/
def Val.as (v : Val) (c : Cls) : c.Carrier := if h : v.cls = c then h ▸ v.v else c.zero

/-- operand.rs:26-169 `read_i32` … `read_f64`, `read_reg_*` -/
def VM.read (s : VM) (c : Cls) : Opnd c → Res c.Carrier
  | .reg i => s.rf.get c i
  | .const v => .ok v
  | .param i => match s.locals[i]? with
    | some v => .ok (v.as c)
    | none => .ub

/-- operand.rs:38-217 `write_*`, `write_dst_*`, `write_*dst_i32` -/
def VM.write (s : VM) (c : Cls) (d : Dst) (v : c.Carrier) : Res VM :=
  match d with
  | .reg i => do
    let rf ← s.rf.set c i v
    pure { s with rf := rf }
  | .loc i => if i < s.locals.length then .ok { s with locals := s.locals.set i ⟨c, v⟩ } else .ub

/-- `state.pc += 1` -/
def VM.next (s : VM) : VM := { s with pc := s.pc + 1 }

/-- state.rs:122-136 `ModuleLevelInstr` -/
inductive Yield
  | ret
  | wasi (id : Nat) (params : List Val) (result : Option Reg)
  | invoke (f : Nat) (params : List Val) (results : List Reg)
  deriving DecidableEq

/-- what a handler leaves to the dispatcher: `Outcome::Continue` or `Outcome::Yield` (`Outcome::Trap` is `Res.trap`) -/
inductive Out
  | cont (s : VM)
  | yield (y : Yield) (s : VM)

/-- `ArrayVec<Reg, 8>`: pushing a ninth element panics -/
def cap8 (rs : List Reg) : Res (List Reg) := if rs.length ≤ 8 then .ok rs else .panic

/-- `param_regs.iter().map(|r| regs.get_val(r)).collect()` -/
def RegFile.getVals (r : RegFile) : List Reg → Res (List Val)
  | [] => .ok []
  | x :: xs => do
    let v ← r.getVal x
    let vs ← r.getVals xs
    pure (v :: vs)

/-- a raw access through `state.mem_ptr`: undefined when there is no memory or the pointer is stale -/
def VM.rawMem (s : VM) : Res Mem :=
  match s.inst.mem with
  | some m => if s.memPtr = some s.inst.memGen then .ok m else .ub
  | none => .ub

/-- `module().mem_addrs.first()` with the `MemoryNotFound` trap -/
def VM.mem0 (s : VM) : Res Mem :=
  match s.inst.mem with
  | some m => .ok m
  | none => .trap .memoryNotFound

/-- replace memory 0 in place -/
def VM.setMem (s : VM) (m : Mem) : VM := { s with inst := { s.inst with mem := some m } }

/-- `if !source_regs.is_empty() && !target_result_regs.is_empty() { copy_regs }` (handlers.rs:1423-1427) -/
def RegFile.copyIf (r : RegFile) (src dst : List Reg) : Res RegFile :=
  if src ≠ [] ∧ dst ≠ [] then r.copyRegs src dst else .ok r

/-- handlers.rs:1409-1504 (the common tail of br / br_if / br_table): copy results, truncate the labels, jump. -/
def VM.branch (s : VM) (depth target : Nat) (src dst : List Reg) : Res VM := do
  let rf ← s.rf.copyIf src dst
  let keep := max (s.labels.length - 1 - depth) 1
  pure { s with rf := rf, labels := s.labels.drop (s.labels.length - keep), pc := target }

/-- is the value an external reference (`val_type` maps null and function references to `FuncRef`) -/
def Val.isExtern : Val → Bool
  | ⟨.ref, .extern _⟩ => true
  | _ => false

/-- value.rs:49-60 `val_type` -/
def Val.ty (v : Val) : Cls × Bool := (v.cls, v.isExtern)

/-- global.rs:38-46 `set`: only the type of the present value is checked, not mutability -/
def setGlobal (gs : List Global) (g : Nat) (v : Val) : Res (List Global) :=
  match gs[g]? with
  | none => .panic          -- `get_by_idx` indexes the vector
  | some old =>
    if old.value.ty = v.ty then .ok (gs.set g { old with value := v }) else .trap .instructionFailed

/-- table.rs:55-60 `fill`: element by element, panics at the first index outside (`i + n` wraps in 32 bits) -/
def fillTable (t : List Ref) (i : BitVec 32) (r : Ref) (n : BitVec 32) : Res (List Ref) :=
  let e := (i + n).toNat
  if e ≤ i.toNat then .ok t
  else if e ≤ t.length then .ok (t.take i.toNat ++ List.replicate (e - i.toNat) r ++ t.drop e)
  else .panic

/-- handlers.rs:408-2090: one handler.  `H` chooses the NaN a float operation delivers. -/
def step (H : FloatHost) (P : Prog) (len : Nat) (s : VM) : Instr → Res Out
  -- i32_unop! / i64_unop! / f32_unop! / f64_unop! (391-405, 547-561, 711-724, 821-834), i64_eqz, conv! (895-909)
  | .op1 op dst src => do
    let a ← s.read op.src src
    let r ← op.eval H a
    let s ← s.write op.dst dst r
    pure (.cont s.next)
  -- *_binop!, *_cmp! (372-389, 510-545, 675-709, 785-819), div/rem functions
  | .op2 op dst x y => do
    let a ← s.read op.src x
    let b ← s.read op.src y
    let r ← op.eval H a b
    let s ← s.write op.dst dst r
    pure (.cont s.next)
  -- mem_load! 1281-1304
  | .load op dst addr off => do
    let p ← s.read .i32 addr
    let m ← s.rawMem
    let v ← m.load op p off
    let s ← s.write op.cls dst v
    pure (.cont s.next)
  -- mem_store! 1325-1347
  | .store op addr value off => do
    let p ← s.read .i32 addr
    let v ← s.rf.get op.cls value
    let m ← s.rawMem
    let m ← m.store op p off v
    pure (.cont (s.setMem m).next)
  -- 1967-1985
  | .memSize dst => do
    let m ← s.mem0
    let rf ← s.rf.set .i32 dst m.size
    pure (.cont { s with rf := rf }.next)
  -- 1987-2014; every successful grow may reallocate, the cached pointer is refreshed
  | .memGrow dst arg => do
    let m ← s.mem0
    let d ← s.rf.get .i32 arg
    let (r, m') ← m.growInstr d
    let rf ← s.rf.set .i32 dst r
    pure (.cont { s with rf := rf, inst := { s.inst with mem := some m', memGen := s.inst.memGen + 1 },
                         memPtr := some (s.inst.memGen + 1) }.next)
  -- 2016-2035
  | .memCopy d sr n => do
    let m ← s.mem0
    let dv ← s.rf.get .i32 d
    let sv ← s.rf.get .i32 sr
    let nv ← s.rf.get .i32 n
    let m ← m.copy dv sv nv
    pure (.cont (s.setMem m).next)
  -- 2037-2067
  | .memInit data d sr n => do
    let m ← s.mem0
    match s.inst.datas[data]? with
    | none => .trap .invalidDataSegmentIndex
    | some seg => do
      let dv ← s.rf.get .i32 d
      let sv ← s.rf.get .i32 sr
      let nv ← s.rf.get .i32 n
      let m ← m.initInstr seg dv sv nv
      pure (.cont (s.setMem m).next)
  -- 2069-2088
  | .memFill d v n => do
    let m ← s.mem0
    let dv ← s.rf.get .i32 d
    let vv ← s.rf.get .i32 v
    let nv ← s.rf.get .i32 n
    let m ← m.fill dv vv nv
    pure (.cont (s.setMem m).next)
  -- select! 1363-1387 (only the four numeric banks have a handler)
  | .select c dst v1 v2 cond => do
    let x ← s.rf.get .i32 cond
    let r ← s.rf.get c (if x ≠ (0 : BitVec 32) then v1 else v2)
    let rf ← s.rf.set c dst r
    pure (.cont { s with rf := rf }.next)
  -- global_get! 1748-1774
  | .globalGet c dst g =>
    match s.inst.globals[g]? with
    | none => .panic
    | some gl => do
      let s ← s.write c dst (gl.value.as c)
      pure (.cont s.next)
  -- global_set! 1776-1810
  | .globalSet c src g => do
    let v ← s.read c (match src with | .reg i => .reg i | .loc i => .param i)
    let gs ← setGlobal s.inst.globals g ⟨c, v⟩
    pure (.cont { s with inst := { s.inst with globals := gs } }.next)
  -- 1816-1827; data.rs:29-31 `drop_data`
  | .dataDrop d => .ok (.cont { s with inst := { s.inst with datas := s.inst.datas.set d [] } }.next)
  -- 1833-1847
  | .refLocalGet dst l =>
    match s.locals[l]? with
    | none => .ub
    | some v =>
      if h : v.cls = .ref then do
        let rf ← s.rf.set .ref dst (h ▸ v.v)
        pure (.cont { s with rf := rf }.next)
      else .ok (.cont s.next)
  -- 1849-1858
  | .refLocalSet src l => do
    let v ← s.rf.get .ref src
    let s ← s.write .ref (.loc l) v
    pure (.cont s.next)
  -- 1864-1874
  | .refNull dst => do
    let rf ← s.rf.set .ref dst Ref.null
    pure (.cont { s with rf := rf }.next)
  -- 1876-1887
  | .refIsNull dst src => do
    let r ← s.rf.get .ref src
    let rf ← s.rf.set .i32 dst (if r = Ref.null then (1 : BitVec 32) else (0 : BitVec 32))
    pure (.cont { s with rf := rf }.next)
  -- 1889-1916; table.rs:46-48 (an index outside panics)
  | .tableGet t dst idx =>
    match s.inst.tables[t]? with
    | none => .trap .tableNotFound
    | some tb => do
      let i ← s.rf.get .i32 idx
      match tb[BitVec.toNat (w := 32) i]? with
      | none => .panic
      | some r => do
        let rf ← s.rf.set .ref dst r
        pure (.cont { s with rf := rf }.next)
  -- 1918-1938; table.rs:51-53
  | .tableSet t idx src =>
    match s.inst.tables[t]? with
    | none => .trap .tableNotFound
    | some tb => do
      let i ← s.rf.get .i32 idx
      let r ← s.rf.get .ref src
      if BitVec.toNat (w := 32) i < tb.length then
        pure (.cont { s with inst := { s.inst with
          tables := s.inst.tables.set t (tb.set (BitVec.toNat (w := 32) i) r) } }.next)
      else .panic
  -- 1940-1961; table.rs:55-60
  | .tableFill t idx src n =>
    match s.inst.tables[t]? with
    | none => .trap .tableNotFound
    | some tb => do
      let i ← s.rf.get .i32 idx
      let r ← s.rf.get .ref src
      let k ← s.rf.get .i32 n
      let tb' ← fillTable tb i r k
      pure (.cont { s with inst := { s.inst with tables := s.inst.tables.set t tb' } }.next)
  -- 1710-1731
  | .callWasi id params result => do
    let vs ← s.rf.getVals params
    pure (.yield (.wasi id vs result) s.next)
  -- 1666-1708.  table.rs:65-71 `get_func_addr`: index outside or not a function: panic
  | .callIndirect ty t idx params results => do
    let i ← s.rf.get .i32 idx
    match s.inst.tables[t]? with
    | none => .trap .tableNotFound
    | some tb =>
      match tb[BitVec.toNat (w := 32) i]? with
      | some (.func f) =>
        match P.funcs[f]?, P.types[ty]? with
        | some fi, some want =>
          if fi.type = want then do
            let vs ← s.rf.getVals params
            let rs ← cap8 results
            pure (.yield (.invoke f vs rs) s.next)
          else .trap .indirectCallTypeMismatch
        | _, _ => .panic
      | _ => .panic
  -- 1636-1664
  | .call f params results =>
    match P.funcs[f]? with
    | none => .trap .exportNotFound
    | some _ => do
      let vs ← s.rf.getVals params
      let rs ← cap8 results
      pure (.yield (.invoke f vs rs) s.next)
  -- 1733-1742
  | .ret results => do
    let rs ← cap8 results
    pure (.yield .ret { s with retRegs := rs })
  -- 1614-1626
  | .jump target =>
    .ok (.cont { s with labels := if 1 < s.labels.length then s.labels.tail else s.labels, pc := target })
  -- 1506-1526
  | .block isLoop =>
    .ok (.cont { s with labels := ⟨isLoop, s.pc + 1, s.pc + 1⟩ :: s.labels, pc := s.pc + 1 })
  -- 1528-1575
  | .ite cond elseT hasElse => do
    let c ← s.rf.get .i32 cond
    if c ≠ (0 : BitVec 32) then
      pure (.cont { s with labels := ⟨false, elseT, s.pc + 1⟩ :: s.labels, pc := s.pc + 1 })
    else if hasElse then
      pure (.cont { s with labels := ⟨false, elseT, elseT⟩ :: s.labels, pc := elseT })
    else pure (.cont { s with pc := elseT })
  -- 1577-1612 `end`
  | .fin src dst =>
    if s.labels.length ≤ 1 then do
      let rs ← cap8 src
      pure (.cont { s with retRegs := rs, pc := len })
    else do
      let rf ← s.rf.copyRegs src dst
      let s : VM := { s with rf := rf, labels := s.labels.tail }
      if len ≤ s.pc + 1 ∧ s.labels.length = 1 then do
        let rs ← cap8 src
        pure (.cont { s with retRegs := rs, pc := len })
      else pure (.cont s.next)
  -- 1409-1434
  | .br depth target src dst => do
    let s ← s.branch depth target src dst
    pure (.cont s)
  -- 1436-1468
  | .brIf depth target cond src dst => do
    let c ← s.rf.get .i32 cond
    if c = (0 : BitVec 32) then pure (.cont s.next)
    else do
      let s ← s.branch depth target src dst
      pure (.cont s)
  -- 1470-1504; the index is `i32 as usize`, i.e. unsigned
  | .brTable targets dflt idx src => do
    let i ← s.rf.get .i32 idx
    let t := (targets[BitVec.toNat (w := 32) i]?).getD dflt
    let s ← s.branch t.1 t.2.1 src t.2.2
    pure (.cont s)
  | .nop => .ok (.cont s.next)
  | .unreachable => .panic

end Verif.Model
