import Verif.Model.Compile
import Verif.Model.Runtime
import Verif.Model.WasiFn
/-
From a file to a running instance: parser.rs (`parse_bytecode` and the section decoders), execution/module.rs
(`ModuleInst::new`, `get_export_func`), main.rs.

The binary decoding itself (the `wasmparser` crate) is not modelled: a file is the sequence of payloads the crate delivers, in
which an item is `none` where the crate reports an error.  Operators outside `WOp` are not represented (the preprocessor
panics on them).
-/
namespace Verif.Model

/-- operators of a constant expression; `other` is any operator `parse_initexpr` rejects (parser.rs:1040-1080) -/
inductive ConstOp
  | i32 (v : BitVec 32) | i64 (v : BitVec 64) | f32 (v : BitVec 32) | f64 (v : BitVec 64)
  | refNull | refFunc (f : Nat) | globalGet (g : Nat) | other
  deriving DecidableEq, Repr

/-- `ConstExpr` without its final `end` -/
abbrev CExpr := List ConstOp

/-- structure/types.rs `Limits`, before the conversion to u32 -/
structure Limits where
  min : Nat
  max : Option Nat
  deriving DecidableEq, Repr

/-- `wasmparser::TypeRef` of an import.  For tables the flag is `is_func_ref`. -/
inductive ImportTy
  | func (ti : Nat) | table (lim : Limits) (isFunc : Bool) | mem (lim : Limits) | global (mutable_ : Bool) (c : Cls) | tag
  deriving DecidableEq, Repr

/-- `wasmparser::ExternalKind` with index -/
inductive ExportTy
  | func (i : Nat) | table (i : Nat) | mem (i : Nat) | global (i : Nat) | tag
  deriving DecidableEq, Repr

/-- `wasmparser::ElementItems` -/
inductive ElemItems
  | funcs (fs : List Nat)
  | exprs (isFunc : Bool) (es : List CExpr)
  deriving DecidableEq, Repr

/-- `wasmparser::ElementKind` -/
inductive ElemKind
  | active (table : Option Nat) (offset : CExpr) | passive | declared
  deriving DecidableEq, Repr

/-- `wasmparser::DataKind` -/
inductive DataKind
  | active (mem : Nat) (offset : CExpr) | passive
  deriving DecidableEq, Repr

/-- `wasmparser::Payload` (sections that `parse_bytecode` ignores are `ignored`); an item or payload that the crate cannot
decode is `none` / `bad`.  A code entry is its locals, the operators up to the first undecodable byte, and whether there is
one. -/
inductive Payload
  | version (n : Nat)
  | types (ts : List (Option FuncType))
  | imports (is : List (Option (String × String × ImportTy)))
  | funcs (fs : List (Option Nat))
  | tables (ts : List (Option (Limits × Bool)))
  | mems (ms : List (Option Limits))
  | globals (gs : List (Option (Bool × Cls × CExpr)))
  | exports (es : List (Option (String × ExportTy)))
  | start (f : Nat)
  | elems (es : List (Option (ElemItems × ElemKind)))
  | code (locals : List (Nat × Cls)) (ops : List WOp) (bad : Bool)
  | datas (ds : List (Option (List Byte × DataKind)))
  | ignored
  | bad

/-- structure/module.rs:99-106 `ImportDesc` -/
inductive ImportDesc
  | func (ti : Nat) | wasi (w : WasiFn) | table | mem | global (c : Cls)
  deriving DecidableEq, Repr

/-- structure/module.rs:26-35 `Func` -/
structure ModFunc where
  ti : Nat
  code : Code

/-- structure/module.rs:55-62 `Elem`: `idxes` (`none` when the items were expressions, whose values are kept in a field
nobody reads), reference type, table and offset when active -/
structure ModElem where
  isFunc : Bool
  idxes : Option (List Nat)
  active : Option (Nat × CExpr)
  deriving DecidableEq, Repr

/-- structure/module.rs:73-78 `Data` -/
structure ModData where
  init : List Byte
  active : Option (Nat × CExpr)
  deriving DecidableEq

/-- structure/module.rs:568-595 `Module` -/
structure Modul where
  types : List FuncType
  funcs : List ModFunc
  tables : List (BitVec 32)
  mems : List (BitVec 32 × Option (BitVec 32))
  globals : List (Bool × Cls × CExpr)
  elems : List ModElem
  datas : List ModData
  start : Option Nat
  imports : List (String × String × ImportDesc)
  exports : List (String × ExportTy)

/-- structure/module.rs:598-615 `Module::new` -/
def Modul.empty : Modul := ⟨[], [], [], [], [], [], [], none, [], []⟩

/-- does an import add to `num_imported_funcs` (parser.rs:880-890) -/
def ImportDesc.isFunc : ImportDesc → Bool
  | .func _ | .wasi _ => true
  | _ => false

/-- `num_imported_funcs`: a counter incremented with every function import -/
def Modul.numImported (M : Modul) : Nat := (M.imports.filter fun i => i.2.2.isFunc).length

/-- `parse_bytecode`'s state: the module and `current_func_index` -/
structure PSt where
  m : Modul
  cur : Nat

/-- outcome of a decoder: it may also stop with an error, leaving what was decoded so far -/
inductive Parsed
  | ok (s : PSt)
  | err (s : PSt)
  | panic

/-- sequencing of decoders -/
def Parsed.andThen : Parsed → (PSt → Parsed) → Parsed
  | .ok s, f => f s
  | .err s, _ => .err s
  | .panic, _ => .panic

/-- the `for item in body { let item = item?; … }` loops -/
def each {α : Type} (f : PSt → α → Parsed) : PSt → List (Option α) → Parsed
  | s, [] => .ok s
  | s, none :: _ => .err s
  | s, some a :: as => (f s a).andThen fun s => each f s as

/-- parser.rs:828-846 -/
def decodeType (s : PSt) (t : FuncType) : Parsed := .ok { s with m := { s.m with types := s.m.types ++ [t] } }

/-- parser.rs:856-866: a stub with an empty body and no register allocation -/
def stub (ti : Nat) : ModFunc := ⟨ti, { locals := [], body := [], alloc := none }⟩

/-- parser.rs:851-868 -/
def decodeFunc (s : PSt) (ti : Nat) : Parsed := .ok { s with m := { s.m with funcs := s.m.funcs ++ [stub ti] } }

/-- `TryFrom::try_from(u64).unwrap()` -/
def u32? (n : Nat) : Option (BitVec 32) := if n < 2 ^ 32 then some (BitVec.ofNat 32 n) else none

/-- conversion of limits; `none`: panic -/
def limits? (l : Limits) : Option (BitVec 32 × Option (BitVec 32)) :=
  match u32? l.min, l.max with
  | none, _ => none
  | some m, none => some (m, none)
  | some m, some x => match u32? x with | some y => some (m, some y) | none => none

/-- parser.rs:882-928: `none` is a panic -/
def importDesc (module name : String) : ImportTy → Option ImportDesc
  | .func ti =>
    if module = "wasi_snapshot_preview1" then
      match parseWasi name with
      | some w => some (.wasi w)
      | none => some (.func ti)
    else some (.func ti)
  | .table l _ => (limits? l).map fun _ => .table
  | .mem l => (limits? l).map fun _ => .mem
  | .global _ c => some (.global c)
  | .tag => none

/-- parser.rs:874-937 -/
def decodeImport (s : PSt) (i : String × String × ImportTy) : Parsed :=
  match importDesc i.1 i.2.1 i.2.2 with
  | some d => .ok { s with m := { s.m with imports := s.m.imports ++ [(i.1, i.2.1, d)] } }
  | none => .panic

/-- parser.rs:945-965 -/
def decodeExport (s : PSt) (e : String × ExportTy) : Parsed :=
  if e.2 = .tag then .panic else .ok { s with m := { s.m with exports := s.m.exports ++ [e] } }

/-- parser.rs:968-986 -/
def decodeMem (s : PSt) (l : Limits) : Parsed :=
  match limits? l with
  | some p => .ok { s with m := { s.m with mems := s.m.mems ++ [p] } }
  | none => .panic

/-- parser.rs:990-1017 (the element type and the maximum are kept but never looked at again) -/
def decodeTable (s : PSt) (t : Limits × Bool) : Parsed :=
  match limits? t.1 with
  | some p => .ok { s with m := { s.m with tables := s.m.tables ++ [p.1] } }
  | none => .panic

/-- parser.rs:1040-1080 `parse_initexpr`: does it succeed (the result is the same sequence) -/
def initOk (e : CExpr) : Bool := e.all fun o => decide (o ≠ .other)

/-- parser.rs:1020-1037 -/
def decodeGlobal (s : PSt) (g : Bool × Cls × CExpr) : Parsed :=
  if initOk g.2.2 then .ok { s with m := { s.m with globals := s.m.globals ++ [g] } } else .err s

/-- parser.rs:1088-1109: type and indices; `none` is an error -/
def elemItems : ElemItems → Option (Bool × Option (List Nat))
  | .funcs fs => some (true, some fs)
  | .exprs b es => if es.all initOk then some (b, none) else none

/-- parser.rs:1110-1122 -/
def elemMode : ElemKind → Option (Option (Nat × CExpr))
  | .active t e => if initOk e then some (some (t.getD 0, e)) else none
  | .passive => some none
  | .declared => some none

/-- parser.rs:1083-1134 -/
def decodeElem (s : PSt) (e : ElemItems × ElemKind) : Parsed :=
  match elemItems e.1, elemMode e.2 with
  | some i, some m => .ok { s with m := { s.m with elems := s.m.elems ++ [⟨i.1, i.2, m⟩] } }
  | _, _ => .err s

/-- parser.rs:1145-1155 -/
def dataMode : DataKind → Option (Option (Nat × CExpr))
  | .active m e => if initOk e then some (some (m, e)) else none
  | .passive => some none

/-- parser.rs:1137-1164 -/
def decodeData (s : PSt) (d : List Byte × DataKind) : Parsed :=
  match dataMode d.2 with
  | some m => .ok { s with m := { s.m with datas := s.m.datas ++ [⟨d.1, m⟩] } }
  | none => .err s

/-- type of function type `ti`, empty when there is none (parser.rs:1197-1207, 5360-5395) -/
def Modul.typeAt (M : Modul) (ti : Nat) : FuncType := (M.types[ti]?).getD ⟨[], []⟩

/-- what the preprocessor finds for an imported function (parser.rs:5310-5375).  It indexes the import vector by function index;
the two agree as long as all imports are functions. -/
def Modul.importInfo (M : Modul) : ImportDesc → Option Nat × FuncType
  | .wasi w => (some w.id, w.type)
  | .func ti => (none, M.typeAt ti)
  | _ => (none, ⟨[], []⟩)

/-- global types of the imports -/
def ImportDesc.globalCls : ImportDesc → Option Cls
  | .global c => some c
  | _ => none

/-- what the preprocessor can look up in the module while it decodes a body -/
def Modul.info (M : Modul) : MInfo :=
  { types := M.types
    globals := M.imports.filterMap (fun i => i.2.2.globalCls) ++ M.globals.map (·.2.1)
    funcs := (M.imports.take M.numImported).map (fun i => M.importInfo i.2.2) ++
      M.funcs.map fun f => (none, M.typeAt f.ti) }

/-- outcome of decoding a body -/
inductive BodyRes (α : Type)
  | ok (a : α) | err | panic

/-- Phase 1 over the operators of a body, distinguishing errors from panics: unmatched `else` and `end`, an unclosed block and
an undecodable operator are errors (parser.rs:1908, 7206, 7221, 7287), everything else `compOp` rejects is a panic. -/
def compRunD (K : FnCtx) (bad : Bool) : Nat → CS → List WOp → BodyRes CS
  | _, st, [] => if bad then .err else if st.mapCtl.isEmpty then .ok st else .err
  | 0, _, _ :: _ => .err
  | n + 1, st, op :: rest =>
    match compStep K st op rest with
    | none => match op with | .els => .err | .fin => .err | _ => .panic
    | some (st', rest') => compRunD K bad n st' rest'

/-- replace the code of a function -/
def Modul.setCode (M : Modul) (i : Nat) (c : Code) : Modul :=
  match M.funcs[i]? with
  | some f => { M with funcs := M.funcs.set i { f with code := c } }
  | none => M

/-- types of the function whose body is decoded (parser.rs:1196-1207) -/
def Modul.bodyType (M : Modul) (i : Nat) : FuncType :=
  match M.funcs[i]? with
  | some f => M.typeAt f.ti
  | none => ⟨[], []⟩

/-- the context of a body -/
def Modul.bodyCtx (M : Modul) (i : Nat) (ls : List (Nat × Cls)) : FnCtx :=
  { M := M.info, params := (M.bodyType i).params, locals := ls, results := (M.bodyType i).results }

/-- phases 2 and 3 and storing the result (parser.rs:1213-1257); the locals are stored before phase 2 can fail -/
def storeBody (s : PSt) (i : Nat) (ls : List (Nat × Cls)) (st : CS) : Parsed :=
  match s.m.funcs[i]? with
  | none => .err s
  | some _ =>
    match patchFrom st.ends st.elses st.code.length 0 [] st.code with
    | none => .err { s with m := s.m.setCode i { locals := ls, body := [], alloc := none } }
    | some body =>
      .ok { m := s.m.setCode i { locals := ls, body := body, alloc := some st.alloc.finalize }, cur := s.cur + 1 }

/-- parser.rs:1172-1260 `decode_code_section` and 7452-7457 -/
def decodeCode (s : PSt) (ls : List (Nat × Cls)) (ops : List WOp) (bad : Bool) : Parsed :=
  let i := s.cur - s.m.numImported
  match compRunD (s.m.bodyCtx i ls) bad ops.length (CS.init (s.m.bodyCtx i ls)) ops with
  | .ok st => storeBody s i ls st
  | .err => .err s
  | .panic => .panic

/-- `current_func_index = module.num_imported_funcs` after an import section (parser.rs:7424-7427) -/
def PSt.reset (s : PSt) : PSt := { s with cur := s.m.numImported }

/-- parser.rs:7404-7490: one payload -/
def decodePayload (s : PSt) : Payload → Parsed
  | .version n => if n = 1 then .ok s else .err s
  | .types ts => each decodeType s ts
  | .imports is => (each decodeImport s is).andThen fun s => .ok s.reset
  | .funcs fs => each decodeFunc s fs
  | .tables ts => each decodeTable s ts
  | .mems ms => each decodeMem s ms
  | .globals gs => each decodeGlobal s gs
  | .exports es => each decodeExport s es
  | .start f => .ok { s with m := { s.m with start := some f } }
  | .elems es => each decodeElem s es
  | .code ls ops bad => decodeCode s ls ops bad
  | .datas ds => each decodeData s ds
  | .ignored => .ok s
  | .bad => .err s

/-- parser.rs:7394-7490 `parse_bytecode` after reading the file -/
def parseFrom : PSt → List Payload → Parsed
  | s, [] => .ok s
  | s, p :: ps => (decodePayload s p).andThen fun s => parseFrom s ps

/-- the file, `none` if it cannot be opened or read -/
abbrev WFile := Option (List Payload)

/-- parser.rs:7390-7490 `parse_bytecode` on a fresh module -/
def parseFile : WFile → Parsed
  | none => .err ⟨.empty, 0⟩
  | some ps => parseFrom ⟨.empty, 0⟩ ps

/-! ## Instantiation -/

/-- execution/module.rs:248-259 `expr_to_const`: `none` is `None`; an index outside panics -/
def exprConst (globals : List Global) : CExpr → Res (Option Val)
  | [.i32 v] => .ok (some ⟨.i32, v⟩)
  | [.i64 v] => .ok (some ⟨.i64, v⟩)
  | [.f32 v] => .ok (some ⟨.f32, v⟩)
  | [.f64 v] => .ok (some ⟨.f64, v⟩)
  | [.refNull] => .ok (some ⟨.ref, Ref.null⟩)
  | [.globalGet g] => match globals[g]? with
    | some gl => .ok (some gl.value)
    | none => .panic
  | _ => .ok none

/-- execution/module.rs:81-110: the imports, `ImportObjects` being empty (main.rs) -/
def linkImports : List (String × String × ImportDesc) → Res (List FuncInst)
  | [] => .ok []
  | (_, _, d) :: is =>
    match d with
    | .wasi w => do
      let fs ← linkImports is
      pure (.wasi w.type w.id :: fs)
    | .func _ => .trap .linkError
    | _ => .panic          -- `todo!()`

/-- execution/module.rs:124-131: the globals in order; each may use the ones before it -/
def initGlobals (acc : List Global) : List (Bool × Cls × CExpr) → Res (List Global)
  | [] => .ok acc
  | (m, _, e) :: gs => do
    match ← exprConst acc e with
    | some v => initGlobals (acc ++ [⟨m, v⟩]) gs
    | none => .trap .instantiateFailed

/-- value.rs:21-26 `to_i32` -/
def Val.toI32 : Val → Res (BitVec 32)
  | ⟨.i32, v⟩ => .ok v
  | _ => .trap .typeMismatch

/-- execution/module.rs:148-155, 174-181: the offset of an active segment -/
def offsetOf (globals : List Global) (e : CExpr) : Res (BitVec 32) := do
  match ← exprConst globals e with
  | some v => v.toI32
  | none => .trap .invalidConstantExpression

/-- table.rs:38-45 `init`: element by element, panicking at the first index outside -/
def tableInit (t : List Ref) (pos : Nat) : List Nat → Res (List Ref)
  | [] => .ok t
  | f :: fs => if pos < t.length then tableInit (t.set pos (.func f)) (pos + 1) fs else .panic

/-- execution/module.rs:133-167: one element segment.  `nf` is the number of functions (`ElemAddr::new` indexes them). -/
def initElem (nf : Nat) (globals : List Global) (tables : List (List Ref)) (e : ModElem) : Res (List (List Ref)) :=
  if e.isFunc = false then .panic
  else
    let init := e.idxes.getD []
    if init.any (fun f => decide (nf ≤ f)) then .panic
    else match e.active with
      | none => .ok tables
      | some (ti, off) => do
        let o ← offsetOf globals off
        match tables[ti]? with
        | none => .panic
        | some t => do
          let t' ← tableInit t o.toNat init
          pure (tables.set ti t')

/-- all element segments in order -/
def initElems (nf : Nat) (globals : List Global) : List (List Ref) → List ModElem → Res (List (List Ref))
  | ts, [] => .ok ts
  | ts, e :: es => do
    let ts' ← initElem nf globals ts e
    initElems nf globals ts' es

/-- execution/module.rs:169-190: one data segment -/
def initData (globals : List Global) (mems : List Mem) (d : ModData) : Res (List Mem) :=
  match d.active with
  | none => .ok mems
  | some (mi, off) => do
    let o ← offsetOf globals off
    match mems[mi]? with
    | none => .panic
    | some m => do
      let m' ← m.init o.toNat d.init
      pure (mems.set mi m')

/-- all data segments in order -/
def initDatas (globals : List Global) : List Mem → List ModData → Res (List Mem)
  | ms, [] => .ok ms
  | ms, d :: ds => do
    let ms' ← initData globals ms d
    initDatas globals ms' ds

/-- execution/module.rs:192-210: every export must exist (indexing panics otherwise) -/
def exportOk (nf nt nm ng : Nat) : ExportTy → Bool
  | .func i => decide (i < nf)
  | .table i => decide (i < nt)
  | .mem i => decide (i < nm)
  | .global i => decide (i < ng)
  | .tag => false

/-- execution/module.rs:213-226, func.rs:104-119 `replace`: the function's type must exist -/
def replaceFuncs (types : List FuncType) : List ModFunc → Res (List FuncInst)
  | [] => .ok []
  | f :: fs =>
    match types[f.ti]? with
    | none => .panic
    | some t => do
      let rs ← replaceFuncs types fs
      pure (.runtime t f.code :: rs)

/-- an instance: the program, its mutable part, the exports, and whether there is a WASI implementation -/
structure Loaded where
  prog : Prog
  inst : Inst
  exports : List (String × ExportTy)
  hasWasi : Bool

/-- execution/module.rs:71-78 `needs_wasi` -/
def Modul.needsWasi (M : Modul) : Bool := M.imports.any fun i => match i.2.2 with | .wasi _ => true | _ => false

/-- execution/module.rs:227-229: the start function is looked up (panics when out of range) and not called -/
def startOk (nf : Nat) : Option Nat → Bool
  | some f => decide (f < nf)
  | none => true

/-- execution/module.rs:52-231 `ModuleInst::new` with no import objects -/
def instantiate (M : Modul) : Res Loaded := do
  let imported ← linkImports M.imports
  let nf := imported.length + M.funcs.length
  let tables := M.tables.map fun n => List.replicate n.toNat Ref.null
  let mems := M.mems.map fun p => Mem.new p.1 p.2
  let globals ← initGlobals [] M.globals
  let tables ← initElems nf globals tables M.elems
  let mems ← initDatas globals mems M.datas
  if M.exports.all (fun e => exportOk nf tables.length mems.length globals.length e.2) then do
    let own ← replaceFuncs M.types M.funcs
    if startOk nf M.start then
      pure { prog := { types := M.types, funcs := imported ++ own }
             inst := { mem := mems.head?, memGen := 0, globals := globals, tables := tables, datas := M.datas.map (·.init) }
             exports := M.exports
             hasWasi := M.needsWasi }
    else .panic
  else .panic

/-- execution/module.rs:234-245 `get_export_func` -/
def Loaded.exportFunc (L : Loaded) (name : String) : Res Nat :=
  match L.exports.find? (fun e => e.1 == name) with
  | some (_, .func f) => .ok f
  | _ => .trap .exportNotFound

/-! ## main.rs -/

/-- main.rs:148-158: `let _ = parse_bytecode(…)`, then `ModuleInst::new(…).unwrap()` -/
def loadFile (f : WFile) : Res Loaded :=
  match parseFile f with
  | .panic => .panic
  | .ok s | .err s =>
    match instantiate s.m with
    | .ok L => .ok L
    | _ => .panic

/-- main.rs:199-217, without `--restore`: find the function, build the runtime, run.  `none`: still running.
`world` is what WASI calls see (arguments included).  A `RuntimeError` from the run is printed; the outcome is that error. -/
def mainRun {S : Wasi} (E : Prog → Bool → Env) (D : Env → Dispatcher) (enable : Bool) (fuel : Nat) (file : WFile)
    (invoke : String) (params : List Val) (world : S.W) : Option (Res (End S)) :=
  match loadFile file with
  | .ok L =>
    match L.exportFunc invoke with
    | .ok f =>
      match Machine.new (S := S) L.prog L.inst world f params with
      | .ok m => m.run (E L.prog L.hasWasi) (D (E L.prog L.hasWasi)) enable fuel
      | .trap e => some (.trap e)
      | .panic => some .panic
      | .ub => some .ub
    | .trap e => some (.trap e)
    | .panic => some .panic
    | .ub => some .ub
  | .trap e => some (.trap e)
  | .panic => some .panic
  | .ub => some .ub

end Verif.Model
