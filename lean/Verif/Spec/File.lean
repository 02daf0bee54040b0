import Verif.Spec.Module
import Verif.Spec.Compiled
/-
A WebAssembly module as its author wrote it, and the file it is delivered in.
-/
namespace Verif.Spec
open Verif.Model

/-- a function: index of its type, declared locals, structured body -/
structure SDef where
  type : Nat
  locals : List (Nat × Cls)
  body : WSeq

/-- A module.  Imports are functions of `wasi_snapshot_preview1`, with name and type index; element segments list function
indices. -/
structure SMod where
  types : List FuncType
  imports : List (String × Nat)
  funcs : List SDef
  tables : List Limits
  mems : List Limits
  globals : List (Bool × Cls × CExpr)
  exports : List (String × ExportTy)
  start : Option Nat
  elems : List (List Nat × ElemKind)
  datas : List (List Byte × DataKind)

/-- the sections of the file, in the order of the binary format; custom sections and the data count carry nothing -/
def SMod.file (A : SMod) : List Payload :=
  [ .version 1
  , .types (A.types.map some)
  , .imports (A.imports.map fun i => some ("wasi_snapshot_preview1", i.1, .func i.2))
  , .funcs (A.funcs.map fun d => some d.type)
  , .tables (A.tables.map fun l => some (l, true))
  , .mems (A.mems.map some)
  , .globals (A.globals.map some)
  , .exports (A.exports.map some) ] ++
  (A.start.map Payload.start).toList ++
  [ .ignored
  , .elems (A.elems.map fun e => some (.funcs e.1, e.2)) ] ++
  A.funcs.map (fun d => Payload.code d.locals d.body.body false) ++
  [ .datas (A.datas.map some)
  , .ignored ]

/-- function type number `k` -/
def SMod.type (A : SMod) (k : Nat) : FuncType := (A.types[k]?).getD ⟨[], []⟩

/-- an imported function as the source semantics sees it -/
def hostFunc (name : String) : SFunc :=
  match parseWasi name with
  | some w => .wasi w.type w.id
  | none => .wasi ⟨[], []⟩ 0

/-- The functions of the module: imports first.  Imported functions have the types of the WASI functions they name (which is
what `WellFormed` demands they are declared with). -/
def SMod.source (A : SMod) (H : FloatHost) : SProg :=
  { H := H
    types := A.types
    funcs := A.imports.map (fun i => hostFunc i.1) ++ A.funcs.map fun d => .wasm (A.type d.type) d.locals d.body }

/-- types of the globals -/
def SMod.globalTypes (A : SMod) : List Cls := A.globals.map (·.2.1)

/-- active part of a segment: index and offset -/
def elemActive : ElemKind → Option (Nat × CExpr)
  | .active t e => some (t.getD 0, e)
  | _ => none

/-- active part of a segment: index and offset -/
def dataActive : DataKind → Option (Nat × CExpr)
  | .active m e => some (m, e)
  | _ => none

/-- the declarations of the module, without bodies -/
def SMod.decls (A : SMod) : Modul :=
  { types := A.types
    funcs := A.funcs.map fun d => stub d.type
    tables := A.tables.map fun l => BitVec.ofNat 32 l.min
    mems := A.mems.map fun l => (BitVec.ofNat 32 l.min, l.max.map (BitVec.ofNat 32))
    globals := A.globals
    elems := A.elems.map fun e => ⟨true, some e.1, elemActive e.2⟩
    datas := A.datas.map fun d => ⟨d.1, dataActive d.2⟩
    start := A.start
    imports := A.imports.map fun i => ("wasi_snapshot_preview1", i.1, ((parseWasi i.1).map ImportDesc.wasi).getD (.func i.2))
    exports := A.exports }

/-- limits as the binary format has them -/
def Limits32 (l : Limits) : Prop := l.min < 2 ^ 32 ∧ ∀ x, l.max = some x → x < 2 ^ 32

/-- Well-formedness: what validation and linking demand, restricted to what the interpreter supports (see `Instantiable`,
`Accepted`). -/
structure SMod.WellFormed (S : Wasi) (A : SMod) (H : FloatHost) : Prop where
  /-- every import is a WASI function, declared with its type -/
  imports : ∀ i ∈ A.imports, ∃ w, parseWasi i.1 = some w ∧ A.types[i.2]? = some w.type
  tables : ∀ l ∈ A.tables, Limits32 l
  mems : ∀ l ∈ A.mems, Limits32 l
  decls : Instantiable A.decls
  /-- initial values have the declared types -/
  globals : ∀ (i : Nat) m c e, A.globals[i]? = some (m, c, e) → ∀ v, Evals A.globals e v → v.cls = c
  exports : ∀ e ∈ A.exports, e.2 ≠ .tag
  dataLen : ∀ d ∈ A.datas, d.1.length < 2 ^ 32
  accepted : Accepted S (A.source H) A.globalTypes

/-- The declarations of a module are in order (everything but the function bodies). -/
structure SMod.Declared (A : SMod) : Prop where
  imports : ∀ i ∈ A.imports, ∃ w, parseWasi i.1 = some w ∧ A.types[i.2]? = some w.type
  tables : ∀ l ∈ A.tables, Limits32 l
  mems : ∀ l ∈ A.mems, Limits32 l
  decls : Instantiable A.decls
  exports : ∀ e ∈ A.exports, e.2 ≠ .tag

theorem SMod.WellFormed.declared {S : Wasi} {A : SMod} {H : FloatHost} (h : A.WellFormed S H) : A.Declared :=
  ⟨h.imports, h.tables, h.mems, h.decls, h.exports⟩

/-- The store a freshly instantiated module starts from. -/
structure InitialStore (A : SMod) (st : Store) : Prop where
  /-- a memory exists iff one is declared, has its declared size and maximum, and shows the active data segments over zeros -/
  mem : (st.mem = none ↔ A.mems = []) ∧ ∀ m, st.mem = some m → ∃ l segs, A.mems[0]? = some l ∧
    m.data.length = l.min * 65536 ∧ m.max = l.max.map (BitVec.ofNat 32) ∧
    ActiveData A.globals 0 (A.datas.map fun d => ⟨d.1, dataActive d.2⟩) segs ∧
    ∀ i b, m.data[i]? = some b → Shows 0 segs i b
  /-- the globals have their declared mutability and initial values -/
  globals : st.globals.length = A.globals.length ∧ ∀ (i : Nat) (g : Global), st.globals[i]? = some g →
    ∃ c e, A.globals[i]? = some (g.mutable_, c, e) ∧ Evals A.globals e g.value
  /-- tables have their declared sizes and show the active element segments over nulls -/
  tables : st.tables.length = A.tables.length ∧ ∀ (k : Nat) (l : Limits), A.tables[k]? = some l → ∃ t segs,
    st.tables[k]? = some t ∧ t.length = l.min ∧
    ActiveElems A.globals k (A.elems.map fun e => ⟨true, some e.1, elemActive e.2⟩) segs ∧
    ∀ i r, t[i]? = some r → Shows .null segs i r
  /-- the data segments; active ones are kept too (`active_data_kept_violated`) -/
  datas : st.datas = A.datas.map (·.1)

end Verif.Spec
