import Verif.Model.Module
/-
Instantiation with import objects (execution/module.rs).  `Model/Module.lean` models what the command does: it always passes an
empty map (main.rs:158).  Programs that embed the interpreter can pass exports of other instances.
-/
namespace Verif.Model

/-- execution/value.rs:172-190 `Externval`.  A function is the instance itself; host functions do not occur: nothing outside
func.rs can construct one, and func.rs does not. -/
inductive Extern
  | func (F : FuncInst) | table | mem | global | wasi

/-- execution/module.rs:49 `ImportObjects`: module name, then export name -/
abbrev ImportObjects := String → String → Option Extern

/-- execution/value.rs:194-200 `as_func` -/
def Extern.asFunc : Extern → Option FuncInst
  | .func F => some F
  | _ => none

/-- execution/module.rs:84-98: a function import of type index `ti`.  A value that is missing or not a function is refused before
the type is looked up; `types[idx]` panics outside. -/
def linkFunc (types : List FuncType) (v : Option Extern) (ti : Nat) : Res FuncInst :=
  match v with
  | none => .trap .linkError
  | some e =>
    match e.asFunc with
    | none => .trap .linkError
    | some F =>
      match types[ti]? with
      | none => .panic
      | some t => if F.type = t then .ok F else .trap .linkError     -- structure/types.rs:59-61 `type_match`

/-- execution/module.rs:81-110: the imports in order -/
def linkWith (imps : ImportObjects) (types : List FuncType) : List (String × String × ImportDesc) → Res (List FuncInst)
  | [] => .ok []
  | (m, n, d) :: is =>
    match d with
    | .func ti => do
      let F ← linkFunc types (imps m n) ti
      let Fs ← linkWith imps types is
      pure (F :: Fs)
    | .wasi w => do
      let Fs ← linkWith imps types is
      pure (.wasi w.type w.id :: Fs)
    | _ => .panic          -- `todo!()`

/-- execution/module.rs:112-231: the rest of `ModuleInst::new` -/
def buildInst (M : Modul) (imported : List FuncInst) : Res Loaded := do
  let nf := imported.length + M.funcs.length
  let tables := M.tables.map fun n => List.replicate n.toNat Ref.null
  let mems := M.mems.map fun p => Mem.new p.1 p.2
  let globals ← initGlobals [] M.globals
  let tables ← initElems nf globals tables M.elems
  let mems ← initDatas globals mems M.datas
  if M.exports.all (fun e => exportOk nf tables.length mems.length globals.length e.2) then do
    let own ← replaceFuncs M.types M.funcs
    if startOk nf M.start then
      pure { prog := { types := M.types, funcs := imported ++ own }
             inst := { mem := mems.head?, memGen := 0, globals := globals, tables := tables, datas := M.datas.map (·.init) }
             exports := M.exports
             hasWasi := M.needsWasi }
    else .panic
  else .panic

/-- execution/module.rs:52-231 `ModuleInst::new` -/
def instantiateWith (imps : ImportObjects) (M : Modul) : Res Loaded := do
  let imported ← linkWith imps M.types M.imports
  buildInst M imported

/-- execution/export.rs, module.rs:192-210: the value of an export; `exports` are looked up by name -/
def Loaded.extern (L : Loaded) (name : String) : Option Extern :=
  match L.exports.find? (fun e => e.1 == name) with
  | some (_, .func f) => (L.prog.funcs[f]?).map .func
  | some (_, .table _) => some .table
  | some (_, .mem _) => some .mem
  | some (_, .global _) => some .global
  | _ => none

end Verif.Model
