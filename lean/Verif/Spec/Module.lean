import Verif.Model.Module
/-
What instantiation must establish, in the words of the WebAssembly specification.
-/
namespace Verif.Spec
open Verif.Model

/-- Value of a constant expression in a module whose globals are declared as `gs`: constants, references, and the initial
value of another global. -/
inductive Evals (gs : List (Bool × Cls × CExpr)) : CExpr → Val → Prop
  | i32 (v : BitVec 32) : Evals gs [.i32 v] ⟨.i32, v⟩
  | i64 (v : BitVec 64) : Evals gs [.i64 v] ⟨.i64, v⟩
  | f32 (v : BitVec 32) : Evals gs [.f32 v] ⟨.f32, v⟩
  | f64 (v : BitVec 64) : Evals gs [.f64 v] ⟨.f64, v⟩
  | null : Evals gs [.refNull] ⟨.ref, Ref.null⟩
  | func (f : Nat) : Evals gs [.refFunc f] ⟨.ref, Ref.func f⟩
  | global {g : Nat} {m : Bool} {c : Cls} {e : CExpr} {v : Val} (hg : gs[g]? = some (m, c, e)) (h : Evals gs e v) :
      Evals gs [.globalGet g] v

/-- items to be placed at consecutive positions from `off` on -/
structure Seg (α : Type) where
  off : Nat
  items : List α

/-- position `i` belongs to the segment -/
def Seg.Covers {α : Type} (s : Seg α) (i : Nat) : Prop := s.off ≤ i ∧ i < s.off + s.items.length

/-- After writing the segments in order over a store full of `dflt`, position `i` holds `a`: the last segment covering `i`
decides, and where there is none the default remains. -/
def Shows {α : Type} (dflt : α) (segs : List (Seg α)) (i : Nat) (a : α) : Prop :=
  (∃ pre s post, segs = pre ++ s :: post ∧ s.Covers i ∧ s.items[i - s.off]? = some a ∧ ∀ t ∈ post, ¬ t.Covers i) ∨
  ((∀ s ∈ segs, ¬ s.Covers i) ∧ a = dflt)

/-- the active data segments for memory `k`, in order, at the positions their offset expressions name -/
inductive ActiveData (gs : List (Bool × Cls × CExpr)) (k : Nat) : List ModData → List (Seg Byte) → Prop
  | nil : ActiveData gs k [] []
  | passive {d : ModData} {ds : List ModData} {segs : List (Seg Byte)} (hd : d.active = none) (h : ActiveData gs k ds segs) :
      ActiveData gs k (d :: ds) segs
  | other {d : ModData} {ds : List ModData} {segs : List (Seg Byte)} {j : Nat} {e : CExpr} (hd : d.active = some (j, e))
      (hj : j ≠ k) (h : ActiveData gs k ds segs) : ActiveData gs k (d :: ds) segs
  | active {d : ModData} {ds : List ModData} {segs : List (Seg Byte)} {e : CExpr} {o : BitVec 32}
      (hd : d.active = some (k, e)) (he : Evals gs e ⟨.i32, o⟩) (h : ActiveData gs k ds segs) :
      ActiveData gs k (d :: ds) (⟨o.toNat, d.init⟩ :: segs)

/-- the active element segments for table `k`, in order, as far as they list functions -/
inductive ActiveElems (gs : List (Bool × Cls × CExpr)) (k : Nat) : List ModElem → List (Seg Ref) → Prop
  | nil : ActiveElems gs k [] []
  | passive {d : ModElem} {ds : List ModElem} {segs : List (Seg Ref)} (hd : d.active = none) (h : ActiveElems gs k ds segs) :
      ActiveElems gs k (d :: ds) segs
  | other {d : ModElem} {ds : List ModElem} {segs : List (Seg Ref)} {j : Nat} {e : CExpr} (hd : d.active = some (j, e))
      (hj : j ≠ k) (h : ActiveElems gs k ds segs) : ActiveElems gs k (d :: ds) segs
  | active {d : ModElem} {ds : List ModElem} {segs : List (Seg Ref)} {e : CExpr} {o : BitVec 32} {fs : List Nat}
      (hd : d.active = some (k, e)) (hf : d.idxes = some fs) (he : Evals gs e ⟨.i32, o⟩) (h : ActiveElems gs k ds segs) :
      ActiveElems gs k (d :: ds) (⟨o.toNat, fs.map Ref.func⟩ :: segs)

/-- the function index space of a module: imported functions first, then its own, each with its declared type and its
preprocessed body -/
def FuncAt (M : Modul) (i : Nat) (F : FuncInst) : Prop :=
  (∃ m n w, M.imports[i]? = some (m, n, .wasi w) ∧ F = .wasi w.type w.id) ∨
  (∃ k f t, i = M.imports.length + k ∧ M.funcs[k]? = some f ∧ M.types[f.ti]? = some t ∧ F = .runtime t f.code)

/-- a constant expression that can be evaluated when the first `n` globals have their values; references to functions are left
out (`ref_func_init_violated`) -/
def ConstBefore (n : Nat) : CExpr → Prop
  | [.i32 _] | [.i64 _] | [.f32 _] | [.f64 _] | [.refNull] => True
  | [.globalGet g] => g < n
  | _ => False

/-- an active segment of `len` items fits a store of `size` items -/
def SegFits (M : Modul) (size : Nat) (e : CExpr) (len : Nat) : Prop :=
  ConstBefore M.globals.length e ∧ ∃ o : BitVec 32, Evals M.globals e ⟨.i32, o⟩ ∧ o.toNat + len ≤ size

/-- bytes of a memory declared with `min` pages -/
def memBytes (min : BitVec 32) : Nat := min.toNat * 65536

/-- What a module must satisfy to be instantiated without import objects, in the words of the specification (indices in range,
initialisers that can be evaluated, segments that fit), restricted to what the interpreter supports: only WASI imports,
function-index element segments, no function references as initial values of globals, memories below 4 GiB. -/
structure Instantiable (M : Modul) : Prop where
  imports : ∀ i ∈ M.imports, ∃ w, i.2.2 = .wasi w
  types : ∀ f ∈ M.funcs, f.ti < M.types.length
  mems : ∀ p ∈ M.mems, p.1.toNat < 65536
  globals : ∀ i m c e, M.globals[i]? = some (m, c, e) → ConstBefore i e
  elems : ∀ e ∈ M.elems, e.isFunc = true ∧ (∀ f ∈ e.idxes.getD [], f < M.imports.length + M.funcs.length) ∧
    ∀ k ex, e.active = some (k, ex) → ∃ n, M.tables[k]? = some n ∧ SegFits M n.toNat ex (e.idxes.getD []).length
  datas : ∀ d ∈ M.datas, ∀ k ex, d.active = some (k, ex) →
    ∃ p, M.mems[k]? = some p ∧ SegFits M (memBytes p.1) ex d.init.length
  exports : ∀ e ∈ M.exports, match e.2 with
    | .func i => i < M.imports.length + M.funcs.length
    | .table i => i < M.tables.length
    | .mem i => i < M.mems.length
    | .global i => i < M.globals.length
    | .tag => False
  start : ∀ f, M.start = some f → f < M.imports.length + M.funcs.length

end Verif.Spec
