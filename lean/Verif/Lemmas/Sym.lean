import Verif.Spec.Source
import Verif.Lemmas.Exec
import Verif.Props.Calls
/-
Symbolic view of compiled code: which operand (register, constant or local) holds each entry of the WebAssembly operand
stack at each point of a structured body, and which instruction implements each operator.  No allocator, no pending
operands, no fixups.
-/
namespace Verif.Lemmas
open Verif.Model Verif.Spec Verif.Props

/-- where a stack entry lives -/
structure SOp where
  cls : Cls
  o : Opnd cls

/-- in a register -/
def SOp.ofReg (r : Reg) : SOp := ⟨r.cls, .reg r.idx⟩

/-- registers in declared order, as stack entries (top first) -/
def sregs (rs : List Reg) : List SOp := rs.reverse.map SOp.ofReg

theorem SOp.ofReg_inj {a b : Reg} (h : SOp.ofReg a = SOp.ofReg b) : a = b := by
  obtain ⟨c, i⟩ := a
  obtain ⟨d, j⟩ := b
  simp only [SOp.ofReg, SOp.mk.injEq] at h
  obtain ⟨rfl, h⟩ := h
  cases h; rfl

theorem sregs_length (rs : List Reg) : (sregs rs).length = rs.length := by simp [sregs]

/-- an open bracket: values a branch carries, registers it delivers them to, where it goes, operands below it -/
structure Lab where
  arity : Nat
  dst : List Reg
  pc : Nat
  seg : List SOp

/-- all in registers -/
def RegsOnly (r : List SOp) : Prop := ∀ x ∈ r, ∃ g, x = SOp.ofReg g

/-- not among the operands in use -/
def Free (Γ : List Lab) (r : List SOp) (x : Reg) : Prop := SOp.ofReg x ∉ r ∧ ∀ l ∈ Γ, SOp.ofReg x ∉ l.seg

/-- sanity of the open brackets -/
def WfG (W : Cls → Nat) : List Lab → Prop
  | [] => True
  | l :: Γ => RegsOnly l.seg ∧ (∀ x ∈ l.dst, Free Γ l.seg x) ∧ WfG W Γ

/-- a move list that acts as a parallel move -/
structure MoveOk (W : Cls → Nat) (src dst : List Reg) : Prop where
  cls : src.map (·.cls) = dst.map (·.cls)
  nodup : dst.Nodup
  later : ∀ i j (hi : i < dst.length) (hj : j < src.length), i < j → dst[i] ≠ src[j]
  win : ∀ x ∈ src ++ dst, x.idx < W x.cls

/-- what a branch instruction must look like -/
def BrOk (K : FnCtx) (len : Nat) (W : Cls → Nat) (Γ : List Lab) (d : Nat) (os : List SOp) (src dst : List Reg)
    (t : Nat) : Prop :=
  match Γ[d]? with
  | some l => t = l.pc ∧ ∃ cs, (∃ r, os = sregs cs ++ r) ∧ cs.length = l.arity ∧
      ((src = cs ∧ dst = l.dst ∧ MoveOk W src dst) ∨ (cs = l.dst ∧ (src = [] ∨ dst = [])))
  | none => d = Γ.length ∧ K.results = [] ∧ src = [] ∧ dst = [] ∧ t = len

/-- type of a local -/
def FnCtx.lty (K : FnCtx) (i : Nat) : Option Cls := (localTypes K.params K.locals)[i]?

/-- register entry -/
abbrev sr (c : Cls) (i : Nat) : SOp := ⟨c, .reg i⟩

/-- operators with one result: operands (top first), destination, its class, instruction -/
inductive OpI (K : FnCtx) : WOp → List SOp → Dst → Cls → Instr → Prop
  | globalGet {g : Nat} {c : Cls} {d : Dst} : K.M.globals[g]? = some c → OpI K (.globalGet g) [] d c (.globalGet c d g)
  | const {c : Cls} {v : c.Carrier} {d : Dst} : OpI K (.const c v) [] d c (.op1 (.mov c) d (.const v))
  | localGet {i : Nat} {c : Cls} {d : Dst} : FnCtx.lty K i = some c →
      OpI K (.localGet i) [] d c (.op1 (.mov c) d (.param i))
  | un {op : Op1} {a : Opnd op.src} {d : Dst} : OpI K (.un op) [⟨op.src, a⟩] d op.dst (.op1 op d a)
  | bin {op : Op2} {a b : Opnd op.src} {d : Dst} : OpI K (.bin op) [⟨op.src, b⟩, ⟨op.src, a⟩] d op.dst (.op2 op d a b)
  | load {op : LoadOp} {off : BitVec 64} {a : Opnd .i32} {d : Dst} :
      OpI K (.load op off) [⟨.i32, a⟩] d op.cls (.load op d a off)
  | memSize {d : Nat} : OpI K .memSize [] (.reg d) .i32 (.memSize d)
  | memGrow {a d : Nat} : OpI K .memGrow [sr .i32 a] (.reg d) .i32 (.memGrow d a)
  | select {c : Cls} {x v1 v2 d : Nat} : OpI K .select [sr .i32 x, sr c v2, sr c v1] (.reg d) c (.select c d v1 v2 x)
  | selectT {c : Cls} {x v1 v2 d : Nat} :
      OpI K (.selectT c) [sr .i32 x, sr c v2, sr c v1] (.reg d) c (.select c d v1 v2 x)
  | refNull {d : Nat} : OpI K .refNull [] (.reg d) .ref (.refNull d)
  | refIsNull {a d : Nat} : OpI K .refIsNull [sr .ref a] (.reg d) .i32 (.refIsNull d a)
  | tableGet {t a d : Nat} : OpI K (.tableGet t) [sr .i32 a] (.reg d) .ref (.tableGet t d a)
  | refLocalGet {i d : Nat} : FnCtx.lty K i = some .ref → OpI K (.localGet i) [] (.reg d) .ref (.refLocalGet d i)

/-- operators without a new result: operands, those that stay, instruction -/
inductive OpE (K : FnCtx) : WOp → List SOp → List SOp → Instr → Prop
  | localSet {i x : Nat} {c : Cls} : FnCtx.lty K i = some c →
      OpE K (.localSet i) [sr c x] [] (.op1 (.mov c) (.loc i) (.reg x))
  | localSetRef {i x : Nat} : FnCtx.lty K i = some .ref → OpE K (.localSet i) [sr .ref x] [] (.refLocalSet x i)
  | localTee {i x : Nat} {c : Cls} : FnCtx.lty K i = some c →
      OpE K (.localTee i) [sr c x] [sr c x] (.op1 (.mov c) (.loc i) (.reg x))
  | localTeeRef {i x : Nat} : FnCtx.lty K i = some .ref →
      OpE K (.localTee i) [sr .ref x] [sr .ref x] (.refLocalSet x i)
  | globalSet {g x : Nat} {c : Cls} : K.M.globals[g]? = some c → numeric c = true →
      OpE K (.globalSet g) [sr c x] [] (.globalSet c (.reg x) g)
  | store {op : StoreOp} {off : BitVec 64} {a : Opnd .i32} {x : Nat} :
      OpE K (.store op off) [sr op.cls x, ⟨.i32, a⟩] [] (.store op a x off)
  | memCopy {a b n : Nat} : OpE K .memCopy [sr .i32 n, sr .i32 b, sr .i32 a] [] (.memCopy a b n)
  | memInit {k a b n : Nat} : OpE K (.memInit k) [sr .i32 n, sr .i32 b, sr .i32 a] [] (.memInit k a b n)
  | memFill {a b n : Nat} : OpE K .memFill [sr .i32 n, sr .i32 b, sr .i32 a] [] (.memFill a b n)
  | dataDrop {k : Nat} : OpE K (.dataDrop k) [] [] (.dataDrop k)
  | tableSet {t i x : Nat} : OpE K (.tableSet t) [sr .ref x, sr .i32 i] [] (.tableSet t i x)
  | tableFill {t i x n : Nat} : OpE K (.tableFill t) [sr .i32 n, sr .ref x, sr .i32 i] [] (.tableFill t i x n)

/-- operators whose result stays where it is until it is used -/
inductive Prod (K : FnCtx) : WOp → SOp → Prop
  | const {c : Cls} {v : c.Carrier} : Prod K (.const c v) ⟨c, .const v⟩
  | localGet {i : Nat} {c : Cls} : FnCtx.lty K i = some c → Prod K (.localGet i) ⟨c, .param i⟩

/-- destination registers for new values -/
def Fresh (W : Cls → Nat) (Γ : List Lab) (r : List SOp) (rs : List Reg) : Prop :=
  rs.Nodup ∧ ∀ x ∈ rs, Free Γ r x ∧ x.idx < W x.cls ∧ x.cls ≠ .v128

/-- The code from `pc` to `pc'` of `body` implements the sequence.  `out` are the operands at the end, `none` if it is not
reached. -/
inductive Sym (K : FnCtx) (body : List Instr) (W : Cls → Nat) :
    List Lab → WSeq → List SOp → Nat → Nat → Option (List SOp) → Prop
  | done {Γ : List Lab} {os : List SOp} {pc : Nat} : Sym K body W Γ .done os pc pc (some os)
  | prod {Γ : List Lab} {o : WOp} {p : SOp} {k : WSeq} {os : List SOp} {pc pc' : Nat} {out : Option (List SOp)} :
      Prod K o p → Sym K body W Γ k (p :: os) pc pc' out → Sym K body W Γ (.op o k) os pc pc' out
  | drop {Γ : List Lab} {x : SOp} {k : WSeq} {os : List SOp} {pc pc' : Nat} {out : Option (List SOp)} :
      Sym K body W Γ k os pc pc' out → Sym K body W Γ (.op .drop k) (x :: os) pc pc' out
  | nop {Γ : List Lab} {k : WSeq} {os : List SOp} {pc pc' : Nat} {out : Option (List SOp)} :
      Sym K body W Γ k os pc pc' out → Sym K body W Γ (.op .nop k) os pc pc' out
  | val {Γ : List Lab} {o : WOp} {args r : List SOp} {d : Nat} {dc : Cls} {i : Instr} {k : WSeq} {pc pc' : Nat}
      {out : Option (List SOp)} : OpI K o args (.reg d) dc i → body[pc]? = some i → Free Γ r ⟨dc, d⟩ → d < W dc →
      Sym K body W Γ k (sr dc d :: r) (pc + 1) pc' out → Sym K body W Γ (.op o k) (args ++ r) pc pc' out
  | valL {Γ : List Lab} {o : WOp} {args r : List SOp} {l : Nat} {dc : Cls} {i : Instr} {k : WSeq} {pc pc' : Nat}
      {out : Option (List SOp)} : OpI K o args (.loc l) dc i → body[pc]? = some i → FnCtx.lty K l = some dc →
      RegsOnly r → Sym K body W Γ k r (pc + 1) pc' out →
      Sym K body W Γ (.op o (.op (.localSet l) k)) (args ++ r) pc pc' out
  | eff {Γ : List Lab} {o : WOp} {args keep r : List SOp} {i : Instr} {k : WSeq} {pc pc' : Nat}
      {out : Option (List SOp)} : OpE K o args keep i → body[pc]? = some i → RegsOnly r →
      Sym K body W Γ k (keep ++ r) (pc + 1) pc' out → Sym K body W Γ (.op o k) (args ++ r) pc pc' out
  | unreachable {Γ : List Lab} {k : WSeq} {os : List SOp} {pc pc' : Nat} : body[pc]? = some .unreachable →
      Sym K body W Γ (.op .unreachable k) os pc pc' none
  | br {Γ : List Lab} {d t : Nat} {src dst : List Reg} {k : WSeq} {os : List SOp} {pc pc' : Nat} :
      body[pc]? = some (.br d t src dst) → BrOk K body.length W Γ d os src dst t →
      Sym K body W Γ (.op (.br d) k) os pc pc' none
  | brIf {Γ : List Lab} {d t c : Nat} {src dst : List Reg} {k : WSeq} {os : List SOp} {pc pc' : Nat}
      {out : Option (List SOp)} :
      body[pc]? = some (.brIf d t c src dst) → BrOk K body.length W Γ d os src dst t →
      Sym K body W Γ k os (pc + 1) pc' out → Sym K body W Γ (.op (.brIf d) k) (sr .i32 c :: os) pc pc' out
  | brTable {Γ : List Lab} {ds : List Nat} {d c : Nat} {ts : List (Nat × Nat × List Reg)} {dt : Nat × Nat × List Reg}
      {src : List Reg} {k : WSeq} {os : List SOp} {pc pc' : Nat} :
      body[pc]? = some (.brTable ts dt c src) → ts.map (·.1) = ds → dt.1 = d →
      (∀ t ∈ dt :: ts, t.1 < Γ.length ∧ BrOk K body.length W Γ t.1 os src t.2.2 t.2.1) →
      Sym K body W Γ (.op (.brTable ds d) k) (sr .i32 c :: os) pc pc' none
  | ret {Γ : List Lab} {src : List Reg} {k : WSeq} {r : List SOp} {pc pc' : Nat} : body[pc]? = some (.ret src) →
      src.map (·.cls) = K.results → Sym K body W Γ (.op .ret k) (sregs src ++ r) pc pc' none
  | call {Γ : List Lab} {f : Nat} {t : FuncType} {ps rs : List Reg} {k : WSeq} {r : List SOp} {pc pc' : Nat}
      {out : Option (List SOp)} : K.M.funcs[f]? = some (none, t) → body[pc]? = some (.call f ps rs) →
      ps.map (·.cls) = t.params → rs.map (·.cls) = t.results → Fresh W Γ r rs →
      Sym K body W Γ k (sregs rs ++ r) (pc + 1) pc' out → Sym K body W Γ (.op (.call f) k) (sregs ps ++ r) pc pc' out
  | callWasi {Γ : List Lab} {f id : Nat} {t : FuncType} {ps rs : List Reg} {k : WSeq} {r : List SOp} {pc pc' : Nat}
      {out : Option (List SOp)} : K.M.funcs[f]? = some (some id, t) → body[pc]? = some (.callWasi id ps rs.head?) →
      ps.map (·.cls) = t.params → rs.map (·.cls) = t.results → rs.length ≤ 1 → Fresh W Γ r rs →
      Sym K body W Γ k (sregs rs ++ r) (pc + 1) pc' out → Sym K body W Γ (.op (.call f) k) (sregs ps ++ r) pc pc' out
  | callIndirect {Γ : List Lab} {ty tbl x : Nat} {t : FuncType} {ps rs : List Reg} {k : WSeq} {r : List SOp} {pc pc' : Nat}
      {out : Option (List SOp)} : K.M.types[ty]? = some t → body[pc]? = some (.callIndirect ty tbl x ps rs) →
      ps.map (·.cls) = t.params → rs.map (·.cls) = t.results → Fresh W Γ r rs →
      Sym K body W Γ k (sregs rs ++ r) (pc + 1) pc' out →
      Sym K body W Γ (.op (.callIndirect ty tbl) k) (sr .i32 x :: (sregs ps ++ r)) pc pc' out
  | block {Γ : List Lab} {bt : BlockTy} {b k : WSeq} {ps r : List SOp} {src dst : List Reg} {pc pcE pc' : Nat}
      {ob out : Option (List SOp)} : body[pc]? = some (.block false) →
      ps.map (·.cls) = (K.M.blockParams bt).reverse → RegsOnly r → dst.length = (K.M.blockResults bt).length →
      (∀ x ∈ dst, Free Γ r x) →
      Sym K body W (⟨dst.length, dst, pcE + 1, r⟩ :: Γ) b ps (pc + 1) pcE ob →
      body[pcE]? = some (.fin src dst) → pcE + 1 < body.length → (∀ os, ob = some os → os = sregs src ∧ MoveOk W src dst) →
      Sym K body W Γ k (sregs dst ++ r) (pcE + 1) pc' out →
      Sym K body W Γ (.block bt b k) (ps ++ r) pc pc' out
  | loop {Γ : List Lab} {bt : BlockTy} {b k : WSeq} {r : List SOp} {ps src dst : List Reg} {pc pcE pc' : Nat}
      {ob out : Option (List SOp)} : body[pc]? = some (.block true) → ps.map (·.cls) = K.M.blockParams bt → RegsOnly r →
      (∀ x ∈ ps, Free Γ r x) → dst.length = (K.M.blockResults bt).length → (∀ x ∈ dst, Free Γ r x) →
      Sym K body W (⟨ps.length, ps, pc, r⟩ :: Γ) b (sregs ps) (pc + 1) pcE ob →
      body[pcE]? = some (.fin src dst) → pcE + 1 < body.length → (∀ os, ob = some os → os = sregs src ∧ MoveOk W src dst) →
      Sym K body W Γ k (sregs dst ++ r) (pcE + 1) pc' out →
      Sym K body W Γ (.loop bt b k) (sregs ps ++ r) pc pc' out
  | ite {Γ : List Lab} {bt : BlockTy} {b k : WSeq} {r : List SOp} {src dst : List Reg} {c pc pcE pc' : Nat}
      {ob out : Option (List SOp)} : body[pc]? = some (.ite c (pcE + 1) false) →
      dst.map (·.cls) = K.M.blockParams bt → RegsOnly r → dst.length = (K.M.blockResults bt).length →
      (∀ x ∈ dst, Free Γ r x) →
      Sym K body W (⟨dst.length, dst, pcE + 1, r⟩ :: Γ) b (sregs dst) (pc + 1) pcE ob →
      body[pcE]? = some (.fin src dst) → pcE + 1 < body.length → (∀ os, ob = some os → os = sregs src ∧ MoveOk W src dst) →
      Sym K body W Γ k (sregs dst ++ r) (pcE + 1) pc' out →
      Sym K body W Γ (.ite bt b k) (sr .i32 c :: (sregs dst ++ r)) pc pc' out
  | itee {Γ : List Lab} {bt : BlockTy} {t e k : WSeq} {ps r : List SOp} {src dst : List Reg} {c pc pcJ pcE pc' : Nat}
      {ot ob out : Option (List SOp)} : body[pc]? = some (.ite c (pcJ + 1) true) →
      ps.map (·.cls) = (K.M.blockParams bt).reverse → RegsOnly r → dst.length = (K.M.blockResults bt).length →
      (∀ x ∈ dst, Free Γ r x) →
      Sym K body W (⟨dst.length, dst, pcE + 1, r⟩ :: Γ) t ps (pc + 1) pcJ ot →
      body[pcJ]? = some (.jump (pcE + 1)) → (∀ os, ot = some os → os = sregs dst) →
      Sym K body W (⟨dst.length, dst, pcE + 1, r⟩ :: Γ) e ps (pcJ + 1) pcE ob →
      body[pcE]? = some (.fin src dst) → pcE + 1 < body.length → (∀ os, ob = some os → os = sregs src ∧ MoveOk W src dst) →
      Sym K body W Γ k (sregs dst ++ r) (pcE + 1) pc' out →
      Sym K body W Γ (.itee bt t e k) (sr .i32 c :: (ps ++ r)) pc pc' out

/-- a whole function body -/
structure SymFn (K : FnCtx) (body : List Instr) (W : Cls → Nat) (w : WSeq) : Prop where
  sym : ∃ pcE out src dst, Sym K body W [] w [] 0 pcE out ∧ body[pcE]? = some (.fin src dst) ∧ body.length = pcE + 1 ∧
    (∀ os, out = some os → os = sregs src ∧ src.map (·.cls) = K.results)

end Verif.Lemmas
