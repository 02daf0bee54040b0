import Verif.Spec.Windows
import Verif.Spec.Mem
/-
What may go wrong when unchecked code runs, and the modules for which nothing else does.
-/
namespace Verif.Spec
open Verif.Model

/-- Executing `i` in state `s` accesses linear memory outside its bounds (WebAssembly would trap).  Addresses and lengths are
the unbounded integers of the WebAssembly specification; a zero length copy or fill accesses nothing. -/
inductive OutOfRange (s : VM) : Instr → Prop
  | load {op : LoadOp} {dst : Dst} {addr : Opnd .i32} {off : BitVec 64} {p : BitVec 32} (hp : s.read .i32 addr = .ok p)
      (h : ∀ m, s.inst.mem = some m → ¬ InBounds m.data.length (p.toNat + off.toNat) op.bytes) :
      OutOfRange s (.load op dst addr off)
  | store {op : StoreOp} {addr : Opnd .i32} {value : Nat} {off : BitVec 64} {p : BitVec 32} (hp : s.read .i32 addr = .ok p)
      (h : ∀ m, s.inst.mem = some m → ¬ InBounds m.data.length (p.toNat + off.toNat) op.bytes) :
      OutOfRange s (.store op addr value off)
  | copy {d r n : Nat} {m : Mem} {dv rv nv : BitVec 32} (hm : s.inst.mem = some m) (hd : s.rf.get .i32 d = .ok dv)
      (hr : s.rf.get .i32 r = .ok rv) (hn : s.rf.get .i32 n = .ok nv) (h0 : nv ≠ 0)
      (h : ¬ InBounds m.data.length dv.toNat nv.toNat ∨ ¬ InBounds m.data.length rv.toNat nv.toNat) :
      OutOfRange s (.memCopy d r n)
  | fill {d v n : Nat} {m : Mem} {dv nv : BitVec 32} (hm : s.inst.mem = some m) (hd : s.rf.get .i32 d = .ok dv)
      (hn : s.rf.get .i32 n = .ok nv) (h0 : nv ≠ 0) (h : ¬ InBounds m.data.length dv.toNat nv.toNat) :
      OutOfRange s (.memFill d v n)

/-- A module that passes WebAssembly validation, without typed `select` on references (the preprocessor gives it registers of
the wrong class, `Verif.Props.Bug.select_on_references_violated`), whose host functions have at most one result (all WASI
functions do). -/
structure Validated (Q : SProg) (globals : List Cls) : Prop where
  valid : ∀ t ls b, SFunc.wasm t ls b ∈ Q.funcs → ValidFn (fnCtx (Q.info globals) t ls) b
  noRef : ∀ t ls b, SFunc.wasm t ls b ∈ Q.funcs → NoRefSelect b
  one : ∀ t id, SFunc.wasi t id ∈ Q.funcs → t.results.length ≤ 1

end Verif.Spec
