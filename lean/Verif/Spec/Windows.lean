import Verif.Spec.Compiled
/-
Which registers and locals an instruction names.  Registers are relative to the window of the running frame.
-/
namespace Verif.Spec
open Verif.Model

/-- registers read through a source operand (operand.rs:26-169) -/
def _root_.Verif.Model.Opnd.regs {c : Cls} : Opnd c → List Reg
  | .reg i => [⟨c, i⟩]
  | _ => []

/-- locals read through a source operand -/
def _root_.Verif.Model.Opnd.locs {c : Cls} : Opnd c → List Nat
  | .param i => [i]
  | _ => []

/-- registers named by a destination of class `c` (operand.rs:38-217) -/
def _root_.Verif.Model.Dst.regs (c : Cls) : Dst → List Reg
  | .reg i => [⟨c, i⟩]
  | .loc _ => []

/-- locals named by a destination -/
def _root_.Verif.Model.Dst.locs : Dst → List Nat
  | .reg _ => []
  | .loc i => [i]

/-- every register an instruction reads or writes, in whatever state it is executed (handlers.rs:408-2090) -/
def _root_.Verif.Model.Instr.regs : Instr → List Reg
  | .op1 op d a => d.regs op.dst ++ a.regs
  | .op2 op d a b => d.regs op.dst ++ a.regs ++ b.regs
  | .load op d a _ => d.regs op.cls ++ a.regs
  | .store op a v _ => a.regs ++ [⟨op.cls, v⟩]
  | .memSize d => [⟨.i32, d⟩]
  | .memGrow d a => [⟨.i32, d⟩, ⟨.i32, a⟩]
  | .memCopy a b c | .memFill a b c | .memInit _ a b c => [⟨.i32, a⟩, ⟨.i32, b⟩, ⟨.i32, c⟩]
  | .select c d a b x => [⟨c, d⟩, ⟨c, a⟩, ⟨c, b⟩, ⟨.i32, x⟩]
  | .globalGet c d _ | .globalSet c d _ => d.regs c
  | .refLocalGet d _ => [⟨.ref, d⟩]
  | .refLocalSet s _ => [⟨.ref, s⟩]
  | .refNull d => [⟨.ref, d⟩]
  | .refIsNull d s => [⟨.i32, d⟩, ⟨.ref, s⟩]
  | .tableGet _ d i => [⟨.ref, d⟩, ⟨.i32, i⟩]
  | .tableSet _ i s => [⟨.i32, i⟩, ⟨.ref, s⟩]
  | .tableFill _ i s n => [⟨.i32, i⟩, ⟨.ref, s⟩, ⟨.i32, n⟩]
  | .callWasi _ ps r => ps ++ r.toList
  | .callIndirect _ _ i ps rs => ⟨.i32, i⟩ :: (ps ++ rs)
  | .call _ ps rs => ps ++ rs
  | .ret rs => rs
  | .ite c _ _ => [⟨.i32, c⟩]
  | .fin s d | .br _ _ s d => s ++ d
  | .brIf _ _ c s d => ⟨.i32, c⟩ :: (s ++ d)
  | .brTable ts df i s => ⟨.i32, i⟩ :: (s ++ df.2.2 ++ ts.flatMap (·.2.2))
  | .dataDrop _ | .jump _ | .block _ | .nop | .unreachable => []

/-- every local an instruction reads or writes -/
def _root_.Verif.Model.Instr.locs : Instr → List Nat
  | .op1 _ d a => d.locs ++ a.locs
  | .op2 _ d a b => d.locs ++ a.locs ++ b.locs
  | .load _ d a _ => d.locs ++ a.locs
  | .store _ a _ _ => a.locs
  | .globalGet _ d _ | .globalSet _ d _ => d.locs
  | .refLocalGet _ l | .refLocalSet _ l => [l]
  | _ => []

/-- Everything the instruction names exists in a frame with `W c` registers of class `c` and `nl` locals. -/
structure InWindow (W : Cls → Nat) (nl : Nat) (i : Instr) : Prop where
  regs : ∀ r ∈ i.regs, r.idx < W r.cls
  locs : ∀ l ∈ i.locs, l < nl

/-- a body without a typed `select` on references (which the preprocessor gives the 64-bit integer registers,
`Verif.Props.Bug.select_on_references_violated`) -/
def NoRefSelect : WSeq → Prop
  | .done => True
  | .op o k => o ≠ .selectT .ref ∧ NoRefSelect k
  | .block _ b k | .loop _ b k | .ite _ b k => NoRefSelect b ∧ NoRefSelect k
  | .itee _ t e k => NoRefSelect t ∧ NoRefSelect e ∧ NoRefSelect k

end Verif.Spec
