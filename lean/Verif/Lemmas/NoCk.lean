import Verif.Lemmas.VM
/-
No handler reports `CheckpointRequested`: that outcome only comes from the poll.
-/
namespace Verif.Model
open Verif.Spec (LoadOp StoreOp)

/-- `x` is not the checkpoint request -/
structure NoCk {α : Type} (x : Res α) : Prop where
  ne : x ≠ .trap .checkpointRequested

theorem NoCk.ok {α : Type} (v : α) : NoCk (Res.ok v) := by exact ⟨by simp⟩
theorem NoCk.pure {α : Type} (v : α) : NoCk (Pure.pure v : Res α) := by exact ⟨by simp⟩
theorem NoCk.ub {α : Type} : NoCk (Res.ub : Res α) := by exact ⟨by simp⟩
theorem NoCk.panic {α : Type} : NoCk (Res.panic : Res α) := by exact ⟨by simp⟩
theorem NoCk.trap {α : Type} {e : Err} (h : e ≠ .checkpointRequested) : NoCk (Res.trap e : Res α) := by exact ⟨by simp [h]⟩

theorem NoCk.bind {α β : Type} {x : Res α} {f : α → Res β} (hx : NoCk x) (hf : ∀ a, NoCk (f a)) : NoCk (x >>= f) := by
  cases x with
  | ok a => exact hf a
  | trap e => exact ⟨by simpa using hx.ne⟩
  | panic => exact .panic
  | ub => exact .ub

theorem NoCk.get (r : RegFile) (c : Cls) (i : Nat) : NoCk (r.get c i) := by
  unfold RegFile.get; split <;> exact ⟨by simp⟩
theorem NoCk.set (r : RegFile) (c : Cls) (i : Nat) (v : c.Carrier) : NoCk (r.set c i v) := by
  unfold RegFile.set; split <;> exact ⟨by simp⟩
theorem NoCk.copyReg (r : RegFile) (a b : Reg) : NoCk (r.copyReg a b) := by
  unfold RegFile.copyReg; split
  · exact NoCk.bind (NoCk.get ..) fun _ => NoCk.set ..
  · exact NoCk.ok _
theorem NoCk.copyRegs : ∀ (a b : List Reg) (r : RegFile), NoCk (r.copyRegs a b)
  | [], _, r => by simp [RegFile.copyRegs, NoCk.ok]
  | _ :: _, [], r => by simp [RegFile.copyRegs, NoCk.ok]
  | x :: xs, y :: ys, r => by
    unfold RegFile.copyRegs
    exact NoCk.bind (NoCk.copyReg ..) fun _ => NoCk.copyRegs xs ys _
theorem NoCk.copyIf (a b : List Reg) (r : RegFile) : NoCk (r.copyIf a b) := by
  unfold RegFile.copyIf; split
  · exact NoCk.copyRegs ..
  · exact NoCk.ok _
theorem NoCk.getVals (r : RegFile) : ∀ xs : List Reg, NoCk (r.getVals xs)
  | [] => NoCk.ok _
  | x :: xs => by
    unfold RegFile.getVals
    refine NoCk.bind ?_ fun _ => NoCk.bind (NoCk.getVals r xs) fun _ => NoCk.pure _
    unfold RegFile.getVal
    exact NoCk.bind (NoCk.get ..) fun _ => NoCk.pure _
theorem NoCk.cap8 (rs : List Reg) : NoCk (cap8 rs) := by
  unfold Model.cap8; split <;> exact ⟨by simp⟩
theorem NoCk.read (s : VM) (c : Cls) (o : Opnd c) : NoCk (s.read c o) := by
  cases o with
  | reg i => exact NoCk.get ..
  | const v => exact NoCk.ok _
  | param i => simp only [VM.read]; split <;> exact ⟨by simp⟩
theorem NoCk.write (s : VM) (c : Cls) (d : Dst) (v : c.Carrier) : NoCk (s.write c d v) := by
  cases d with
  | reg i => exact NoCk.bind (NoCk.set ..) fun _ => NoCk.pure _
  | loc i => simp only [VM.write]; split <;> exact ⟨by simp⟩
theorem NoCk.branch (s : VM) (d t : Nat) (a b : List Reg) : NoCk (s.branch d t a b) :=
  NoCk.bind (NoCk.copyIf ..) fun _ => NoCk.pure _
theorem NoCk.rawMem (s : VM) : NoCk s.rawMem := by
  unfold VM.rawMem; repeat' split
  all_goals exact ⟨by simp⟩
theorem NoCk.mem0 (s : VM) : NoCk s.mem0 := by
  unfold VM.mem0; split <;> exact ⟨by simp⟩
theorem NoCk.readAt (d : List Byte) (a n : Nat) : NoCk (readAt d a n) := by
  unfold Model.readAt; split <;> exact ⟨by simp⟩
theorem NoCk.writeAt (d : List Byte) (a : Nat) (b : List Byte) : NoCk (writeAt d a b) := by
  unfold Model.writeAt; split <;> exact ⟨by simp⟩
theorem NoCk.load (m : Mem) (op : LoadOp) (p : BitVec 32) (o : BitVec 64) : NoCk (m.load op p o) :=
  NoCk.bind (NoCk.readAt ..) fun _ => NoCk.pure _
theorem NoCk.store (m : Mem) (op : StoreOp) (p : BitVec 32) (o : BitVec 64) (v) : NoCk (m.store op p o v) :=
  NoCk.bind (NoCk.writeAt ..) fun _ => NoCk.pure _
theorem NoCk.growInstr (m : Mem) (d : BitVec 32) : NoCk (m.growInstr d) := by
  unfold Mem.growInstr; split <;> exact ⟨by simp⟩
theorem NoCk.copy (m : Mem) (a b c : BitVec 32) : NoCk (m.copy a b c) := by
  unfold Mem.copy; split
  · exact NoCk.ok _
  · exact NoCk.bind (NoCk.readAt ..) fun _ => NoCk.bind (NoCk.writeAt ..) fun _ => NoCk.pure _
theorem NoCk.fill (m : Mem) (a b c : BitVec 32) : NoCk (m.fill a b c) := by
  unfold Mem.fill; split
  · exact NoCk.ok _
  · exact NoCk.bind (NoCk.writeAt ..) fun _ => NoCk.pure _
theorem NoCk.initInstr (m : Mem) (s : List Byte) (a b c : BitVec 32) : NoCk (m.initInstr s a b c) := by
  unfold Mem.initInstr Mem.init; dsimp only; repeat' split
  all_goals exact ⟨by simp⟩
theorem NoCk.setGlobal (gs : List Global) (g : Nat) (v : Val) : NoCk (setGlobal gs g v) := by
  unfold Model.setGlobal; repeat' split
  all_goals exact ⟨by simp⟩
theorem NoCk.fillTable (t : List Ref) (i : BitVec 32) (r : Ref) (n : BitVec 32) : NoCk (fillTable t i r n) := by
  unfold Model.fillTable; simp only; repeat' split
  all_goals exact ⟨by simp⟩
theorem NoCk.truncTrap (op : Verif.Spec.TruncOp) (n : Nat) : NoCk (truncTrap op n) := by
  unfold Model.truncTrap; simp only; repeat' split
  all_goals exact ⟨by simp⟩
theorem NoCk.eval1 (H : FloatHost) (op : Op1) (a : op.src.Carrier) : NoCk (op.eval H a) := by
  cases op with
  | trunc op => exact NoCk.bind (NoCk.truncTrap ..) fun _ => NoCk.pure _
  | int s op => cases s <;> exact NoCk.ok _
  | eqz s => cases s <;> exact NoCk.ok _
  | reinterpIF s => cases s <;> exact NoCk.ok _
  | reinterpFI s => cases s <;> exact NoCk.ok _
  | _ => exact NoCk.ok _
theorem NoCk.iBin {w : Nat} (op : Verif.Spec.IBinOp) (a b : BitVec w) : NoCk (iBin op a b) := by
  cases op <;> simp only [Model.iBin]
  all_goals repeat' split
  all_goals exact ⟨by simp⟩
theorem NoCk.eval2 (H : FloatHost) (op : Op2) (a b : op.src.Carrier) : NoCk (op.eval H a b) := by
  cases op with
  | int s op => cases s <;> exact NoCk.iBin ..
  | rel s op => cases s <;> exact NoCk.ok _
  | _ => exact NoCk.ok _

/-- no handler yields the checkpoint request -/
theorem step_noCk (H : FloatHost) (P : Prog) (len : Nat) (s : VM) (i : Instr) : NoCk (step H P len s i) := by
  cases i <;> simp only [step] <;>
    repeat' first
      | exact NoCk.ok _ | exact NoCk.pure _ | exact NoCk.ub | exact NoCk.panic | exact NoCk.trap (by decide)
      | exact NoCk.get .. | exact NoCk.set .. | exact NoCk.read .. | exact NoCk.write .. | exact NoCk.eval1 ..
      | exact NoCk.eval2 .. | exact NoCk.rawMem _ | exact NoCk.mem0 _ | exact NoCk.load .. | exact NoCk.store ..
      | exact NoCk.growInstr .. | exact NoCk.copy .. | exact NoCk.fill .. | exact NoCk.initInstr ..
      | exact NoCk.setGlobal .. | exact NoCk.fillTable .. | exact NoCk.getVals .. | exact NoCk.cap8 _
      | exact NoCk.copyRegs .. | exact NoCk.branch ..
      | refine NoCk.bind ?_ fun _ => ?_
      | split

theorem step_trap_ne {H : FloatHost} {P : Prog} {len : Nat} {s : VM} {i : Instr} {e : Err}
    (h : step H P len s i = .trap e) : e ≠ .checkpointRequested := by
  have := (step_noCk H P len s i).ne
  rw [h] at this
  simpa using this

end Verif.Model
