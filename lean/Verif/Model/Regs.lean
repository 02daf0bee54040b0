import Verif.Model.Types
/-
Model of src/execution/regs.rs: the register file shared by all frames, and the compile-time register allocator.
The six `Vec`s / six counters of the Rust structs are modelled as families indexed by `Cls`.
-/
namespace Verif.Model

/-- pointwise update of a family indexed by `Cls` -/
def upd {β : Cls → Type} (f : (c : Cls) → β c) (c : Cls) (v : β c) : (c : Cls) → β c :=
  fun d => if h : d = c then h ▸ v else f d

@[simp] theorem upd_same {β : Cls → Type} (f : (c : Cls) → β c) (c : Cls) (v : β c) : upd f c v c = v := by
  simp [upd]

@[simp] theorem upd_ne {β : Cls → Type} (f : (c : Cls) → β c) (c d : Cls) (v : β c) (h : d ≠ c) :
    upd f c v d = f d := by
  simp [upd, h]

/-- regs.rs:12-20 `Reg`: bank and index (`u16` in Rust; `Alloc.mkReg` below is where the truncation happens). -/
structure Reg where
  cls : Cls
  idx : Nat
  deriving DecidableEq, Repr

/-- regs.rs:46-53 `FrameRegOffsets` -/
abbrev Offsets := Cls → Nat

/-- regs.rs:57-68 `RegFile`.  `frames` has the most recent frame first (Rust pushes at the end). -/
structure RegFile where
  regs : (c : Cls) → List c.Carrier
  frames : List Offsets
  cached : Offsets

namespace RegFile

/-- regs.rs:73-84 `new_global` -/
def empty : RegFile := { regs := fun _ => [], frames := [], cached := fun _ => 0 }

/-- regs.rs:125-163 `save_offsets`: new window at the current end, vectors extended by the allocation.
(`len as u32` is lossless since `usize` is 32 bits.) -/
def saveOffsets (r : RegFile) (alloc : Cls → Nat) : RegFile :=
  let off : Offsets := fun c => (r.regs c).length
  { regs := fun c => r.regs c ++ List.replicate (alloc c) c.zero
    frames := off :: r.frames
    cached := off }

/-- regs.rs:170-180 `restore_offsets` -/
def restoreOffsets (r : RegFile) : RegFile :=
  match r.frames with
  | [] => { r with cached := fun _ => 0 }
  | off :: rest =>
    { regs := fun c => (r.regs c).take (off c)
      frames := rest
      cached := match rest with | [] => fun _ => 0 | o :: _ => o }

/-- regs.rs:195-268 `get_i32` ... `get_v128` (`get_unchecked`) -/
def get (r : RegFile) (c : Cls) (i : Nat) : Res c.Carrier :=
  match (r.regs c)[r.cached c + i]? with
  | some v => .ok v
  | none => .ub

/-- regs.rs:201-276 `set_i32` ... `set_v128` (`get_unchecked_mut`) -/
def set (r : RegFile) (c : Cls) (i : Nat) (v : c.Carrier) : Res RegFile :=
  if r.cached c + i < (r.regs c).length then
    .ok { r with regs := upd r.regs c ((r.regs c).set (r.cached c + i) v) }
  else .ub

/-- regs.rs:280-308 `copy_reg`: a bank mismatch is silently ignored -/
def copyReg (r : RegFile) (src dst : Reg) : Res RegFile :=
  if h : src.cls = dst.cls then do
    let v ← r.get src.cls src.idx
    r.set dst.cls dst.idx (h ▸ v)
  else .ok r

/-- regs.rs:312-316 `copy_regs`: sequential over the zip of the two slices -/
def copyRegs (r : RegFile) : List Reg → List Reg → Res RegFile
  | s :: ss, d :: ds => do
    let r' ← r.copyReg s d
    copyRegs r' ss ds
  | _, _ => .ok r

/-- regs.rs:364-373 `get_val` -/
def getVal (r : RegFile) (x : Reg) : Res Val := do
  let v ← r.get x.cls x.idx
  pure ⟨x.cls, v⟩

/-- regs.rs:377-390 `set_val`: numeric bank mismatch writes 0 (`unwrap_or(0)`), a non-reference written to a `Ref`
register is ignored, `V128` registers are never written. -/
def setVal (r : RegFile) (x : Reg) (v : Val) : Res RegFile :=
  match x.cls with
  | .v128 => .ok r
  | .ref => if h : v.cls = .ref then r.set .ref x.idx (h ▸ v.v) else .ok r
  | c => if h : v.cls = c then r.set c x.idx (h ▸ v.v) else r.set c x.idx c.zero

end RegFile

/-- regs.rs:420-440 `RegAllocator`.  `types` is the type stack, top first. -/
structure Alloc where
  depth : Cls → Nat
  maxDepth : Cls → Nat
  types : List Cls

namespace Alloc

/-- `Reg::I32(self.i32_depth as u16)` etc.: the index is truncated to 16 bits -/
def mkReg (c : Cls) (d : Nat) : Reg := ⟨c, d % 65536⟩

/-- number of declared locals of a bank (regs.rs:464-475) -/
def localCount (locals : List (Nat × Cls)) (c : Cls) : Nat :=
  (locals.map fun p => if p.2 = c then p.1 else 0).sum

/-- regs.rs:446-486 `new` -/
def new (locals : List (Nat × Cls)) : Alloc :=
  { depth := localCount locals, maxDepth := localCount locals, types := [] }

/-- regs.rs:489-529 `push` -/
def push (a : Alloc) (c : Cls) : Reg × Alloc :=
  (mkReg c (a.depth c),
   { depth := upd a.depth c (a.depth c + 1)
     maxDepth := upd a.maxDepth c (max (a.maxDepth c) (a.depth c + 1))
     types := c :: a.types })

/-- regs.rs:598-628 `pop`: saturating, pops the type stack whatever its top is -/
def pop (a : Alloc) (c : Cls) : Reg × Alloc :=
  (mkReg c (a.depth c - 1),
   { a with depth := upd a.depth c (a.depth c - 1), types := a.types.tail })

/-- regs.rs:629-632 `pop_any` -/
def popAny (a : Alloc) : Option (Reg × Alloc) :=
  match a.types with
  | [] => none
  | c :: _ => some (a.pop c)

/-- regs.rs:635-637 `peek_type` -/
def peekType (a : Alloc) : Option Cls := a.types.head?

/-- regs.rs:640-662 `peek` -/
def peek (a : Alloc) (c : Cls) : Option Reg :=
  if 0 < a.depth c then some (mkReg c (a.depth c - 1)) else none

/-- second loop of `peek_regs_for_types` (regs.rs:697-733): consecutive indices per bank -/
def seqRegs (idx : Cls → Nat) : List Cls → List Reg
  | [] => []
  | c :: cs => mkReg c (idx c) :: seqRegs (upd idx c (idx c + 1)) cs

/-- regs.rs:666-736 `peek_regs_for_types` -/
def peekRegs (a : Alloc) (ts : List Cls) : List Reg :=
  seqRegs (fun c => a.depth c - ts.count c) ts

/-- regs.rs:786-794 `RegAllocatorState` -/
structure Saved where
  depth : Cls → Nat
  typesLen : Nat

/-- regs.rs:748-758 `save_state` -/
def save (a : Alloc) : Saved := { depth := a.depth, typesLen := a.types.length }

/-- regs.rs:761-769 `restore_state`: the type stack is truncated to the recorded length -/
def restore (a : Alloc) (s : Saved) : Alloc :=
  { a with depth := s.depth, types := a.types.drop (a.types.length - s.typesLen) }

/-- regs.rs:811-845 `next_reg_for_type`, iterated over a list of types -/
def Saved.nextRegs (s : Saved) (ts : List Cls) : List Reg := seqRegs s.depth ts

/-- regs.rs:772-781 `finalize` -/
def finalize (a : Alloc) : Cls → Nat := a.maxDepth

end Alloc
end Verif.Model
