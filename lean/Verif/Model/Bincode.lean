import Verif.Model.Runtime
/-
The checkpoint file: bincode 1.3 `serialize` / `deserialize` (fixed-width little-endian integers, `u64` lengths, `u32`
enum tags, trailing bytes allowed) applied to `SerializableState` (migration.rs:150-155) and the types inside it.
The library itself is not in the repository; its format is modelled here.
-/
namespace Verif.Model

/-- a deserialiser: consumes bytes from the front or fails -/
abbrev Dec := StateT (List Byte) Option

/-- a deserialiser that fails -/
def Dec.fail {α : Type} : Dec α := fun _ => none

/-- concatenation of the serialised fields of a struct; any failing field fails the whole -/
def cat : List (Option (List Byte)) → Option (List Byte)
  | [] => some []
  | x :: xs => do
    let a ← x
    let b ← cat xs
    some (a ++ b)

/-- unsigned integer of `n` bytes -/
def putU (n x : Nat) : Option (List Byte) := some (toLE n x)

/-- read an unsigned integer of `n` bytes; fails at end of input -/
def getU (n : Nat) : Dec Nat := fun b => if n ≤ b.length then some (fromLE (b.take n), b.drop n) else none

/-- `usize` travels as `u64`; on wasm32 a value above 32 bits is rejected -/
def getUsize : Dec Nat := do
  let x ← getU 8
  if x < 2 ^ 32 then pure x else Dec.fail

/-- `bool`: one byte, anything but 0 and 1 is rejected -/
def putBool (b : Bool) : Option (List Byte) := putU 1 (if b then 1 else 0)
/-- inverse of `putBool` -/
def getBool : Dec Bool := do
  let x ← getU 1
  match x with
  | 0 => pure false
  | 1 => pure true
  | _ => Dec.fail

/-- elements one after the other -/
def putAll {α : Type} (e : α → Option (List Byte)) : List α → Option (List Byte)
  | [] => some []
  | x :: xs => do
    let a ← e x
    let b ← putAll e xs
    some (a ++ b)

/-- `Vec<T>`: length, then the elements -/
def putVec {α : Type} (e : α → Option (List Byte)) (xs : List α) : Option (List Byte) :=
  cat [putU 8 xs.length, putAll e xs]

/-- `n` elements -/
def getAll {α : Type} (d : Dec α) : Nat → Dec (List α)
  | 0 => pure []
  | n + 1 => do
    let x ← d
    let xs ← getAll d n
    pure (x :: xs)

/-- `Vec<T>` -/
def getVec {α : Type} (d : Dec α) : Dec (List α) := do
  let n ← getUsize
  getAll d n

/-- `ArrayVec<T, 8>`: more than eight elements are rejected -/
def getVec8 {α : Type} (d : Dec α) : Dec (List α) := do
  let n ← getUsize
  if n ≤ 8 then getAll d n else Dec.fail

/-- value.rs:103-112 `Ref`: the function and external variants are `#[serde(skip)]`, serialising them is an error -/
def putRef : Ref → Option (List Byte)
  | .null => putU 4 0
  | _ => none
/-- only the tag of `RefNull` is accepted -/
def getRef : Dec Ref := do
  let t ← getU 4
  if t = 0 then pure .null else Dec.fail

/-- payload of a value: `i32`, `i64`, `f32`, `f64` (bits), `Ref`, `i128` -/
def putCarrier : (c : Cls) → c.Carrier → Option (List Byte)
  | .i32, x => putU 4 (BitVec.toNat (w := 32) x)
  | .i64, x => putU 8 (BitVec.toNat (w := 64) x)
  | .f32, x => putU 4 (BitVec.toNat (w := 32) x)
  | .f64, x => putU 8 (BitVec.toNat (w := 64) x)
  | .ref, x => putRef x
  | .v128, x => putU 16 (BitVec.toNat (w := 128) x)
/-- inverse of `putCarrier` -/
def getCarrier : (c : Cls) → Dec c.Carrier
  | .i32 => do let x ← getU 4; pure (BitVec.ofNat 32 x)
  | .i64 => do let x ← getU 8; pure (BitVec.ofNat 64 x)
  | .f32 => do let x ← getU 4; pure (BitVec.ofNat 32 x)
  | .f64 => do let x ← getU 8; pure (BitVec.ofNat 64 x)
  | .ref => getRef
  | .v128 => do let x ← getU 16; pure (BitVec.ofNat 128 x)

/-- value.rs:12-17 `Val`, 64-70 `Num`, 96-99 `Vec_`: outer tag 0/1/2, then for numbers the inner tag 0..3 and for vectors
the tag 0 (the inner tag of `Ref` is part of its payload) -/
def putVal (v : Val) : Option (List Byte) :=
  match v.cls with
  | .i32 => cat [putU 4 0, putU 4 0, putCarrier v.cls v.v]
  | .i64 => cat [putU 4 0, putU 4 1, putCarrier v.cls v.v]
  | .f32 => cat [putU 4 0, putU 4 2, putCarrier v.cls v.v]
  | .f64 => cat [putU 4 0, putU 4 3, putCarrier v.cls v.v]
  | .v128 => cat [putU 4 1, putU 4 0, putCarrier v.cls v.v]
  | .ref => cat [putU 4 2, putCarrier v.cls v.v]

/-- a value of a given class -/
def getValOf (c : Cls) : Dec Val := do let x ← getCarrier c; pure ⟨c, x⟩

/-- the inner tag of `Num` -/
def getNum : Dec Val := do
  let u ← getU 4
  match u with
  | 0 => getValOf .i32
  | 1 => getValOf .i64
  | 2 => getValOf .f32
  | 3 => getValOf .f64
  | _ => Dec.fail

/-- the inner tag of `Vec_` -/
def getVec128 : Dec Val := do
  let u ← getU 4
  match u with
  | 0 => getValOf .v128
  | _ => Dec.fail

/-- inverse of `putVal` -/
def getVal : Dec Val := do
  let t ← getU 4
  match t with
  | 0 => getNum
  | 1 => getVec128
  | 2 => getValOf .ref
  | _ => Dec.fail

/-- tag of `Reg` (regs.rs:12-20, declaration order) -/
def Cls.tag : Cls → Nat
  | .i32 => 0 | .i64 => 1 | .f32 => 2 | .f64 => 3 | .ref => 4 | .v128 => 5
/-- inverse of `Cls.tag` -/
def getCls : Dec Cls := do
  let t ← getU 4
  match t with
  | 0 => pure .i32
  | 1 => pure .i64
  | 2 => pure .f32
  | 3 => pure .f64
  | 4 => pure .ref
  | 5 => pure .v128
  | _ => Dec.fail

/-- regs.rs:12-20 `Reg`: tag, `u16` -/
def putReg (r : Reg) : Option (List Byte) := cat [putU 4 r.cls.tag, putU 2 r.idx]
/-- inverse of `putReg` -/
def getReg : Dec Reg := do
  let c ← getCls
  let i ← getU 2
  pure ⟨c, i⟩

/-- regs.rs:46-53 `FrameRegOffsets`: six `u32` -/
def putOffsets (o : Offsets) : Option (List Byte) :=
  cat [putU 4 (o .i32), putU 4 (o .i64), putU 4 (o .f32), putU 4 (o .f64), putU 4 (o .ref), putU 4 (o .v128)]
/-- inverse of `putOffsets` -/
def getOffsets : Dec Offsets := do
  let a ← getU 4
  let b ← getU 4
  let c ← getU 4
  let d ← getU 4
  let e ← getU 4
  let f ← getU 4
  pure fun | .i32 => a | .i64 => b | .f32 => c | .f64 => d | .ref => e | .v128 => f

/-- state.rs:246-271 `LabelStack` as serialised: `label.is_loop`, `label.return_ip`, `ip` -/
def putLabel (l : Label) : Option (List Byte) := cat [putBool l.isLoop, putU 8 l.returnIp, putU 8 l.ip]
/-- state.rs:273-291 -/
def getLabel : Dec Label := do
  let a ← getBool
  let b ← getUsize
  let c ← getUsize
  pure ⟨a, b, c⟩

/-- the serialised part of `FrameStack` + `Frame` (state.rs:220-243); labels oldest first -/
structure FrameData where
  locals : List Val
  n : Nat
  labels : List Label
  resultRegs : List Reg
  retRegs : List Reg

/-- state.rs:220-243 `FrameStack` with its `#[serde(skip)]` fields left out -/
def putFrame (f : FrameData) : Option (List Byte) :=
  cat [putVec putVal f.locals, putU 8 f.n, putVec putLabel f.labels, putVec putReg f.resultRegs, putVec putReg f.retRegs]
/-- inverse of `putFrame` -/
def getFrame : Dec FrameData := do
  let a ← getVec getVal
  let b ← getUsize
  let c ← getVec getLabel
  let d ← getVec8 getReg
  let e ← getVec8 getReg
  pure ⟨a, b, c, d, e⟩

/-- migration.rs:150-155 `SerializableState`; offsets and frames oldest first -/
structure Snapshot where
  regs : (c : Cls) → List c.Carrier
  offsets : List Offsets
  cached : Offsets
  frames : List FrameData
  memory : List Byte
  globals : List Val
  funcs : List Nat

/-- `u8` -/
def putByte (b : Byte) : Option (List Byte) := putU 1 b.toNat
/-- inverse of `putByte` -/
def getByte : Dec Byte := do let x ← getU 1; pure (BitVec.ofNat 8 x)

/-- `bincode::serialize(&state)` (migration.rs:262-263); field order: `stacks.reg_file` (regs.rs:57-68),
`stacks.activation_frame_stack`, `memory_data_compressed`, `global_values`, `frame_func_indices` -/
def encode (s : Snapshot) : Option (List Byte) :=
  cat [putVec (putCarrier .i32) (s.regs .i32), putVec (putCarrier .i64) (s.regs .i64),
    putVec (putCarrier .f32) (s.regs .f32), putVec (putCarrier .f64) (s.regs .f64),
    putVec (putCarrier .ref) (s.regs .ref), putVec (putCarrier .v128) (s.regs .v128),
    putVec putOffsets s.offsets, putOffsets s.cached,
    putVec putFrame s.frames, putVec putByte s.memory, putVec putVal s.globals, putVec (putU 4) s.funcs]

/-- `bincode::deserialize` into `SerializableState` (migration.rs:294-295); what follows the state is ignored -/
def decode : Dec Snapshot := do
  let a ← getVec (getCarrier .i32)
  let b ← getVec (getCarrier .i64)
  let c ← getVec (getCarrier .f32)
  let d ← getVec (getCarrier .f64)
  let e ← getVec (getCarrier .ref)
  let f ← getVec (getCarrier .v128)
  let offs ← getVec getOffsets
  let cached ← getOffsets
  let frames ← getVec getFrame
  let memory ← getVec getByte
  let globals ← getVec getVal
  let funcs ← getVec (getU 4)
  pure { regs := fun | .i32 => a | .i64 => b | .f32 => c | .f64 => d | .ref => e | .v128 => f
         offsets := offs, cached := cached, frames := frames, memory := memory, globals := globals, funcs := funcs }

end Verif.Model
