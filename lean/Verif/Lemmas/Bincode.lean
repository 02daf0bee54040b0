import Verif.Model.Bincode
import Verif.Lemmas.Mem
/-
Round trip and prefix stability of the checkpoint format.
-/
namespace Verif.Model
open Verif.Lemmas

/-- `d` reads exactly `b` and returns `x` -/
def Reads {α : Type} (d : Dec α) (b : List Byte) (x : α) : Prop := ∀ rest, d (b ++ rest) = some (x, rest)

theorem Reads.pure {α : Type} (x : α) : Reads (pure x) [] x := fun _ => rfl

theorem Reads.bind {α β : Type} {d : Dec α} {f : α → Dec β} {b1 b2 : List Byte} {x : α} {y : β}
    (h : Reads d b1 x) (k : Reads (f x) b2 y) : Reads (d >>= f) (b1 ++ b2) y := by
  intro rest
  show (d (b1 ++ b2 ++ rest)).bind (fun p => f p.1 p.2) = _
  rw [List.append_assoc, h]
  exact k rest

/-- last field -/
theorem Reads.map {α β : Type} {d : Dec α} {f : α → β} {b : List Byte} {x : α} (h : Reads d b x) :
    Reads (d >>= fun a => Pure.pure (f a)) b (f x) := by
  have := Reads.bind (f := fun a => Pure.pure (f a)) h (Reads.pure (f x))
  rwa [List.append_nil] at this

/-- whatever was read does not depend on what follows -/
def Stable {α : Type} (d : Dec α) : Prop := ∀ b x r q, d b = some (x, r) → d (b ++ q) = some (x, r ++ q)

theorem Stable.pure {α : Type} (x : α) : Stable (Pure.pure x : Dec α) := by
  intro b y r q h
  cases h; rfl

theorem Stable.fail {α : Type} : Stable (Dec.fail : Dec α) := by
  intro b y r q h
  cases h

theorem Stable.bind {α β : Type} {d : Dec α} {f : α → Dec β} (h : Stable d) (k : ∀ a, Stable (f a)) :
    Stable (d >>= f) := by
  intro b y r q hb
  have hb' : (d b).bind (fun p => f p.1 p.2) = some (y, r) := hb
  show (d (b ++ q)).bind (fun p => f p.1 p.2) = _
  cases hd : d b with
  | none => rw [hd] at hb'; cases hb'
  | some p =>
    rw [hd] at hb'
    rw [h b p.1 p.2 q hd]
    exact k p.1 p.2 y r q hb'

theorem Stable.getU (n : Nat) : Stable (getU n) := by
  intro b x r q h
  unfold Model.getU at h ⊢
  split at h
  · rename_i hn
    cases h
    rw [if_pos (by simp; omega), List.take_append_of_le_length hn, List.drop_append_of_le_length hn]
  · cases h

theorem Stable.ite {α : Type} {p : Prop} [Decidable p] {d e : Dec α} (h : Stable d) (k : Stable e) :
    Stable (if p then d else e) := by
  split
  · exact h
  · exact k

theorem Stable.getUsize : Stable getUsize := .bind (.getU 8) fun _ => .ite (.pure _) .fail

theorem Stable.getBool : Stable getBool := .bind (.getU 1) fun _ => by
  split
  · exact .pure _
  · exact .pure _
  · exact .fail

theorem Stable.getAll {α : Type} {d : Dec α} (h : Stable d) : ∀ n, Stable (getAll d n)
  | 0 => .pure _
  | n + 1 => .bind h fun _ => .bind (Stable.getAll h n) fun _ => .pure _

theorem Stable.getVec {α : Type} {d : Dec α} (h : Stable d) : Stable (getVec d) :=
  .bind .getUsize fun n => .getAll h n

theorem Stable.getVec8 {α : Type} {d : Dec α} (h : Stable d) : Stable (getVec8 d) :=
  .bind .getUsize fun n => .ite (.getAll h n) .fail

theorem Stable.getRef : Stable getRef := .bind (.getU 4) fun _ => .ite (.pure _) .fail

theorem Stable.getCarrier : ∀ c, Stable (getCarrier c)
  | .i32 => .bind (.getU 4) fun _ => .pure _
  | .i64 => .bind (.getU 8) fun _ => .pure _
  | .f32 => .bind (.getU 4) fun _ => .pure _
  | .f64 => .bind (.getU 8) fun _ => .pure _
  | .ref => .getRef
  | .v128 => .bind (.getU 16) fun _ => .pure _

theorem Stable.getValOf (c : Cls) : Stable (getValOf c) := .bind (.getCarrier c) fun _ => .pure _

theorem Stable.getNum : Stable getNum := .bind (.getU 4) fun _ => by
  split
  · exact .getValOf _
  · exact .getValOf _
  · exact .getValOf _
  · exact .getValOf _
  · exact .fail

theorem Stable.getVec128 : Stable getVec128 := .bind (.getU 4) fun _ => by
  split
  · exact .getValOf _
  · exact .fail

theorem Stable.getVal : Stable getVal := .bind (.getU 4) fun _ => by
  split
  · exact .getNum
  · exact .getVec128
  · exact .getValOf _
  · exact .fail

theorem Stable.getCls : Stable getCls := .bind (.getU 4) fun _ => by
  split
  · exact .pure _
  · exact .pure _
  · exact .pure _
  · exact .pure _
  · exact .pure _
  · exact .pure _
  · exact .fail

theorem Stable.getReg : Stable getReg := .bind .getCls fun _ => .bind (.getU 2) fun _ => .pure _

theorem Stable.getOffsets : Stable getOffsets :=
  .bind (.getU 4) fun _ => .bind (.getU 4) fun _ => .bind (.getU 4) fun _ => .bind (.getU 4) fun _ =>
  .bind (.getU 4) fun _ => .bind (.getU 4) fun _ => .pure _

theorem Stable.getLabel : Stable getLabel :=
  .bind .getBool fun _ => .bind .getUsize fun _ => .bind .getUsize fun _ => .pure _

theorem Stable.getFrame : Stable getFrame :=
  .bind (.getVec .getVal) fun _ => .bind .getUsize fun _ => .bind (.getVec .getLabel) fun _ =>
  .bind (.getVec8 .getReg) fun _ => .bind (.getVec8 .getReg) fun _ => .pure _

theorem Stable.getByte : Stable getByte := .bind (.getU 1) fun _ => .pure _

theorem Stable.decode : Stable decode :=
  .bind (.getVec (.getCarrier _)) fun _ => .bind (.getVec (.getCarrier _)) fun _ =>
  .bind (.getVec (.getCarrier _)) fun _ => .bind (.getVec (.getCarrier _)) fun _ =>
  .bind (.getVec (.getCarrier _)) fun _ => .bind (.getVec (.getCarrier _)) fun _ =>
  .bind (.getVec .getOffsets) fun _ => .bind .getOffsets fun _ =>
  .bind (.getVec .getFrame) fun _ => .bind (.getVec .getByte) fun _ =>
  .bind (.getVec .getVal) fun _ => .bind (.getVec (.getU 4)) fun _ => .pure _

/-! ### round trips -/

theorem cat_cons {x : Option (List Byte)} {xs : List (Option (List Byte))} {b : List Byte}
    (h : cat (x :: xs) = some b) : ∃ a c, x = some a ∧ cat xs = some c ∧ b = a ++ c := by
  simp only [cat, Option.bind_eq_bind, Option.bind_eq_some_iff, Option.some.injEq] at h
  obtain ⟨a, ha, c, hc, rfl⟩ := h
  exact ⟨a, c, ha, hc, rfl⟩

theorem cat_one {x : Option (List Byte)} {b : List Byte} (h : cat [x] = some b) : x = some b := by
  obtain ⟨a, c, ha, hc, rfl⟩ := cat_cons h
  cases hc
  rw [List.append_nil]; exact ha

theorem reads_u {n x : Nat} (hx : x < 256 ^ n) {b : List Byte} (h : putU n x = some b) : Reads (getU n) b x := by
  cases h
  intro rest
  unfold getU
  have hl := toLE_length n x
  rw [if_pos (by simp [hl]), List.take_append_of_le_length (by omega), List.drop_append_of_le_length (by omega),
    List.take_of_length_le (by omega), List.drop_of_length_le (by omega), fromLE_toLE, Nat.mod_eq_of_lt hx]
  rfl

theorem reads_usize {x : Nat} (hx : x < 2 ^ 32) {b : List Byte} (h : putU 8 x = some b) : Reads getUsize b x := by
  have h1 := reads_u (n := 8) (Nat.lt_of_lt_of_le hx (by decide)) h
  have := Reads.bind (f := fun x => if x < 2 ^ 32 then (pure x : Dec Nat) else Dec.fail) h1
    (b2 := []) (y := x) (by rw [if_pos hx]; exact .pure x)
  rwa [List.append_nil] at this

theorem reads_bool {x : Bool} {b : List Byte} (h : putBool x = some b) : Reads getBool b x := by
  cases x
  · cases h; intro rest; rfl
  · cases h; intro rest; rfl

theorem reads_all {α : Type} {e : α → Option (List Byte)} {d : Dec α} : ∀ (xs : List α) {b : List Byte},
    (∀ x ∈ xs, ∀ b, e x = some b → Reads d b x) → putAll e xs = some b → Reads (getAll d xs.length) b xs
  | [], b, _, h => by cases h; exact .pure []
  | x :: xs, b, hr, h => by
    simp only [putAll, Option.bind_eq_bind, Option.bind_eq_some_iff, Option.some.injEq] at h
    obtain ⟨a, ha, c, hc, rfl⟩ := h
    exact .bind (hr x (by simp) a ha)
      (.map (f := fun xs => x :: xs) (reads_all xs (fun y hy => hr y (by simp [hy])) hc))

theorem reads_vec {α : Type} {e : α → Option (List Byte)} {d : Dec α} {xs : List α} {b : List Byte}
    (hl : xs.length < 2 ^ 32) (hr : ∀ x ∈ xs, ∀ b, e x = some b → Reads d b x) (h : putVec e xs = some b) :
    Reads (getVec d) b xs := by
  obtain ⟨a, c, ha, hc, rfl⟩ := cat_cons h
  exact .bind (reads_usize hl ha) (reads_all xs hr (cat_one hc))

theorem reads_vec8 {α : Type} {e : α → Option (List Byte)} {d : Dec α} {xs : List α} {b : List Byte}
    (hl : xs.length ≤ 8) (hr : ∀ x ∈ xs, ∀ b, e x = some b → Reads d b x) (h : putVec e xs = some b) :
    Reads (getVec8 d) b xs := by
  obtain ⟨a, c, ha, hc, rfl⟩ := cat_cons h
  refine .bind (reads_usize (by omega) ha) ?_
  rw [if_pos hl]
  exact reads_all xs hr (cat_one hc)

theorem reads_ref {r : Ref} {b : List Byte} (h : putRef r = some b) : Reads getRef b r := by
  cases r with
  | null => cases h; intro rest; rfl
  | func a => cases h
  | extern a => cases h

theorem reads_bits {w n : Nat} (hw : 2 ^ w = 256 ^ n) {x : BitVec w} {b : List Byte} (h : putU n x.toNat = some b) :
    Reads (getU n >>= fun x => pure (BitVec.ofNat w x)) b x := by
  have := Reads.map (f := BitVec.ofNat w) (reads_u (by rw [← hw]; exact x.isLt) h)
  simpa using this

theorem reads_carrier : ∀ (c : Cls) (x : c.Carrier) {b : List Byte}, putCarrier c x = some b → Reads (getCarrier c) b x
  | .i32, _, _, h => reads_bits (w := 32) (by decide) h
  | .i64, _, _, h => reads_bits (w := 64) (by decide) h
  | .f32, _, _, h => reads_bits (w := 32) (by decide) h
  | .f64, _, _, h => reads_bits (w := 64) (by decide) h
  | .ref, _, _, h => reads_ref h
  | .v128, _, _, h => reads_bits (w := 128) (by decide) h

theorem reads_valOf (c : Cls) (x : c.Carrier) {b : List Byte} (h : putCarrier c x = some b) :
    Reads (getValOf c) b ⟨c, x⟩ := .map (f := fun x => (⟨c, x⟩ : Val)) (reads_carrier c x h)

theorem reads_val (v : Val) {b : List Byte} (h : putVal v = some b) : Reads getVal b v := by
  obtain ⟨c, x⟩ := v
  cases c
  case ref =>
    obtain ⟨a, c, ha, hc, rfl⟩ := cat_cons h
    exact .bind (reads_u (x := 2) (by decide) ha) (reads_valOf .ref x (cat_one hc))
  all_goals
    obtain ⟨a, c, ha, hc, rfl⟩ := cat_cons h
    obtain ⟨a2, c2, ha2, hc2, rfl⟩ := cat_cons hc
    exact .bind (reads_u (by decide) ha) (.bind (reads_u (by decide) ha2) (reads_valOf _ x (cat_one hc2)))

/-- the index of a register is a `u16` -/
def Reg.Fits (r : Reg) : Prop := r.idx < 2 ^ 16

theorem reads_cls : ∀ (c : Cls) {b : List Byte}, putU 4 c.tag = some b → Reads getCls b c
  | .i32, _, h => by cases h; intro rest; rfl
  | .i64, _, h => by cases h; intro rest; rfl
  | .f32, _, h => by cases h; intro rest; rfl
  | .f64, _, h => by cases h; intro rest; rfl
  | .ref, _, h => by cases h; intro rest; rfl
  | .v128, _, h => by cases h; intro rest; rfl

theorem reads_reg (r : Reg) (hf : r.Fits) {b : List Byte} (h : putReg r = some b) : Reads getReg b r := by
  obtain ⟨a, c, ha, hc, rfl⟩ := cat_cons h
  obtain ⟨cl, i⟩ := r
  exact .bind (x := cl) (reads_cls cl ha)
    (.map (f := fun i => (⟨cl, i⟩ : Reg)) (reads_u (Nat.lt_of_lt_of_le hf (by decide)) (cat_one hc)))

/-- register window starts are `u32` -/
def offsetsFit (o : Offsets) : Prop := ∀ c, o c < 2 ^ 32

theorem reads_offsets (o : Offsets) (hf : offsetsFit o) {b : List Byte} (h : putOffsets o = some b) :
    Reads getOffsets b o := by
  have hx : ∀ c, o c < 256 ^ 4 := fun c => Nat.lt_of_lt_of_le (hf c) (by decide)
  obtain ⟨a1, c1, h1, hc1, rfl⟩ := cat_cons h
  obtain ⟨a2, c2, h2, hc2, rfl⟩ := cat_cons hc1
  obtain ⟨a3, c3, h3, hc3, rfl⟩ := cat_cons hc2
  obtain ⟨a4, c4, h4, hc4, rfl⟩ := cat_cons hc3
  obtain ⟨a5, c5, h5, hc5, rfl⟩ := cat_cons hc4
  have h6 := cat_one hc5
  have : o = (fun | .i32 => o .i32 | .i64 => o .i64 | .f32 => o .f32 | .f64 => o .f64 | .ref => o .ref | .v128 => o .v128) := by
    funext c; cases c <;> rfl
  rw [this]
  exact .bind (reads_u (hx _) h1) (.bind (reads_u (hx _) h2) (.bind (reads_u (hx _) h3) (.bind (reads_u (hx _) h4)
    (.bind (reads_u (hx _) h5) (.map (reads_u (hx _) h6))))))

/-- program counters are `usize`, 32 bits -/
structure Label.Fits (l : Label) : Prop where
  returnIp : l.returnIp < 2 ^ 32
  ip : l.ip < 2 ^ 32

theorem reads_label (l : Label) (hf : l.Fits) {b : List Byte} (h : putLabel l = some b) : Reads getLabel b l := by
  obtain ⟨a1, c1, h1, hc1, rfl⟩ := cat_cons h
  obtain ⟨a2, c2, h2, hc2, rfl⟩ := cat_cons hc1
  have h3 := cat_one hc2
  exact .bind (reads_bool h1) (.bind (reads_usize hf.returnIp h2) (.map (reads_usize hf.ip h3)))

/-- everything in the frame fits its Rust type: `usize` and `Vec` lengths 32 bits, at most eight registers in an
`ArrayVec`, `u16` register indices -/
structure FrameData.Fits (f : FrameData) : Prop where
  locals : f.locals.length < 2 ^ 32
  n : f.n < 2 ^ 32
  labelsLen : f.labels.length < 2 ^ 32
  labels : ∀ l ∈ f.labels, l.Fits
  resLen : f.resultRegs.length ≤ 8
  res : ∀ r ∈ f.resultRegs, r.Fits
  retLen : f.retRegs.length ≤ 8
  ret : ∀ r ∈ f.retRegs, r.Fits

theorem reads_frame (f : FrameData) (hf : f.Fits) {b : List Byte} (h : putFrame f = some b) : Reads getFrame b f := by
  obtain ⟨a1, c1, h1, hc1, rfl⟩ := cat_cons h
  obtain ⟨a2, c2, h2, hc2, rfl⟩ := cat_cons hc1
  obtain ⟨a3, c3, h3, hc3, rfl⟩ := cat_cons hc2
  obtain ⟨a4, c4, h4, hc4, rfl⟩ := cat_cons hc3
  have h5 := cat_one hc4
  exact .bind (reads_vec hf.locals (fun v _ _ hb => reads_val v hb) h1)
    (.bind (reads_usize hf.n h2)
    (.bind (reads_vec hf.labelsLen (fun l hl _ hb => reads_label l (hf.labels l hl) hb) h3)
    (.bind (reads_vec8 hf.resLen (fun l hl _ hb => reads_reg l (hf.res l hl) hb) h4)
    (.map (reads_vec8 hf.retLen (fun l hl _ hb => reads_reg l (hf.ret l hl) hb) h5)))))

theorem reads_byte (x : Byte) {b : List Byte} (h : putByte x = some b) : Reads getByte b x :=
  reads_bits (w := 8) (by decide) h

/-- everything in the state fits its Rust type -/
structure Snapshot.Fits (s : Snapshot) : Prop where
  regs : ∀ c, (s.regs c).length < 2 ^ 32
  offsetsLen : s.offsets.length < 2 ^ 32
  offsets : ∀ o ∈ s.offsets, offsetsFit o
  cached : offsetsFit s.cached
  framesLen : s.frames.length < 2 ^ 32
  frames : ∀ f ∈ s.frames, f.Fits
  memory : s.memory.length < 2 ^ 32
  globals : s.globals.length < 2 ^ 32
  funcsLen : s.funcs.length < 2 ^ 32
  funcs : ∀ i ∈ s.funcs, i < 2 ^ 32

theorem reads_state (s : Snapshot) (hf : s.Fits) {b : List Byte} (h : encode s = some b) : Reads decode b s := by
  obtain ⟨a1, c1, h1, hc1, rfl⟩ := cat_cons h
  obtain ⟨a2, c2, h2, hc2, rfl⟩ := cat_cons hc1
  obtain ⟨a3, c3, h3, hc3, rfl⟩ := cat_cons hc2
  obtain ⟨a4, c4, h4, hc4, rfl⟩ := cat_cons hc3
  obtain ⟨a5, c5, h5, hc5, rfl⟩ := cat_cons hc4
  obtain ⟨a6, c6, h6, hc6, rfl⟩ := cat_cons hc5
  obtain ⟨a7, c7, h7, hc7, rfl⟩ := cat_cons hc6
  obtain ⟨a8, c8, h8, hc8, rfl⟩ := cat_cons hc7
  obtain ⟨a9, c9, h9, hc9, rfl⟩ := cat_cons hc8
  obtain ⟨a10, c10, h10, hc10, rfl⟩ := cat_cons hc9
  obtain ⟨a11, c11, h11, hc11, rfl⟩ := cat_cons hc10
  have h12 := cat_one hc11
  have hregs : ∀ {c : Cls} {b : List Byte}, putVec (putCarrier c) (s.regs c) = some b →
      Reads (getVec (getCarrier c)) b (s.regs c) :=
    fun h => reads_vec (hf.regs _) (fun x _ _ hb => reads_carrier _ x hb) h
  have hs : s = Snapshot.mk (fun | .i32 => s.regs .i32 | .i64 => s.regs .i64 | .f32 => s.regs .f32 | .f64 => s.regs .f64 | .ref => s.regs .ref | .v128 => s.regs .v128)
      s.offsets s.cached s.frames s.memory s.globals s.funcs := by
    cases s
    simp only [Snapshot.mk.injEq, and_self, and_true]
    funext c; cases c <;> rfl
  rw [hs]
  exact .bind (hregs h1) (.bind (hregs h2) (.bind (hregs h3) (.bind (hregs h4) (.bind (hregs h5) (.bind (hregs h6)
    (.bind (reads_vec hf.offsetsLen (fun o ho _ hb => reads_offsets o (hf.offsets o ho) hb) h7)
    (.bind (reads_offsets _ hf.cached h8)
    (.bind (reads_vec hf.framesLen (fun f hm _ hb => reads_frame f (hf.frames f hm) hb) h9)
    (.bind (reads_vec hf.memory (fun x _ _ hb => reads_byte x hb) h10)
    (.bind (reads_vec hf.globals (fun v _ _ hb => reads_val v hb) h11)
    (.map (reads_vec hf.funcsLen (fun i hi _ hb => reads_u (Nat.lt_of_lt_of_le (hf.funcs i hi) (by decide)) hb) h12))))))))))))

end Verif.Model
