import Verif.Model.Migrate
import Verif.Lemmas.Bincode
import Verif.Props.Machine
/-
C26-C29: the checkpoint file.
-/
namespace Verif.Props
open Verif.Model

/-! ### C26 -/

/-- **C26**.  Deserialising the serialised form of any state gives the identical state (registers with every bit, register
windows, frames, labels, memory image, globals, function indices), whatever follows it in the file.  `Fits` says that
the components are values of their Rust types. -/
theorem decode_encode (s : Snapshot) (hf : s.Fits) (b rest : List Byte) (h : encode s = some b) :
    decode (b ++ rest) = some (s, rest) := reads_state s hf h rest

/-- different states have different files -/
theorem encode_injective (s s' : Snapshot) (hf : s.Fits) (hf' : s'.Fits) (b : List Byte) (h : encode s = some b)
    (h' : encode s' = some b) : s = s' := by
  have h1 := decode_encode s hf b [] h
  rw [decode_encode s' hf' b [] h'] at h1
  simp only [Option.some.injEq, Prod.mk.injEq, and_true] at h1
  exact h1.symm

/-- a value is not a function or external reference -/
def Val.Plain (v : Val) : Prop := v.cls = .ref → v = ⟨.ref, Ref.null⟩

/-- no register, local or global holds a function or external reference -/
structure NoRefs (s : Snapshot) : Prop where
  regs : ∀ r ∈ s.regs .ref, r = Ref.null
  locals : ∀ f ∈ s.frames, ∀ v ∈ f.locals, Val.Plain v
  globals : ∀ v ∈ s.globals, Val.Plain v

theorem cat_some : ∀ xs : List (Option (List Byte)), (∃ b, cat xs = some b) ↔ ∀ x ∈ xs, ∃ b, x = some b
  | [] => by simp [cat]
  | x :: xs => by
    rw [List.forall_mem_cons, ← cat_some xs]
    constructor
    · rintro ⟨b, h⟩
      obtain ⟨a, c, ha, hc, -⟩ := cat_cons h
      exact ⟨⟨a, ha⟩, ⟨c, hc⟩⟩
    · rintro ⟨⟨a, rfl⟩, ⟨c, hc⟩⟩
      exact ⟨a ++ c, by simp [cat, hc]⟩

theorem putAll_some {α : Type} (e : α → Option (List Byte)) : ∀ xs : List α,
    (∃ b, putAll e xs = some b) ↔ ∀ x ∈ xs, ∃ b, e x = some b
  | [] => by simp [putAll]
  | x :: xs => by
    rw [List.forall_mem_cons, ← putAll_some e xs]
    constructor
    · rintro ⟨b, h⟩
      simp only [putAll, Option.bind_eq_bind, Option.bind_eq_some_iff] at h
      obtain ⟨a, ha, c, hc, -⟩ := h
      exact ⟨⟨a, ha⟩, ⟨c, hc⟩⟩
    · rintro ⟨⟨a, ha⟩, ⟨c, hc⟩⟩
      exact ⟨a ++ c, by simp [putAll, ha, hc]⟩

theorem putVec_some {α : Type} (e : α → Option (List Byte)) (xs : List α) :
    (∃ b, putVec e xs = some b) ↔ ∀ x ∈ xs, ∃ b, e x = some b := by
  rw [putVec, cat_some, ← putAll_some e xs]
  simp only [putU, List.forall_mem_cons]
  exact ⟨fun h => h.2.1, fun h => ⟨⟨_, rfl⟩, h, nofun⟩⟩

theorem putRef_some (r : Ref) : (∃ b, putRef r = some b) ↔ r = .null := by
  cases r <;> simp [putRef, putU]

theorem putCarrier_some : ∀ (c : Cls) (x : c.Carrier), (∃ b, putCarrier c x = some b) ↔ Val.Plain ⟨c, x⟩
  | .i32, _ => by simp [putCarrier, putU, Val.Plain]
  | .i64, _ => by simp [putCarrier, putU, Val.Plain]
  | .f32, _ => by simp [putCarrier, putU, Val.Plain]
  | .f64, _ => by simp [putCarrier, putU, Val.Plain]
  | .ref, x => by simp [putCarrier, putRef_some, Val.Plain]
  | .v128, _ => by simp [putCarrier, putU, Val.Plain]

theorem putVal_some (v : Val) : (∃ b, putVal v = some b) ↔ Val.Plain v := by
  obtain ⟨c, x⟩ := v
  have := putCarrier_some c x
  cases c <;> simp only [putVal, cat_some, List.forall_mem_cons, this] <;> simp [putU]

theorem putFrame_some (f : FrameData) : (∃ b, putFrame f = some b) ↔ ∀ v ∈ f.locals, Val.Plain v := by
  have h1 : ∃ b, putVec putLabel f.labels = some b :=
    (putVec_some _ _).mpr fun l _ => (cat_some _).mpr (by simp [putU, putBool])
  have h2 : ∀ rs, ∃ b, putVec putReg rs = some b := fun rs =>
    (putVec_some _ _).mpr fun l _ => (cat_some _).mpr (by simp [putU])
  simp only [putFrame, cat_some, List.forall_mem_cons, putVec_some putVal, putVal_some, h1, h2]
  simp [putU]

/-- **C26/C28**: a state can be serialised exactly when it holds no function or external reference -/
theorem encode_isSome_iff (s : Snapshot) : (∃ b, encode s = some b) ↔ NoRefs s := by
  have h1 : ∀ c, c ≠ .ref → ∃ b, putVec (putCarrier c) (s.regs c) = some b := fun c hc =>
    (putVec_some _ _).mpr fun x _ => (putCarrier_some c x).mpr fun h => absurd h hc
  have h2 : ∃ b, putVec putOffsets s.offsets = some b :=
    (putVec_some _ _).mpr fun l _ => (cat_some _).mpr (by simp [putU])
  have h3 : ∃ b, putOffsets s.cached = some b := (cat_some _).mpr (by simp [putU])
  have h4 : ∃ b, putVec putByte s.memory = some b := (putVec_some _ _).mpr fun l _ => ⟨_, rfl⟩
  have h5 : ∃ b, putVec (putU 4) s.funcs = some b := (putVec_some _ _).mpr fun l _ => ⟨_, rfl⟩
  have h6 : (∃ b, putVec (putCarrier .ref) (s.regs .ref) = some b) ↔ ∀ r ∈ s.regs .ref, r = Ref.null := by
    rw [putVec_some]
    exact forall_congr' fun r => forall_congr' fun _ => putRef_some r
  simp only [encode, cat_some, List.forall_mem_cons, h1 .i32 (by decide), h1 .i64 (by decide), h1 .f32 (by decide),
    h1 .f64 (by decide), h1 .v128 (by decide), h2, h3, h4, h5, h6, putVec_some putFrame, putFrame_some,
    putVec_some putVal, putVal_some]
  constructor
  · rintro ⟨-, -, -, -, a, -, -, -, b, -, c, -⟩; exact ⟨a, b, c⟩
  · rintro ⟨a, b, c⟩; exact ⟨trivial, trivial, trivial, trivial, a, trivial, trivial, trivial, b, trivial, c, trivial, by simp⟩

/-! ### C27 -/

/-- **C27**, format level: no proper prefix of a serialised state is accepted -/
theorem prefix_rejected (s : Snapshot) (hf : s.Fits) (b : List Byte) (h : encode s = some b) (k : Nat) (hk : k < b.length) :
    decode (b.take k) = none := by
  cases hd : decode (b.take k) with
  | none => rfl
  | some p =>
    obtain ⟨x, r⟩ := p
    have h1 := Stable.decode (b.take k) x r (b.drop k) hd
    rw [List.take_append_drop] at h1
    have h2 := decode_encode s hf b [] h
    rw [List.append_nil, h1] at h2
    simp only [Option.some.injEq, Prod.mk.injEq, List.append_eq_nil_iff, List.drop_eq_nil_iff] at h2
    omega

/-- **C27**.  If writing the checkpoint of any machine stops (error or crash) after `k` bytes, fewer than the whole file,
then `restore` into any instance reports a deserialisation error and leaves that instance exactly as it was. -/
theorem truncated_checkpoint_rejected {S : Wasi} (lz : Lz) (P : Prog) (m : Machine S) (old : Option (List Byte))
    (s : Snapshot) (b : List Byte) (hs : m.snapshot lz P = .ok s) (hf : s.Fits) (hb : encode s = some b)
    (k : Nat) (hk : k < b.length) (i : Inst) :
    restore lz P i (m.checkpoint lz P old (.stopsAfter k)).2 = (.trap .deserializationError, i) := by
  simp only [Machine.checkpoint, hs, saveFile, hb, restore, prefix_rejected s hf b hb k hk]

/-! ### C28 -/

/-- **C28**.  If the state cannot be serialised (some register, local or global holds a function or external reference),
the checkpoint call returns a serialisation error and the checkpoint file is what it was before, whatever the file
system does. -/
theorem unserialisable_checkpoint_keeps_file {S : Wasi} (lz : Lz) (P : Prog) (m : Machine S) (old : Option (List Byte))
    (io : Io) (s : Snapshot) (hs : m.snapshot lz P = .ok s) (hr : ¬ NoRefs s) :
    m.checkpoint lz P old io = (.trap .serializationError, old) := by
  have : encode s = none := by
    cases h : encode s with
    | none => rfl
    | some b => exact absurd ((encode_isSome_iff s).mp ⟨b, h⟩) hr
  simp only [Machine.checkpoint, hs, saveFile, this]

/-- A checkpoint that reports success has written the whole state; one that reports anything but an interrupted write
has not touched the file. -/
theorem checkpoint_outcomes {S : Wasi} (lz : Lz) (P : Prog) (m : Machine S) (old : Option (List Byte)) (io : Io) :
    (∃ s b, m.snapshot lz P = .ok s ∧ encode s = some b ∧ m.checkpoint lz P old io = (.ok (), some b)) ∨
    (∃ s b k, m.snapshot lz P = .ok s ∧ encode s = some b ∧ io = .stopsAfter k ∧
      m.checkpoint lz P old io = (.trap .checkpointSaveError, some (b.take k))) ∨
    ((m.checkpoint lz P old io).2 = old ∧ (m.checkpoint lz P old io).1 ≠ .ok ()) := by
  unfold Machine.checkpoint saveFile
  cases m.snapshot lz P with
  | ok s =>
    simp only
    cases hb : encode s with
    | none => exact .inr (.inr ⟨rfl, nofun⟩)
    | some b =>
      cases io with
      | fine => exact .inl ⟨s, b, rfl, hb, rfl⟩
      | createFails => exact .inr (.inr ⟨rfl, nofun⟩)
      | stopsAfter k => exact .inr (.inl ⟨s, b, k, rfl, hb, rfl, rfl⟩)
  | trap e => exact .inr (.inr ⟨rfl, nofun⟩)
  | panic => exact .inr (.inr ⟨rfl, nofun⟩)
  | ub => exact .inr (.inr ⟨rfl, nofun⟩)

/-! ### C29 -/

/-- `i` is an instance of the module `j` is an instance of: same globals up to their values, same memory up to its
content -/
structure SameShape (i j : Inst) : Prop where
  globals : i.globals.map Global.ty = j.globals.map Global.ty
  mem : i.mem.map (·.max) = j.mem.map (·.max)

theorem restoreGlobals_same : ∀ gs hs : List Global, gs.map Global.ty = hs.map Global.ty →
    restoreGlobals gs (hs.map (·.value)) = (hs, true)
  | [], [], _ => rfl
  | [], _ :: _, h => by simp at h
  | _ :: _, [], h => by simp at h
  | g :: gs, x :: xs, h => by
    simp only [List.map_cons, List.cons.injEq] at h
    obtain ⟨h1, h2⟩ := h
    simp only [Global.ty, Prod.mk.injEq] at h1
    simp only [List.map_cons, restoreGlobals]
    rw [if_pos h1.2, restoreGlobals_same gs xs h2]
    simp only [h1.1]

theorem indices_ok {P : Prog} : ∀ {fs : List Frame} {is : List Nat}, indices P fs = .ok is →
    is = fs.map (·.func) ∧ ∀ f ∈ fs, f.func < P.funcs.length ∧ f.labels ≠ []
  | [], is, h => by cases h; simp
  | f :: fs, is, h => by
    simp only [indices, Res.bind_eq_ok, Res.pure_eq, Res.ok_inj] at h
    obtain ⟨i, hi, js, hj, rfl⟩ := h
    have ih := indices_ok hj
    have hi' : i = f.func ∧ f.func < P.funcs.length ∧ f.labels ≠ [] := by
      unfold Frame.index at hi
      split at hi
      · rename_i hl hp
        cases hi
        exact ⟨rfl, (List.getElem?_eq_some_iff.mp hp).1, by rw [hl]; simp⟩
      · cases hi
    refine ⟨by rw [hi'.1, ih.1]; rfl, ?_⟩
    intro g hg
    rcases List.mem_cons.mp hg with rfl | hg
    · exact hi'.2
    · exact ih.2 g hg

/-- what restoring leaves of a frame -/
def fresh (i : Inst) (f : Frame) : Frame := { f with enable := false, memPtr := i.ptr }

theorem restoreFrames_data {P : Prog} (i : Inst) : ∀ fs : List Frame, (∀ f ∈ fs, f.func < P.funcs.length) →
    restoreFrames P i (fs.map Frame.data) (fs.map (·.func)) = some (fs.map (fresh i))
  | [], _ => rfl
  | f :: fs, h => by
    simp only [List.map_cons, restoreFrames]
    rw [if_pos (h f (by simp)), restoreFrames_data i fs (fun g hg => h g (by simp [hg]))]
    simp [Frame.data, fresh]

theorem restoreMem_same {i j : Inst} (lz : Lz) (h : i.mem.map (·.max) = j.mem.map (·.max)) :
    ∃ g, restoreMem lz i (j.image lz) =
      some { i with mem := j.mem, memGen := g } := by
  unfold restoreMem Inst.image
  cases hi : i.mem with
  | none =>
    rw [hi] at h
    have : j.mem = none := by simpa using h.symm
    exact ⟨i.memGen, by rw [this]; cases i; simp_all⟩
  | some a =>
    rw [hi] at h
    cases hj : j.mem with
    | none => rw [hj] at h; simp at h
    | some c =>
      rw [hj] at h
      simp only [Option.map_some, Option.some.injEq] at h
      refine ⟨i.memGen + 1, ?_⟩
      simp only [lz.inv]
      obtain ⟨ad, am⟩ := a
      obtain ⟨cd, cm⟩ := c
      simp only at h
      subst h; rfl

/-- **C29**.  If the checkpoint of any machine succeeds, restoring the file into any instance of the same module succeeds
and reproduces: the register file with all its windows, the call frames (function, locals, labels with program
counters, registers waiting for results), linear memory and all globals.  Only the per-frame checkpoint flag is reset,
and cached memory pointers point at the restored memory. -/
theorem restore_reproduces {S : Wasi} (lz : Lz) (P : Prog) (m : Machine S) (s : Snapshot)
    (hs : m.snapshot lz P = .ok s) (hf : s.Fits) (old : Option (List Byte)) (io : Io) (file : Option (List Byte))
    (hc : m.checkpoint lz P old io = (.ok (), file)) (i : Inst) (hi : SameShape i m.inst) :
    ∃ st i', restore lz P i file = (.ok st, i') ∧ st.rf = m.rf ∧
      st.frames = m.frames.map (fun f => { f with enable := false, memPtr := i'.ptr }) ∧
      i'.mem = m.inst.mem ∧ i'.globals = m.inst.globals ∧ i'.tables = i.tables ∧ i'.datas = i.datas := by
  obtain ⟨s', b, h1, h2, h3⟩ : ∃ s b, m.snapshot lz P = .ok s ∧ encode s = some b ∧ file = some b := by
    rcases checkpoint_outcomes lz P m old io with ⟨s', b, h1, h2, h3⟩ | ⟨s', b, k, -, -, -, h3⟩ | ⟨-, h3⟩
    · rw [hc] at h3
      simp only [Prod.mk.injEq, true_and] at h3
      exact ⟨s', b, h1, h2, h3⟩
    · rw [hc] at h3; simp at h3
    · rw [hc] at h3; exact absurd rfl h3
  rw [hs] at h1
  cases h1
  have hd := decode_encode s hf b [] h2
  rw [List.append_nil] at hd
  subst h3
  simp only [Machine.snapshot, Res.bind_eq_ok, Res.pure_eq, Res.ok_inj] at hs
  obtain ⟨is, hidx, rfl⟩ := hs
  obtain ⟨rfl, hfr⟩ := indices_ok hidx
  obtain ⟨g, hmem⟩ := restoreMem_same lz hi.mem
  have hlen : i.globals.length = (m.inst.globals.map (·.value)).length := by
    have := congrArg List.length hi.globals
    simpa using this
  have hfs := restoreFrames_data (P := P)
    { i with mem := m.inst.mem, memGen := g, globals := m.inst.globals } m.frames.reverse
    (fun f hf => (hfr f hf).1)
  refine ⟨⟨m.rf, m.frames.map (fresh { i with mem := m.inst.mem, memGen := g, globals := m.inst.globals })⟩,
    { i with mem := m.inst.mem, memGen := g, globals := m.inst.globals }, ?_, rfl, rfl, rfl, rfl, rfl, rfl⟩
  simp only [restore, hd, restoreState]
  rw [hmem]
  simp only [restoreGlobals?]
  rw [if_pos hlen, restoreGlobals_same _ _ hi.globals]
  simp only [if_true, hfs]
  simp

end Verif.Props
