import Verif.Lemmas.Mem
/-
C07–C12: linear memory.  A memory is a byte list; `m.data[i]?` is byte `i`.
The hypothesis `m.data.length < 2^32` holds of every `Vec<u8>` on a 32-bit host.
-/
namespace Verif.Props
open Verif Verif.Spec Verif.Model Verif.Lemmas

/-- byte `i` of linear memory as a number (0 outside) -/
def byteAt (m : Mem) (i : Nat) : Nat := (m.data.getD i 0).toNat

/-- C07 (loads). An in-bounds load returns the little-endian value of the addressed bytes, zero- or sign-extended as
the instruction prescribes. The effective address is the mathematical sum of pointer and static offset. -/
theorem load_correct (m : Mem) (op : LoadOp) (p : BitVec 32) (off : BitVec 64) (hlen : m.data.length < 2 ^ 32)
    (hb : InBounds m.data.length (p.toNat + off.toNat) op.bytes) :
    ∃ v, m.load op p off = .ok v ∧
      op.cls.num v = op.result (leValue (byteAt m) (p.toNat + off.toNat) op.bytes) := by
  unfold InBounds at hb
  have hw := loadWidth op
  have hea : effAddr p off = p.toNat + off.toNat := effAddr_eq (by omega)
  simp only [Mem.load, readAt, hea, hw, if_pos hb, Res.bind_ok, Res.pure_eq]
  refine ⟨_, rfl, ?_⟩
  rw [fromLE_read _ _ _ hb]
  have hraw : leValue (byteAt m) (p.toNat + off.toNat) op.bytes < 256 ^ op.bytes := by
    unfold byteAt
    rw [← fromLE_read _ _ _ hb]
    refine Nat.lt_of_lt_of_le (fromLE_lt _) (Nat.pow_le_pow_right (by decide) ?_)
    simp; omega
  change op.cls.num (op.convert (leValue (byteAt m) (p.toNat + off.toNat) op.bytes)) = _
  generalize leValue (byteAt m) (p.toNat + off.toNat) op.bytes = raw at hraw
  have sx : ∀ (a b : Nat), 0 < a → raw < 2 ^ a →
      ((BitVec.ofNat a raw).signExtend b).toNat = unsigned b (signed a raw) := by
    intro a b ha hlt
    rw [unsigned_eq]; congr 1
    rw [BitVec.signExtend]; congr 1
    rw [← signed_toNat ha, BitVec.toNat_ofNat, Nat.mod_eq_of_lt hlt]
  cases op <;> simp only [LoadOp.bytes, LoadOp.shape] at hraw <;>
    simp only [Cls.num, LoadOp.convert, LoadOp.result, LoadOp.shape, LoadOp.cls]
  all_goals first
    | (rw [BitVec.toNat_ofNat, Nat.mod_eq_of_lt hraw]; rfl)
    | (rw [BitVec.toNat_setWidth, BitVec.toNat_ofNat]
       simp at hraw ⊢; omega)
    | (simp only [if_true]; exact sx _ _ (by decide) (by simpa using hraw))

/-- C07/C08 (stores). An in-bounds store succeeds; afterwards byte `i` is the `i`-th little-endian byte of the value if
it is one of the addressed bytes and unchanged otherwise; the size and the declared limits do not change. -/
theorem store_correct (m : Mem) (op : StoreOp) (p : BitVec 32) (off : BitVec 64) (v : op.cls.Carrier)
    (hlen : m.data.length < 2 ^ 32) (hb : InBounds m.data.length (p.toNat + off.toNat) op.bytes) :
    ∃ m', m.store op p off v = .ok m' ∧ m'.data.length = m.data.length ∧ m'.max = m.max ∧
      (∀ k, k < op.bytes → m'.data[p.toNat + off.toNat + k]? = some (BitVec.ofNat 8 (leByte (op.cls.num v) k))) ∧
      (∀ i, (i < p.toNat + off.toNat ∨ p.toNat + off.toNat + op.bytes ≤ i) → m'.data[i]? = m.data[i]?) := by
  unfold InBounds at hb
  have hw := storeWidth op
  have hea : effAddr p off = p.toNat + off.toNat := effAddr_eq (by omega)
  have hb' : p.toNat + off.toNat + (toLE op.bytes (op.cast v)).length ≤ m.data.length := by
    rw [toLE_length]; exact hb
  simp only [Mem.store, writeAt, hea, hw, if_pos hb', Res.bind_ok, Res.pure_eq]
  refine ⟨_, rfl, overwrite_length hb', rfl, ?_, ?_⟩
  · intro k hk
    simp only [overwrite_getElem? hb', toLE_length]
    rw [if_pos (by omega), Nat.add_sub_cancel_left, toLE_getElem? _ _ _ hk]
    congr 1
    cases op <;> simp only [StoreOp.bytes, StoreOp.bits] at hk <;>
      simp only [StoreOp.cast, Cls.num, StoreOp.cls] <;> try rfl
    all_goals
      rw [BitVec.toNat_setWidth]
      simp only [leByte]
      have : k = 0 ∨ k = 1 ∨ k = 2 ∨ k = 3 := by omega
      apply BitVec.eq_of_toNat_eq
      simp only [BitVec.toNat_ofNat]
      rcases this with rfl | rfl | rfl | rfl <;> simp at hk ⊢ <;> omega
  · intro i hi
    simp only [overwrite_getElem? hb', toLE_length]
    rw [if_neg (by omega)]

theorem leValue_bytes (get : Nat → Nat) (ea v n : Nat) (h : ∀ k, k < n → get (ea + k) = leByte v k) :
    leValue get ea n = v % 256 ^ n := by
  induction n with
  | zero => simp [leValue, Nat.mod_one]
  | succ n ih =>
    rw [leValue, ih (fun k hk => h k (by omega)), h n (by omega), leByte, Nat.pow_succ, Nat.mod_mul,
      Nat.mul_comm (256 ^ n)]

/-- C07. A load of the same width at the same effective address as a preceding store returns the stored value,
wrapped to the width and then extended. -/
theorem load_after_store (m m' : Mem) (sop : StoreOp) (lop : LoadOp) (p : BitVec 32) (off : BitVec 64)
    (v : sop.cls.Carrier) (hlen : m.data.length < 2 ^ 32)
    (hb : InBounds m.data.length (p.toNat + off.toNat) sop.bytes) (hsame : lop.bytes = sop.bytes)
    (hs : m.store sop p off v = .ok m') :
    ∃ x, m'.load lop p off = .ok x ∧ lop.cls.num x = lop.result (sop.cls.num v % 2 ^ sop.bits) := by
  obtain ⟨m2, h1, h2, h3, h4, _⟩ := store_correct m sop p off v hlen hb
  rw [hs] at h1; cases h1
  obtain ⟨x, hx, hn⟩ := load_correct m' lop p off (by omega) (by unfold InBounds at *; omega)
  refine ⟨x, hx, ?_⟩
  rw [hn]
  congr 1
  rw [hsame, leValue_bytes _ _ (sop.cls.num v)]
  · cases sop <;> rfl
  · intro k hk
    simp only [byteAt, List.getD, h4 k hk, Option.getD_some, BitVec.toNat_ofNat, leByte]
    omega

/-- C08. A store never affects a load from a disjoint range, whatever the two instructions. -/
theorem load_disjoint_store (m m' : Mem) (sop : StoreOp) (lop : LoadOp) (p q : BitVec 32) (off offq : BitVec 64)
    (v : sop.cls.Carrier) (hlen : m.data.length < 2 ^ 32)
    (hb : InBounds m.data.length (p.toNat + off.toNat) sop.bytes)
    (hq : InBounds m.data.length (q.toNat + offq.toNat) lop.bytes)
    (hdis : q.toNat + offq.toNat + lop.bytes ≤ p.toNat + off.toNat ∨
            p.toNat + off.toNat + sop.bytes ≤ q.toNat + offq.toNat)
    (hs : m.store sop p off v = .ok m') : m'.load lop q offq = m.load lop q offq := by
  obtain ⟨m2, h1, h2, h3, _, h5⟩ := store_correct m sop p off v hlen hb
  rw [hs] at h1; cases h1
  unfold InBounds at hq
  have hea : effAddr q offq = q.toNat + offq.toNat := effAddr_eq (by omega)
  have e : (m'.data.drop (q.toNat + offq.toNat)).take lop.width =
      (m.data.drop (q.toNat + offq.toNat)).take lop.width := by
    apply List.ext_getElem?
    intro i
    simp only [List.getElem?_take, List.getElem?_drop]
    by_cases hi : i < lop.width
    · rw [loadWidth] at hi
      rw [h5 _ (by omega)]
    · simp [hi]
  simp only [Mem.load, readAt, hea, h2, e]

/-- a 2-page memory used in the examples below -/
def exMem : Mem := { data := List.replicate 131072 7, max := some 3 }
theorem exMem_length : exMem.data.length = 131072 := List.length_replicate
theorem exMem_max : exMem.max = some 3 := rfl

example : InBounds exMem.data.length ((70000#32).toNat + (8#64).toNat) (StoreOp.bytes .i64_32) ∧
    exMem.data.length < 2 ^ 32 := by
  simp [InBounds, exMem_length, StoreOp.bytes, StoreOp.bits]

/-! ### C09 -/

/-- C09 is violated: an access whose effective address (`0xFFFFFFFF + 1 = 2^32`) is far outside memory neither traps
nor is undefined: 32-bit wrap-around makes it read address 0. -/
theorem oob_load_traps_violated :
    ∃ (m : Mem) (p : BitVec 32) (off : BitVec 64) (v : LoadOp.i32_8u.cls.Carrier),
      m.data.length < 2 ^ 32 ∧ ¬ InBounds m.data.length (p.toNat + off.toNat) LoadOp.i32_8u.bytes ∧
      m.load .i32_8u p off = .ok v :=
  ⟨{ data := [5], max := none }, 0xFFFFFFFF#32, 1#64, (5#32 : BitVec 32), by decide, by
    simp [InBounds, LoadOp.bytes, LoadOp.shape], by decide⟩

/-- C09 is violated: an out-of-bounds store is not a trap, it leaves defined behaviour (the write goes through a raw
pointer to whatever the host keeps there). -/
theorem oob_store_traps_violated :
    ∃ (m : Mem) (p : BitVec 32) (off : BitVec 64) (v : StoreOp.i32.cls.Carrier),
      ¬ InBounds m.data.length (p.toNat + off.toNat) StoreOp.i32.bytes ∧ m.store .i32 p off v = .ub :=
  ⟨{ data := [0, 0, 0], max := none }, 0#32, 0#64, (1#32 : BitVec 32), by
    simp [InBounds, StoreOp.bytes, StoreOp.bits], by decide⟩

/-- C09 is violated by `memory.init` / `memory.copy` / `memory.fill` of length 0 at an out-of-range position:
WebAssembly traps, the interpreter continues. -/
theorem oob_zero_length_violated (m : Mem) (seg : List Byte) (d s : BitVec 32) :
    m.initInstr seg d s 0 = .ok m ∧ m.copy d s 0 = .ok m ∧ m.fill d s 0 = .ok m := by
  simp [Mem.initInstr, Mem.copy, Mem.fill]

/-- C09, the part that holds: `memory.init` with a non-zero length whose source or destination range is out of bounds
never completes (it aborts), and no in-bounds access of any kind is ever undefined.
Missing from C09: out-of-bounds loads, stores, copies and fills (see the `_violated` theorems). -/
theorem oob_traps_partial (m : Mem) (hlen : m.data.length < 2 ^ 32) :
    (∀ (seg : List Byte) (d s n : BitVec 32), seg.length < 2 ^ 32 → n ≠ 0 →
      (seg.length < s.toNat + n.toNat ∨ m.data.length < d.toNat + n.toNat) → m.initInstr seg d s n = .panic) ∧
    (∀ (op : LoadOp) (p : BitVec 32) (off : BitVec 64), InBounds m.data.length (p.toNat + off.toNat) op.bytes →
      m.load op p off ≠ .ub) ∧
    (∀ (op : StoreOp) (p : BitVec 32) (off : BitVec 64) (v : op.cls.Carrier),
      InBounds m.data.length (p.toNat + off.toNat) op.bytes → m.store op p off v ≠ .ub) ∧
    (∀ (d s n : BitVec 32), InBounds m.data.length d.toNat n.toNat → InBounds m.data.length s.toNat n.toNat →
      m.copy d s n ≠ .ub ∧ m.fill d s n ≠ .ub) := by
  refine ⟨?_, ?_, ?_, ?_⟩
  · intro seg d s n hseg hn hoob
    have hn0 : 0 < n.toNat := by
      rcases Nat.eq_zero_or_pos n.toNat with h | h
      · exact absurd (BitVec.eq_of_toNat_eq (by simpa using h)) hn
      · exact h
    have hs := s.isLt
    have hd := d.isLt
    have hnl := n.isLt
    simp only [Mem.initInstr, if_neg hn, BitVec.toNat_add]
    by_cases h1 : s.toNat ≤ (s.toNat + n.toNat) % 2 ^ 32 ∧ (s.toNat + n.toNat) % 2 ^ 32 ≤ seg.length
    · rw [if_pos h1]
      have hno : s.toNat + n.toNat < 2 ^ 32 := by omega
      rw [Nat.mod_eq_of_lt hno] at h1 ⊢
      have hl : (List.take (s.toNat + n.toNat - s.toNat) (List.drop s.toNat seg)).length = n.toNat := by
        simp; omega
      simp only [Mem.init, hl]
      rw [if_neg (by omega)]
    · rw [if_neg h1]
  · intro op p off hb
    obtain ⟨v, hv, _⟩ := load_correct m op p off hlen hb
    rw [hv]; simp
  · intro op p off v hb
    obtain ⟨v, hv, _⟩ := store_correct m op p off v hlen hb
    rw [hv]; simp
  · intro d s n hd hs
    unfold InBounds at *
    constructor
    · by_cases hn : n = 0
      · simp [Mem.copy, hn]
      · have hl : (List.take n.toNat (List.drop s.toNat m.data)).length = n.toNat := by simp; omega
        simp only [Mem.copy, if_neg hn, readAt, writeAt, if_pos hs, hl, Res.bind_ok, if_pos hd]; simp
    · by_cases hn : n = 0
      · simp [Mem.fill, hn]
      · simp only [Mem.fill, if_neg hn, writeAt, List.length_replicate, if_pos hd, Res.bind_ok]; simp

example : exMem.initInstr [1, 2, 3] 0 2 2 = .panic :=
  (oob_traps_partial exMem (by simp [exMem_length])).1 _ _ _ _ (by decide) (by decide) (by decide)

/-! ### C10 -/

/-- What the specification requires of `memory.grow delta` in state `m`, as a predicate on the outcome. -/
def GrowSpec (m : Mem) (delta : Nat) (r : Res (BitVec 32 × Mem)) : Prop :=
  (∃ v m', r = .ok (v, m') ∧
    ((v = BitVec.allOnes 32 ∧ m' = m ∧ ¬ growAllowed (m.max.map (·.toNat)) (m.data.length / pageSize) delta) ∨
     (growAllowed (m.max.map (·.toNat)) (m.data.length / pageSize) delta ∧
      v.toNat = m.data.length / pageSize ∧
      m'.max = m.max ∧
      m'.data = m.data ++ List.replicate (delta * pageSize) 0)))

/-- C10 is violated: with one page and no declared maximum, growing by 65535 pages "succeeds" and empties the
memory (65536 * 65536 wraps to 0 in 32-bit `usize`). -/
theorem grow_spec_violated :
    ∃ m : Mem, m.data.length = 65536 ∧ m.max = none ∧ (∃ m', m.growInstr 65535 = .ok (1, m') ∧ m'.data = []) ∧
      ¬ GrowSpec m 65535 (m.growInstr 65535) := by
  have key : ∀ d : List Byte, d.length = 65536 →
      ({ data := d, max := none } : Mem).growInstr 65535 = .ok (1, { data := [], max := none }) := by
    intro d hd
    simp only [Mem.growInstr, Mem.grow, Mem.size, hd]
    rw [if_neg (by decide), if_neg (by decide), if_neg (by decide)]
    simp [resize]
  have hlen : (List.replicate 65536 (1 : Byte)).length = 65536 := List.length_replicate
  generalize List.replicate 65536 (1 : Byte) = d at hlen
  refine ⟨{ data := d, max := none }, hlen, rfl, ⟨_, key d hlen, rfl⟩, ?_⟩
  rw [key d hlen]
  rintro ⟨v, m', h, h2⟩
  cases h
  rcases h2 with h2 | h2
  · exact absurd h2.1 (by decide)
  · have := congrArg List.length h2.2.2.2
    simp only [List.length_append, List.length_nil, hlen] at this
    omega

/-- C10 is violated: a delta of 2^31 or more traps instead of returning -1 ... -/
theorem grow_negative_violated (m : Mem) (delta : BitVec 32) (h : 2 ^ 31 ≤ delta.toNat) :
    m.growInstr delta = .trap .invalidParameterCount ∧ ¬ GrowSpec m delta.toNat (m.growInstr delta) := by
  have hm : delta.msb = true := by
    rw [BitVec.msb_eq_decide]; simpa using h
  have e : m.growInstr delta = .trap .invalidParameterCount := by simp [Mem.growInstr, hm]
  refine ⟨e, ?_⟩
  rw [e]; rintro ⟨_, _, h, _⟩; cases h

/-- ... and a delta just below 2^31 wraps the i32 page count and *shrinks* the memory. -/
theorem grow_shrinks_violated :
    ∃ m m' : Mem, ∃ delta : BitVec 32, m.data.length = 131072 ∧ m.max = some 2 ∧
      m.growInstr delta = .ok (2, m') ∧ m'.data.length < m.data.length := by
  have key : ∀ d : List Byte, d.length = 131072 →
      ({ data := d, max := some 2 } : Mem).growInstr 0x7FFFFFFE = .ok (2, { data := resize d 0, max := some 2 }) := by
    intro d hd
    simp only [Mem.growInstr, Mem.grow, Mem.size, hd]
    rw [if_neg (by decide), if_neg (by decide), if_neg (by decide)]
    rfl
  have hlen : (List.replicate 131072 (1 : Byte)).length = 131072 := List.length_replicate
  generalize List.replicate 131072 (1 : Byte) = d at hlen
  exact ⟨_, _, _, hlen, rfl, key d hlen, by simp [resize, hlen]⟩

/-- C10, the part that holds: for page-aligned memories (C12) and declared maxima of at most 65536 pages,
`memory.grow` meets the specification for every delta below `2^31 - 65536`, except when the new size would be exactly
65536 pages. Missing from C10: exactly the deltas exhibited by the `_violated` theorems. -/
theorem grow_spec_partial (m : Mem) (delta : BitVec 32) (hlen : m.data.length < 2 ^ 32)
    (hal : m.data.length % pageSize = 0) (hmax : ∀ mx, m.max = some mx → mx.toNat ≤ 65536)
    (hd : delta.toNat < 2 ^ 31 - 65536) (hne : m.data.length / pageSize + delta.toNat ≠ 65536) :
    GrowSpec m delta.toNat (m.growInstr delta) := by
  unfold pageSize at *
  have hmsb : delta.msb = false := by
    rw [BitVec.msb_eq_decide]; simp; omega
  have hp : m.data.length / 65536 < 65536 := by omega
  have hsize : m.size.toNat = m.data.length / 65536 := by
    simp only [Mem.size, BitVec.toNat_ofNat]; omega
  have hnew : (m.size + delta).toNat = m.data.length / 65536 + delta.toNat := by
    rw [BitVec.toNat_add, hsize]; omega
  have hslt : ∀ x : BitVec 32, x.toNat ≤ 65536 →
      (x.slt (m.size + delta) = true ↔ x.toNat < m.data.length / 65536 + delta.toNat) := by
    intro x hx
    rw [BitVec.slt_iff_toInt_lt, BitVec.toInt_eq_toNat_of_lt (by omega), BitVec.toInt_eq_toNat_of_lt (by omega), hnew]
    omega
  have h64 := hslt 65536#32 (by decide)
  simp only [Mem.growInstr, hmsb, Bool.false_eq_true, if_false, Mem.grow]
  have hc64 : (65536#32).toNat = 65536 := rfl
  rw [hc64] at h64
  have hover : overMax m.max (m.size + delta) = true ↔
      ∃ mx, m.max = some mx ∧ mx.toNat < m.data.length / 65536 + delta.toNat := by
    cases hmx : m.max with
    | none => simp [overMax]
    | some mx => simp [overMax, hslt mx (hmax mx hmx)]
  by_cases hb : overMax m.max (m.size + delta) = true
  · rw [if_pos hb]
    refine ⟨_, _, rfl, Or.inl ?_⟩
    obtain ⟨mx, h1, h2⟩ := hover.1 hb
    refine ⟨rfl, rfl, ?_⟩
    rintro ⟨_, h⟩
    have := h mx.toNat (by simp [h1])
    simp only [pageSize] at this
    omega
  · rw [if_neg hb]
    by_cases hc : (65536#32).slt (m.size + delta) = true
    · rw [if_pos hc]
      refine ⟨_, _, rfl, Or.inl ?_⟩
      refine ⟨rfl, rfl, ?_⟩
      rintro ⟨h, _⟩
      simp only [pageSize] at h
      have := h64.1 hc
      omega
    · rw [if_neg hc]
      refine ⟨_, _, rfl, Or.inr ?_⟩
      have hle : m.data.length / 65536 + delta.toNat < 65536 := by
        rcases Nat.lt_or_ge 65536 (m.data.length / 65536 + delta.toNat) with h | h
        · exact absurd (h64.2 h) hc
        · omega
      refine ⟨⟨by simp only [pageSize]; omega, ?_⟩, hsize, rfl, ?_⟩
      · intro mx hmx
        simp only [Option.map_eq_some_iff] at hmx
        obtain ⟨y, hy1, hy2⟩ := hmx
        simp only [pageSize]
        rcases Nat.lt_or_ge mx (m.data.length / 65536 + delta.toNat) with h | h
        · exact absurd (hover.2 ⟨y, hy1, by omega⟩) hb
        · exact h
      · have hn : ((m.size + delta) * 65536#32).toNat = m.data.length + delta.toNat * 65536 := by
          rw [BitVec.toNat_mul, hnew, hc64]; omega
        simp only [resize, hn, pageSize]
        rw [List.take_of_length_le (by omega)]
        congr 2; omega

example : GrowSpec exMem 1 (exMem.growInstr 1) :=
  grow_spec_partial exMem 1 (by simp [exMem_length]) (by simp [exMem_length, pageSize])
    (by simp [exMem_max]) (by decide) (by simp [exMem_length, pageSize])
example : GrowSpec exMem 2 (exMem.growInstr 2) :=
  grow_spec_partial exMem 2 (by simp [exMem_length]) (by simp [exMem_length, pageSize])
    (by simp [exMem_max]) (by decide) (by simp [exMem_length, pageSize])

/-! ### C11 -/

/-- C11 (copy). For in-bounds ranges — overlapping or not — every byte of the destination range receives the byte the
source range had *before* the copy; everything else is unchanged. -/
theorem copy_correct (m : Mem) (d s n : BitVec 32) (hd : InBounds m.data.length d.toNat n.toNat)
    (hs : InBounds m.data.length s.toNat n.toNat) :
    ∃ m', m.copy d s n = .ok m' ∧ m'.max = m.max ∧ m'.data.length = m.data.length ∧
      ∀ i, m'.data[i]? =
        if d.toNat ≤ i ∧ i < d.toNat + n.toNat then m.data[s.toNat + (i - d.toNat)]? else m.data[i]? := by
  unfold InBounds at *
  by_cases hn : n = 0
  · refine ⟨m, by simp [Mem.copy, hn], rfl, rfl, ?_⟩
    intro i; subst hn; rw [if_neg]; simp
  · have hl : (List.take n.toNat (List.drop s.toNat m.data)).length = n.toNat := by simp; omega
    have hd' : d.toNat + (List.take n.toNat (List.drop s.toNat m.data)).length ≤ m.data.length := by omega
    simp only [Mem.copy, if_neg hn, readAt, writeAt, if_pos hs, Res.bind_ok, if_pos hd', Res.pure_eq]
    refine ⟨_, rfl, rfl, overwrite_length hd', fun i => ?_⟩
    simp only [overwrite_getElem? hd', hl]
    split
    · simp only [List.getElem?_take, List.getElem?_drop]
      rw [if_pos (by omega)]
    · rfl

/-- C11 (fill). -/
theorem fill_correct (m : Mem) (d v n : BitVec 32) (hd : InBounds m.data.length d.toNat n.toNat) :
    ∃ m', m.fill d v n = .ok m' ∧ m'.max = m.max ∧ m'.data.length = m.data.length ∧
      ∀ i, m'.data[i]? =
        if d.toNat ≤ i ∧ i < d.toNat + n.toNat then some (BitVec.ofNat 8 (v.toNat % 256)) else m.data[i]? := by
  unfold InBounds at *
  by_cases hn : n = 0
  · refine ⟨m, by simp [Mem.fill, hn], rfl, rfl, ?_⟩
    intro i; subst hn; rw [if_neg]; simp
  · have hd' : d.toNat + (List.replicate n.toNat (v.setWidth 8)).length ≤ m.data.length := by simpa using hd
    simp only [Mem.fill, if_neg hn, writeAt, if_pos hd', Res.bind_ok, Res.pure_eq]
    refine ⟨_, rfl, rfl, overwrite_length hd', fun i => ?_⟩
    simp only [overwrite_getElem? hd', List.length_replicate]
    split
    · rw [List.getElem?_replicate, if_pos (by omega)]
      congr 1; apply BitVec.eq_of_toNat_eq; simp
    · rfl

/-- C11 (init). -/
theorem init_correct (m : Mem) (seg : List Byte) (d s n : BitVec 32) (hlen : m.data.length < 2 ^ 32)
    (hseg : seg.length < 2 ^ 32) (hd : InBounds m.data.length d.toNat n.toNat)
    (hs : InBounds seg.length s.toNat n.toNat) :
    ∃ m', m.initInstr seg d s n = .ok m' ∧ m'.max = m.max ∧ m'.data.length = m.data.length ∧
      ∀ i, m'.data[i]? =
        if d.toNat ≤ i ∧ i < d.toNat + n.toNat then seg[s.toNat + (i - d.toNat)]? else m.data[i]? := by
  unfold InBounds at *
  by_cases hn : n = 0
  · refine ⟨m, by simp [Mem.initInstr, hn], rfl, rfl, ?_⟩
    intro i; subst hn; rw [if_neg]; simp
  · have he : (s + n).toNat = s.toNat + n.toNat := by rw [BitVec.toNat_add]; omega
    have hl : (List.take (s.toNat + n.toNat - s.toNat) (List.drop s.toNat seg)).length = n.toNat := by simp; omega
    simp only [Mem.initInstr, if_neg hn, he, Mem.init, hl]
    rw [if_pos (by omega), if_pos (by omega)]
    have hd' : d.toNat + (List.take (s.toNat + n.toNat - s.toNat) (List.drop s.toNat seg)).length ≤ m.data.length := by
      omega
    refine ⟨_, rfl, rfl, overwrite_length hd', fun i => ?_⟩
    simp only [overwrite_getElem? hd', hl]
    split
    · simp only [List.getElem?_take, List.getElem?_drop]
      rw [if_pos (by omega)]
    · rfl

/-- an overlapping copy meets the hypotheses -/
example : InBounds exMem.data.length (10#32).toNat (100#32).toNat ∧
    InBounds exMem.data.length (50#32).toNat (100#32).toNat := by
  simp [InBounds, exMem_length]
example : ({ data := [1, 2, 3, 4, 5], max := none } : Mem).copy 1 0 4 =
    .ok { data := [1, 1, 2, 3, 4], max := none } := by decide

/-! ### C12 -/

/-- the memory instructions a program can execute -/
inductive MemOp
  | load (op : LoadOp) (p : BitVec 32) (off : BitVec 64)
  | store (op : StoreOp) (p : BitVec 32) (off : BitVec 64) (v : op.cls.Carrier)
  | grow (delta : BitVec 32)
  | copy (d s n : BitVec 32)
  | fill (d v n : BitVec 32)
  | init (seg : List Byte) (d s n : BitVec 32)

/-- one instruction; `none` when it does not complete normally -/
def MemOp.step (m : Mem) : MemOp → Option Mem
  | .load op p off => match m.load op p off with | .ok _ => some m | _ => none
  | .store op p off v => match m.store op p off v with | .ok m' => some m' | _ => none
  | .grow delta => match m.growInstr delta with | .ok r => some r.2 | _ => none
  | .copy d s n => match m.copy d s n with | .ok m' => some m' | _ => none
  | .fill d v n => match m.fill d v n with | .ok m' => some m' | _ => none
  | .init seg d s n => match m.initInstr seg d s n with | .ok m' => some m' | _ => none

/-- run a history of memory instructions -/
def runMem (m : Mem) : List MemOp → Option Mem
  | [] => some m
  | op :: ops => (op.step m).bind (runMem · ops)

theorem writeAt_length {d d' : List Byte} {pos : Nat} {bs : List Byte} (h : writeAt d pos bs = .ok d') :
    d'.length = d.length := by
  unfold writeAt at h
  split at h
  · cases h; exact overwrite_length (by assumption)
  · cases h

theorem step_length (m m' : Mem) (op : MemOp) (h : op.step m = some m') :
    m'.data.length = m.data.length ∨ ∃ delta, op = .grow delta ∧ delta.msb = false ∧ m' = (m.grow delta).2 := by
  cases op with
  | load op p off =>
    left; simp only [MemOp.step] at h; split at h <;> simp_all
  | store op p off v =>
    left; simp only [MemOp.step, Mem.store] at h
    cases hw : writeAt m.data (effAddr p off) (toLE op.width (op.cast v)) <;> simp [hw] at h
    subst h; exact writeAt_length hw
  | grow delta =>
    right; refine ⟨delta, rfl, ?_⟩
    simp only [MemOp.step, Mem.growInstr] at h
    cases hm : delta.msb <;> simp [hm] at h
    exact ⟨rfl, h.symm⟩
  | copy d s n =>
    left; simp only [MemOp.step, Mem.copy] at h
    by_cases hn : n = 0
    · simp [hn] at h; rw [h]
    · simp only [if_neg hn] at h
      cases hr : readAt m.data s.toNat n.toNat with
      | ok bs =>
        simp only [hr, Res.bind_ok] at h
        cases hw : writeAt m.data d.toNat bs with
        | ok d2 => simp [hw] at h; subst h; exact writeAt_length hw
        | _ => simp [hw] at h
      | _ => simp [hr] at h
  | fill d v n =>
    left; simp only [MemOp.step, Mem.fill] at h
    by_cases hn : n = 0
    · simp [hn] at h; rw [h]
    · simp only [if_neg hn] at h
      cases hw : writeAt m.data d.toNat (List.replicate n.toNat (v.setWidth 8)) with
      | ok d2 => simp [hw] at h; subst h; exact writeAt_length hw
      | _ => simp [hw] at h
  | init seg d s n =>
    left; simp only [MemOp.step, Mem.initInstr] at h
    by_cases hn : n = 0
    · simp [hn] at h; rw [h]
    · simp only [if_neg hn] at h
      split at h
      case h_2 => cases h
      case h_1 m2 heq =>
        cases h
        split at heq
        · simp only [Mem.init] at heq
          split at heq
          · rename_i hcond
            injection heq with heq
            subst heq
            apply overwrite_length
            have h1 := hcond.1
            have h2 := hcond.2
            generalize hL : (List.take ((s + n).toNat - s.toNat) (List.drop s.toNat seg)).length = L at *
            have hL2 : L ≤ (s + n).toNat - s.toNat := by rw [← hL]; simp; omega
            have hd := d.isLt
            have hsn := (s + n).isLt
            by_cases hw : d.toNat + L < 2 ^ 32
            · rw [Nat.mod_eq_of_lt hw] at h2; exact h2
            · rw [show (d.toNat + L) % 2 ^ 32 = d.toNat + L - 2 ^ 32 by omega] at h1; omega
          · cases heq
        · cases heq

theorem step_max (m m' : Mem) (op : MemOp) (h : op.step m = some m') : m'.max = m.max := by
  cases op with
  | load op p off => simp only [MemOp.step] at h; split at h <;> simp_all
  | store op p off v =>
    simp only [MemOp.step, Mem.store] at h
    cases hw : writeAt m.data (effAddr p off) (toLE op.width (op.cast v)) <;> simp [hw] at h
    subst h; rfl
  | grow delta =>
    simp only [MemOp.step, Mem.growInstr, Mem.grow] at h
    cases hm : delta.msb <;> simp [hm] at h
    subst h; split
    · rfl
    · split <;> rfl
  | copy d s n =>
    simp only [MemOp.step, Mem.copy] at h
    by_cases hn : n = 0
    · simp [hn] at h; rw [h]
    · simp only [if_neg hn] at h
      cases hr : readAt m.data s.toNat n.toNat with
      | ok bs =>
        simp only [hr, Res.bind_ok] at h
        cases hw : writeAt m.data d.toNat bs <;> simp [hw] at h
        subst h; rfl
      | _ => simp [hr] at h
  | fill d v n =>
    simp only [MemOp.step, Mem.fill] at h
    by_cases hn : n = 0
    · simp [hn] at h; rw [h]
    · simp only [if_neg hn] at h
      cases hw : writeAt m.data d.toNat (List.replicate n.toNat (v.setWidth 8)) <;> simp [hw] at h
      subst h; rfl
  | init seg d s n =>
    simp only [MemOp.step, Mem.initInstr, Mem.init] at h
    split at h
    · rename_i heq
      cases h
      split at heq
      · cases heq; rfl
      · split at heq
        · split at heq
          · cases heq; rfl
          · cases heq
        · cases heq
    · cases h

theorem resize_length (d : List Byte) (n : Nat) : (resize d n).length = n := by
  simp [resize]; omega

/-- C12, the part that holds for *every* history: a memory that starts page-aligned (in particular a freshly
instantiated one) stays page-aligned, below 4 GiB, and `memory.size` is exactly its length in pages.
Missing: "never shrinks" (violated, see `grow_shrinks_violated`; proved under a guard in `memory_never_shrinks_partial`). -/
theorem memory_page_aligned_partial (m m' : Mem) (ops : List MemOp) (hlen : m.data.length < 2 ^ 32)
    (hal : m.data.length % pageSize = 0) (h : runMem m ops = some m') :
    m'.data.length % pageSize = 0 ∧ m'.data.length < 2 ^ 32 ∧ m'.size.toNat * pageSize = m'.data.length := by
  induction ops generalizing m with
  | nil =>
    simp only [runMem, Option.some.injEq] at h; subst h
    refine ⟨hal, hlen, ?_⟩
    unfold pageSize at *
    simp only [Mem.size, BitVec.toNat_ofNat]; omega
  | cons op ops ih =>
    simp only [runMem, Option.bind_eq_some_iff] at h
    obtain ⟨m1, h1, h2⟩ := h
    rcases step_length m m1 op h1 with hl | ⟨delta, rfl, _, rfl⟩
    · exact ih m1 (by omega) (by rw [hl]; exact hal) h2
    · refine ih _ ?_ ?_ h2
      · simp only [Mem.grow]
        split
        · exact hlen
        · split
          · exact hlen
          · simp only [resize_length]; exact BitVec.isLt _
      · simp only [Mem.grow]
        split
        · exact hal
        · split
          · exact hal
          · simp only [resize_length, BitVec.toNat_mul, pageSize]
            rw [show (65536#32).toNat = 65536 from rfl]
            omega

/-- C12 for a freshly created memory of any declared minimum. -/
theorem fresh_memory_page_aligned_partial (min : BitVec 32) (max : Option (BitVec 32)) (m' : Mem) (ops : List MemOp)
    (h : runMem (Mem.new min max) ops = some m') :
    m'.data.length % pageSize = 0 ∧ m'.data.length < 2 ^ 32 ∧ m'.size.toNat * pageSize = m'.data.length := by
  apply memory_page_aligned_partial (Mem.new min max) m' ops _ _ h
  · simp only [Mem.new, List.length_replicate]; exact BitVec.isLt _
  · simp only [Mem.new, List.length_replicate, pageSize, BitVec.toNat_mul]
    rw [show (65536#32).toNat = 65536 from rfl]
    omega

/-- C12, monotonicity part: as long as every executed `memory.grow` has a delta below `2^31 - 65536` and is not one that
would reach exactly 65536 pages, the memory never shrinks and existing addresses stay valid. -/
theorem memory_never_shrinks_partial (m m' : Mem) (ops : List MemOp) (hlen : m.data.length < 2 ^ 32)
    (hal : m.data.length % pageSize = 0) (hmax : ∃ mx, m.max = some mx ∧ mx.toNat < 65536)
    (hg : ∀ delta, MemOp.grow delta ∈ ops → delta.toNat < 2 ^ 31 - 65536)
    (h : runMem m ops = some m') : m.data.length ≤ m'.data.length := by
  induction ops generalizing m with
  | nil => simp only [runMem, Option.some.injEq] at h; subst h; exact Nat.le_refl _
  | cons op ops ih =>
    simp only [runMem, Option.bind_eq_some_iff] at h
    obtain ⟨m1, h1, h2⟩ := h
    have hal1 := memory_page_aligned_partial m m1 [op] hlen hal (by simp [runMem, h1])
    have hmx1 := step_max _ _ _ h1
    have hrest := ih m1 hal1.2.1 hal1.1 (by rw [hmx1]; exact hmax) (fun d hd => hg d (List.mem_cons_of_mem _ hd)) h2
    refine Nat.le_trans ?_ hrest
    rcases step_length m m1 op h1 with hl | ⟨delta, rfl, hmsb, rfl⟩
    · omega
    · obtain ⟨mx, hmxe, hmxl⟩ := hmax
      by_cases hne : m.data.length / pageSize + delta.toNat = 65536
      · -- beyond the declared maximum: fails and changes nothing
        have hd := hg delta (by simp)
        unfold pageSize at *
        have hsize : m.size.toNat = m.data.length / 65536 := by
          simp only [Mem.size, BitVec.toNat_ofNat]; omega
        have hnew : (m.size + delta).toNat = m.data.length / 65536 + delta.toNat := by
          rw [BitVec.toNat_add, hsize]; omega
        have : mx.slt (m.size + delta) = true := by
          rw [BitVec.slt_iff_toInt_lt, BitVec.toInt_eq_toNat_of_lt (by omega),
            BitVec.toInt_eq_toNat_of_lt (by omega), hnew]
          omega
        simp [Mem.grow, overMax, hmxe, this]
      · obtain ⟨v, m2, he, hc⟩ := grow_spec_partial m delta hlen hal
          (by intro y hy; rw [hmxe] at hy; cases hy; omega) (hg delta (by simp)) hne
        simp only [Mem.growInstr, hmsb, Bool.false_eq_true, if_false, Res.ok.injEq] at he
        rw [he]
        rcases hc with ⟨_, rfl, _⟩ | ⟨_, _, _, hdta⟩
        · exact Nat.le_refl _
        · simp only [hdta, List.length_append]; omega

end Verif.Props
