import Verif.Lemmas.WebNum
/-
The numeric relations of `Spec.WebAssembly` determine their results.
-/
namespace Verif.Lemmas
open Verif.Model Verif.Spec Verif.Props

theorem num_inj {c : Cls} (h : c ≠ .ref) {a b : c.Carrier} (e : c.num a = c.num b) : a = b := by
  cases c
  case ref => exact absurd rfl h
  all_goals exact BitVec.eq_of_toNat_eq e

theorem int_inj {s : Sz} {a b : s.int.Carrier} (e : s.int.num a = s.int.num b) : a = b :=
  num_inj (by cases s <;> simp) e

theorem flt_inj {s : Sz} {a b : s.flt.Carrier} (e : s.flt.num a = s.flt.num b) : a = b :=
  num_inj (by cases s <;> simp) e

theorem clz_unique {N i n m : Nat} (h : IsClz N i n) (h' : IsClz N i m) : n = m := by
  obtain ⟨h1, h2, h3⟩ := h
  obtain ⟨k1, k2, k3⟩ := h'
  rcases Nat.lt_trichotomy n m with hlt | he | hlt
  · have := k2 n hlt; rw [h3 (by omega)] at this; cases this
  · exact he
  · have := h2 m hlt; rw [k3 (by omega)] at this; cases this

theorem ctz_unique {N i n m : Nat} (h : IsCtz N i n) (h' : IsCtz N i m) : n = m := by
  obtain ⟨h1, h2, h3⟩ := h
  obtain ⟨k1, k2, k3⟩ := h'
  rcases Nat.lt_trichotomy n m with hlt | he | hlt
  · have := k2 n hlt; rw [h3 (by omega)] at this; cases this
  · exact he
  · have := h2 m hlt; rw [k3 (by omega)] at this; cases this

theorem iunop_unique {N i n m : Nat} {op : IUnOp} (h : IUnop N op i n) (h' : IUnop N op i m) : n = m := by
  cases op
  case clz => exact clz_unique h h'
  case ctz => exact ctz_unique h h'
  all_goals (simp only [IUnop] at h h'; rw [h, h'])

theorem magBits_eq {f : Fmt} {a b : Nat} (h : f.SameMagnitude a b) : fMagBits f a = fMagBits f b := by
  obtain ⟨h1, h2⟩ := h
  rw [expo_eq, expo_eq] at h1
  rw [mant_eq, mant_eq] at h2
  rw [← Nat.div_add_mod (fMagBits f a) (2 ^ f.m), ← Nat.div_add_mod (fMagBits f b) (2 ^ f.m), h1, h2]

theorem sign_mag_unique {s : Sz} {a b : s.flt.Carrier} {x : Nat} (ha : s.fmt.SameMagnitude (s.flt.num a) x)
    (hb : s.fmt.SameMagnitude (s.flt.num b) x) (hs : s.fmt.sign (s.flt.num a) = s.fmt.sign (s.flt.num b)) : a = b :=
  flt_inj (bits_eq _ _ _ (flt_num_lt s a) (flt_num_lt s b) hs ((magBits_eq ha).trans (magBits_eq hb).symm))

theorem gval_bits {f : Fmt} (hf : IsWasmFmt f) {a b : Nat} (ha : a < 2 ^ f.width) (hb : b < 2 ^ f.width) (na : f.val a ≠ .nan)
    (nb : f.val b ≠ .nan) (h : f.val a = f.val b) (hs : f.sign a = f.sign b) : a = b := by
  refine bits_eq f a b ha hb hs (gmag_inj f ?_)
  have := (val_eq_iff f a b na nb (inf_pos hf)).mp h
  unfold gval at this
  rw [hs] at this
  split at this <;> omega

theorem lt_asymm {f : Fmt} (hf : IsWasmFmt f) {a b : Nat} (na : f.val a ≠ .nan) (nb : f.val b ≠ .nan)
    (h : (f.val a).Lt (f.val b)) : ¬ (f.val b).Lt (f.val a) ∧ f.val a ≠ f.val b := by
  have hi := inf_pos hf
  rw [val_lt_iff f b a nb na hi, Ne, val_eq_iff f a b na nb hi]
  rw [val_lt_iff f a b na nb hi] at h
  omega

theorem leZ_antisymm {f : Fmt} (hf : IsWasmFmt f) {a b : Nat} (ha : a < 2 ^ f.width) (hb : b < 2 ^ f.width) (na : f.val a ≠ .nan)
    (nb : f.val b ≠ .nan) (h : f.LeZ a b) (h' : f.LeZ b a) : a = b := by
  rcases h with h | ⟨h, hs⟩
  · obtain ⟨h1, h2⟩ := lt_asymm hf na nb h
    rcases h' with k | ⟨k, _⟩
    · exact absurd k h1
    · exact absurd k.symm h2
  · rcases h' with k | ⟨_, ks⟩
    · exact absurd h.symm (lt_asymm hf nb na k).2
    · refine gval_bits hf ha hb na nb h ?_
      revert hs ks
      cases f.sign a <;> cases f.sign b <;> simp

theorem canon_unique {f : Fmt} {a b : Nat} (ha : f.CanonicalNaN a) (hb : f.CanonicalNaN b) (hs : f.sign a = f.sign b) : a = b :=
  bits_eq f a b ha.2.2 hb.2.2 hs (magBits_eq ⟨ha.1.trans hb.1.symm, ha.2.1.trans hb.2.1.symm⟩)

theorem canon_val {f : Fmt} (hf : IsWasmFmt f) {a : Nat} (h : f.CanonicalNaN a) : f.val a = .nan := by
  obtain ⟨h1, h2, _⟩ := h
  unfold Fmt.val
  rw [if_pos h1, if_neg]
  rw [h2]
  rcases hf with rfl | rfl <;> decide

theorem fmin_unique {s : Sz} {a b v w : s.flt.Carrier} (hv : IsFMin s.fmt (s.flt.num a) (s.flt.num b) (s.flt.num v))
    (hw : IsFMin s.fmt (s.flt.num a) (s.flt.num b) (s.flt.num w)) (pv : PosNaN s v) (pw : PosNaN s w) : v = w := by
  unfold IsFMin at hv hw
  have hf := isWasm s
  split at hv
  · rename_i hn
    rw [if_pos hn] at hw
    exact flt_inj (canon_unique hv hw ((pv (canon_val hf hv)).trans (pw (canon_val hf hw)).symm))
  · rename_i hn
    rw [if_neg hn] at hw
    rw [not_or] at hn
    have ha := flt_num_lt s a
    have hb := flt_num_lt s b
    refine flt_inj ?_
    obtain ⟨h1, h2, h3⟩ := hv
    obtain ⟨k1, k2, k3⟩ := hw
    rcases h1 with h1 | h1 <;> rcases k1 with k1 | k1 <;> rw [h1] at h2 h3 ⊢ <;> rw [k1] at k2 k3 ⊢
    · exact leZ_antisymm hf ha hb hn.1 hn.2 h3 k2
    · exact leZ_antisymm hf hb ha hn.2 hn.1 h2 k3

theorem fmax_unique {s : Sz} {a b v w : s.flt.Carrier} (hv : IsFMax s.fmt (s.flt.num a) (s.flt.num b) (s.flt.num v))
    (hw : IsFMax s.fmt (s.flt.num a) (s.flt.num b) (s.flt.num w)) (pv : PosNaN s v) (pw : PosNaN s w) : v = w := by
  unfold IsFMax at hv hw
  have hf := isWasm s
  split at hv
  · rename_i hn
    rw [if_pos hn] at hw
    exact flt_inj (canon_unique hv hw ((pv (canon_val hf hv)).trans (pw (canon_val hf hw)).symm))
  · rename_i hn
    rw [if_neg hn] at hw
    rw [not_or] at hn
    have ha := flt_num_lt s a
    have hb := flt_num_lt s b
    refine flt_inj ?_
    obtain ⟨h1, h2, h3⟩ := hv
    obtain ⟨k1, k2, k3⟩ := hw
    rcases h1 with h1 | h1 <;> rcases k1 with k1 | k1 <;> rw [h1] at h2 h3 ⊢ <;> rw [k1] at k2 k3 ⊢
    · exact leZ_antisymm hf ha hb hn.1 hn.2 k2 h3
    · exact leZ_antisymm hf hb ha hn.2 hn.1 k3 h2

theorem signed_inj {x y : BitVec 64} (h : signed 64 x.toNat = signed 64 y.toNat) : x = y := by
  rw [signed_toNat (by decide), signed_toNat (by decide)] at h
  exact BitVec.eq_of_toInt_eq h

theorem isBool_unique {p : Prop} {v w : BitVec 32} (hv : IsBool p v) (hw : IsBool p w) : v = w := by
  apply BitVec.eq_of_toNat_eq
  rcases Classical.em p with h | h
  · rw [hv.1 h, hw.1 h]
  · rw [hv.2 h, hw.2 h]

theorem nanIs_unique {s : Sz} {v w nan : s.flt.Carrier} (h : s.flt.num v = s.flt.num w ∨ (s.fmt.IsNaN (s.flt.num v) ∧ s.fmt.IsNaN (s.flt.num w)))
    (hv : NaNIs s v nan) (hw : NaNIs s w nan) : v = w := by
  rcases h with h | h
  · exact flt_inj h
  · exact (hv h.1.2).trans (hw h.2.2).symm

theorem unary_unique {H : FloatHost} {op : Op1} {a : op.src.Carrier} {r r' : Option op.dst.Carrier} (h : Unary H op a r)
    (h' : Unary H op a r') : r = r' := by
  cases op with
  | mov c => exact h.trans h'.symm
  | int s op => obtain ⟨v, rfl, h⟩ := h; obtain ⟨w, rfl, h'⟩ := h'; rw [int_inj (iunop_unique h h')]
  | eqz s => obtain ⟨v, rfl, h⟩ := h; obtain ⟨w, rfl, h'⟩ := h'; rw [num_inj (c := .i32) (by simp) (h.trans h'.symm)]
  | abs s =>
    obtain ⟨v, rfl, h, hs⟩ := h; obtain ⟨w, rfl, h', hs'⟩ := h'
    rw [sign_mag_unique h h' (hs.trans hs'.symm)]
  | neg s =>
    obtain ⟨v, rfl, h, hs⟩ := h; obtain ⟨w, rfl, h', hs'⟩ := h'
    rw [sign_mag_unique h h' (hs.trans hs'.symm)]
  | round s op =>
    obtain ⟨v, rfl, h, p⟩ := h; obtain ⟨w, rfl, h', p'⟩ := h'
    rw [nanIs_unique (rounded_unique (sz_ok s) h h') p p']
  | extS => obtain ⟨v, rfl, h⟩ := h; obtain ⟨w, rfl, h'⟩ := h'; rw [signed_inj (h.trans h'.symm)]
  | extU => obtain ⟨v, rfl, h⟩ := h; obtain ⟨w, rfl, h'⟩ := h'; rw [num_inj (c := .i64) (by simp) (h.trans h'.symm)]
  | wrap => obtain ⟨v, rfl, h⟩ := h; obtain ⟨w, rfl, h'⟩ := h'; rw [num_inj (c := .i32) (by simp) (h.trans h'.symm)]
  | trunc t =>
    simp only [Unary] at h h'
    split at h
    · rename_i z hz
      rw [hz] at h'
      obtain ⟨v, rfl, h⟩ := h; obtain ⟨w, rfl, h'⟩ := h'
      rw [int_inj (h.trans h'.symm)]
    · rename_i hz
      rw [hz] at h'
      exact h.trans h'.symm
  | truncSat t => obtain ⟨v, rfl, h⟩ := h; obtain ⟨w, rfl, h'⟩ := h'; rw [int_inj (h.trans h'.symm)]
  | convert d s sg => obtain ⟨v, rfl, h⟩ := h; obtain ⟨w, rfl, h'⟩ := h'; rw [flt_inj (fromInt_unique (sz_ok d) h h')]
  | demote =>
    obtain ⟨v, rfl, h, p⟩ := h; obtain ⟨w, rfl, h', p'⟩ := h'
    rw [nanIs_unique (s := .s32) (fromFloat_unique f32_ok h h') p p']
  | promote =>
    obtain ⟨v, rfl, h, p⟩ := h; obtain ⟨w, rfl, h', p'⟩ := h'
    rw [nanIs_unique (s := .s64) (fromFloat_unique f64_ok h h') p p']
  | reinterpIF s => obtain ⟨v, rfl, h⟩ := h; obtain ⟨w, rfl, h'⟩ := h'; rw [int_inj (h.trans h'.symm)]
  | reinterpFI s => obtain ⟨v, rfl, h⟩ := h; obtain ⟨w, rfl, h'⟩ := h'; rw [flt_inj (h.trans h'.symm)]

theorem binary_unique {H : FloatHost} {op : Op2} {a b : op.src.Carrier} {r r' : Option op.dst.Carrier} (h : Binary H op a b r)
    (h' : Binary H op a b r') : r = r' := by
  cases op with
  | int s op =>
    simp only [Binary] at h h'
    split at h
    · rename_i z hz
      rw [hz] at h'
      obtain ⟨v, rfl, h⟩ := h; obtain ⟨w, rfl, h'⟩ := h'
      rw [int_inj (h.trans h'.symm)]
    · rename_i hz
      rw [hz] at h'
      exact h.trans h'.symm
  | rel s op => obtain ⟨v, rfl, h⟩ := h; obtain ⟨w, rfl, h'⟩ := h'; rw [isBool_unique h h']
  | arith s op =>
    obtain ⟨v, rfl, h, p⟩ := h; obtain ⟨w, rfl, h', p'⟩ := h'
    rw [nanIs_unique (arith_unique (sz_ok s) h h') p p']
  | min s => obtain ⟨v, rfl, h, p⟩ := h; obtain ⟨w, rfl, h', p'⟩ := h'; rw [fmin_unique h h' p p']
  | max s => obtain ⟨v, rfl, h, p⟩ := h; obtain ⟨w, rfl, h', p'⟩ := h'; rw [fmax_unique h h' p p']
  | copysign s =>
    obtain ⟨v, rfl, h, hs⟩ := h; obtain ⟨w, rfl, h', hs'⟩ := h'
    rw [sign_mag_unique h h' (hs.trans hs'.symm)]
  | frel s op => obtain ⟨v, rfl, h⟩ := h; obtain ⟨w, rfl, h'⟩ := h'; rw [isBool_unique h h']

end Verif.Lemmas
