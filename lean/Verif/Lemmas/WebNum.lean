import Verif.Spec.WebAssembly
import Verif.Props.Num
import Verif.Props.Float
import Verif.Lemmas.IeeeOps
/-
The interpreter's numeric operators against the relations of `Spec.WebAssembly`.
-/
namespace Verif.Lemmas
open Verif.Model Verif.Spec Verif.Props

/-- what an outcome is to WebAssembly: a value, or a trap; never undefined -/
def Agrees {α : Type} (x : Res α) (R : Option α → Prop) : Prop :=
  match x with
  | .ok v => R (some v)
  | .trap _ | .panic => R none
  | .ub => False

theorem ofNatF_num (s : Sz) {n : Nat} (h : n < 2 ^ s.fmt.width) : s.flt.num (s.ofNatF n) = n := by
  cases s
  · exact Nat.mod_eq_of_lt h
  · exact Nat.mod_eq_of_lt h

theorem flt_num_lt (s : Sz) (a : s.flt.Carrier) : s.flt.num a < 2 ^ s.fmt.width := by
  cases s
  · exact (show BitVec 32 from a).isLt
  · exact (show BitVec 64 from a).isLt

theorem isWasm (s : Sz) : IsWasmFmt s.fmt := by
  cases s
  · exact .inl rfl
  · exact .inr rfl

theorem unsigned_ofInt (w : Nat) (z : Int) : (BitVec.ofInt w z).toNat = unsigned w z := by
  simp [unsigned, BitVec.toNat_ofInt]

theorem ofInt_num (s : Sz) (z : Int) : s.int.num (s.ofInt z) = unsigned s.bits z := by
  cases s
  · exact unsigned_ofInt 32 z
  · exact unsigned_ofInt 64 z

theorem trunc_fmt (op : TruncOp) : op.ssz.fmt = op.shape.2.2 := by cases op <;> rfl

theorem sz_ok (s : Sz) : FmtOk s.fmt := by
  cases s
  · exact f32_ok
  · exact f64_ok

theorem ofNatF_val (s : Sz) (v : s.flt.Carrier) : s.ofNatF (s.flt.num v) = v := by
  cases s
  · exact BitVec.eq_of_toNat_eq (BitVec.toNat_ofNat _ _ ▸ Nat.mod_eq_of_lt v.isLt)
  · exact BitVec.eq_of_toNat_eq (BitVec.toNat_ofNat _ _ ▸ Nat.mod_eq_of_lt v.isLt)

theorem host_nan (s : Sz) {v : s.flt.Carrier} (h : s.fmt.val (s.flt.num v) = .nan) : s.fmt.IsNaN (s.flt.num v) := ⟨flt_num_lt s v, h⟩

theorem value_eq (s : Sz) (sg : Bool) (a : s.int.Carrier) :
    s.value sg a = if sg then signed s.bits (s.int.num a) else (s.int.num a : Int) := by
  cases s
  · cases sg
    · rfl
    · exact (signed_toNat (w := 32) (by decide) a).symm
  · cases sg
    · rfl
    · exact (signed_toNat (w := 64) (by decide) a).symm

theorem nanIs (s : Sz) {r : Nat} {nan : s.flt.Carrier} (hr : r < 2 ^ s.fmt.width) (h : s.fmt.val r = .nan → r = s.flt.num nan) :
    NaNIs s (s.ofNatF r) nan := by
  intro e
  rw [ofNatF_num s hr] at e
  rw [h e, ofNatF_val]

/-- one operand -/
theorem unary_sound (H : FloatHost) (op : Op1) (a : op.src.Carrier) :
    Agrees (op.eval H a) (Unary H op a) ∨
      ∃ t, op = .trunc t ∧ ∃ (b : t.ssz.flt.Carrier) (x : Int), HEq b a ∧ (t = .i32_f32_s ∨ t = .i32_f32_u) ∧
        t.shape.2.2.val (t.ssz.flt.num b) = .fin x ∧ t.shape.2.2.intPart x = t.hi + 1 := by
  cases op with
  | mov c => exact .inl rfl
  | int s op =>
    cases s
    · exact .inl ⟨_, rfl, int_unop_correct (w := 32) op a⟩
    · exact .inl ⟨_, rfl, int_unop_correct (w := 64) op a⟩
  | eqz s =>
    refine .inl ?_
    cases s
    · refine ⟨_, rfl, ?_⟩
      show BitVec.toNat (iEqz (w := 32) a) = if BitVec.toNat (w := 32) a = 0 then 1 else 0
      rw [int_eqz_correct]
      by_cases h : BitVec.toNat (w := 32) a = 0 <;> simp only [h, decide_true, decide_false, if_true, if_false] <;> rfl
    · refine ⟨_, rfl, ?_⟩
      show BitVec.toNat (iEqz (w := 64) a) = if BitVec.toNat (w := 64) a = 0 then 1 else 0
      rw [int_eqz_correct]
      by_cases h : BitVec.toNat (w := 64) a = 0 <;> simp only [h, decide_true, decide_false, if_true, if_false] <;> rfl
  | abs s =>
    obtain ⟨⟨h1, h2, h3⟩, _, _⟩ := float_sign_ops_correct s.fmt _ _ (flt_num_lt s a) (flt_num_lt s a)
    refine .inl ⟨_, rfl, ?_⟩
    rw [ofNatF_num s h3]
    exact ⟨h1, h2⟩
  | neg s =>
    obtain ⟨_, ⟨h1, h2, h3⟩, _⟩ := float_sign_ops_correct s.fmt _ _ (flt_num_lt s a) (flt_num_lt s a)
    refine .inl ⟨_, rfl, ?_⟩
    rw [ofNatF_num s h3]
    exact ⟨h1, h2⟩
  | round s op =>
    have h := rounded_correct (sz_ok s) (host_nan s (H.round_nan s op a)) op (flt_num_lt s a)
    have hr := rounded_lt (flt_num_lt s a) h
    refine .inl ⟨_, rfl, ?_, nanIs s hr (rounded_nan_choice (sz_ok s))⟩
    rw [ofNatF_num s hr]
    exact h
  | extS =>
    refine .inl ⟨_, rfl, ?_⟩
    have := (extend_wrap_correct a 0).1
    show signed 64 (BitVec.toNat _) = signed 32 (BitVec.toNat _)
    rw [signed_toNat (by decide), signed_toNat (by decide)]
    exact this
  | extU => exact .inl ⟨_, rfl, (extend_wrap_correct a 0).2.1⟩
  | wrap => exact .inl ⟨_, rfl, (extend_wrap_correct 0 a).2.2.1⟩
  | trunc t =>
    by_cases hodd : (t = .i32_f32_s ∨ t = .i32_f32_u) ∧
        ∃ x, t.shape.2.2.val (t.ssz.flt.num a) = .fin x ∧ t.shape.2.2.intPart x = t.hi + 1
    · obtain ⟨h1, x, h2, h3⟩ := hodd
      exact .inr ⟨t, rfl, a, x, HEq.rfl, h1, h2, h3⟩
    · have := trunc_trap_partial t (t.ssz.flt.num a) fun h x hx hh => hodd ⟨h, x, hx, hh⟩
      refine .inl ?_
      cases hr : t.result (t.ssz.flt.num a) with
      | some z =>
        rw [hr] at this
        have e : Op1.eval H (.trunc t) a = .ok (t.dsz.ofInt z) := by
          show (truncTrap t (t.ssz.flt.num a) >>= fun z => pure (t.dsz.ofInt z)) = _
          rw [this]; rfl
        simp only [e, Agrees, Unary, hr]
        exact ⟨_, rfl, ofInt_num _ _⟩
      | none =>
        rw [hr] at this
        obtain ⟨err, he⟩ := this
        have e : Op1.eval H (.trunc t) a = .trap err := by
          show (truncTrap t (t.ssz.flt.num a) >>= fun z => pure (t.dsz.ofInt z)) = _
          rw [he]; rfl
        simp only [e, Agrees, Unary, hr]
  | truncSat t =>
    refine .inl ⟨_, rfl, ?_⟩
    rw [ofInt_num, trunc_sat_correct]
  | convert d s sg =>
    have h := fromInt_correct (sz_ok d) (s.value sg a)
    refine .inl ⟨_, rfl, ?_⟩
    rw [ofNatF_num d (fromInt_lt h), ← value_eq]
    exact h
  | demote =>
    have h := fromFloat_correct (f := f64) f32_ok (host_nan .s32 (H.demote_nan a)) (flt_num_lt .s64 a)
    have hr := fromFloat_lt h
    refine .inl ⟨_, rfl, ?_, nanIs .s32 hr (fromFloat_nan_choice f32_ok)⟩
    exact (ofNatF_num .s32 hr).symm ▸ h
  | promote =>
    have h := fromFloat_correct (f := f32) f64_ok (host_nan .s64 (H.promote_nan a)) (flt_num_lt .s32 a)
    have hr := fromFloat_lt h
    refine .inl ⟨_, rfl, ?_, nanIs .s64 hr (fromFloat_nan_choice f64_ok)⟩
    exact (ofNatF_num .s64 hr).symm ▸ h
  | reinterpIF s =>
    cases s
    · exact .inl ⟨_, rfl, congrArg BitVec.toNat (reinterpret_correct a 0).1⟩
    · exact .inl ⟨_, rfl, congrArg BitVec.toNat (reinterpret_correct 0 a).2.2.1⟩
  | reinterpFI s =>
    cases s
    · exact .inl ⟨_, rfl, congrArg BitVec.toNat (reinterpret_correct a 0).2.1⟩
    · exact .inl ⟨_, rfl, congrArg BitVec.toNat (reinterpret_correct 0 a).2.2.2⟩

theorem isBool_boolI32 (c : Bool) : IsBool (c = true) (boolI32 c) := by
  cases c <;> exact ⟨by simp [boolI32], by simp [boolI32]⟩

/-- two operands -/
theorem binary_sound (H : FloatHost) (op : Op2) (a b : op.src.Carrier) : Agrees (op.eval H a b) (Binary H op a b) := by
  cases op with
  | int s op =>
    cases s
    · have := int_binop_correct (w := 32) (.inl rfl) op a b
      show Agrees (iBin (w := 32) op a b) _
      simp only [Agrees, Binary]
      simp only [Sz.bits, Cls.num]
      cases hr : ibinop 32 op (BitVec.toNat (w := 32) a) (BitVec.toNat (w := 32) b) with
      | some n =>
        rw [hr] at this
        obtain ⟨v, hv, hn⟩ := this
        rw [hv]
        exact ⟨v, rfl, hn⟩
      | none => rw [hr] at this; simp only at this; rw [this]; trivial
    · have := int_binop_correct (w := 64) (.inr rfl) op a b
      show Agrees (iBin (w := 64) op a b) _
      simp only [Agrees, Binary]
      simp only [Sz.bits, Cls.num]
      cases hr : ibinop 64 op (BitVec.toNat (w := 64) a) (BitVec.toNat (w := 64) b) with
      | some n =>
        rw [hr] at this
        obtain ⟨v, hv, hn⟩ := this
        rw [hv]
        exact ⟨v, rfl, hn⟩
      | none => rw [hr] at this; simp only at this; rw [this]; trivial
  | rel s op =>
    cases s
    · exact ⟨_, rfl, by rw [int_relop_correct (w := 32) (.inl rfl)]; exact isBool_boolI32 _⟩
    · exact ⟨_, rfl, by rw [int_relop_correct (w := 64) (.inr rfl)]; exact isBool_boolI32 _⟩
  | arith s op =>
    have h := arith_correct (sz_ok s) (host_nan s (H.arith_nan s op a b)) op (flt_num_lt s a) (flt_num_lt s b)
    have hr := arith_lt h
    refine ⟨_, rfl, ?_, nanIs s hr (arith_nan_choice (sz_ok s))⟩
    rw [ofNatF_num s hr]
    exact h
  | min s =>
    have h := float_min_correct s.fmt (isWasm s) _ _ (flt_num_lt s a) (flt_num_lt s b)
    have hlt : fMin s.fmt (s.flt.num a) (s.flt.num b) < 2 ^ s.fmt.width := by
      unfold IsFMin at h
      split at h
      · exact h.2.2
      · rcases h.1 with h | h <;> rw [h] <;> exact flt_num_lt s _
    refine ⟨_, rfl, by rw [ofNatF_num s hlt]; exact h, ?_⟩
    unfold PosNaN
    rw [ofNatF_num s hlt]
    intro hn
    have : (fIsNan s.fmt (s.flt.num a) || fIsNan s.fmt (s.flt.num b)) = true := by
      unfold IsFMin at h
      split at h
      · rename_i hx
        rcases hx with hx | hx <;> simp [(isNan_iff _ _).mpr hx]
      · rename_i hx
        exfalso
        rcases h.1 with h | h <;> rw [h] at hn
        · exact hx (.inl hn)
        · exact hx (.inr hn)
    unfold fMin
    rw [if_pos this]
    cases s <;> decide +kernel
  | max s =>
    have h := float_max_correct s.fmt (isWasm s) _ _ (flt_num_lt s a) (flt_num_lt s b)
    have hlt : fMax s.fmt (s.flt.num a) (s.flt.num b) < 2 ^ s.fmt.width := by
      unfold IsFMax at h
      split at h
      · exact h.2.2
      · rcases h.1 with h | h <;> rw [h] <;> exact flt_num_lt s _
    refine ⟨_, rfl, by rw [ofNatF_num s hlt]; exact h, ?_⟩
    unfold PosNaN
    rw [ofNatF_num s hlt]
    intro hn
    have : (fIsNan s.fmt (s.flt.num a) || fIsNan s.fmt (s.flt.num b)) = true := by
      unfold IsFMax at h
      split at h
      · rename_i hx
        rcases hx with hx | hx <;> simp [(isNan_iff _ _).mpr hx]
      · rename_i hx
        exfalso
        rcases h.1 with h | h <;> rw [h] at hn
        · exact hx (.inl hn)
        · exact hx (.inr hn)
    unfold fMax
    rw [if_pos this]
    cases s <;> decide +kernel
  | copysign s =>
    obtain ⟨_, _, h1, h2, h3⟩ := float_sign_ops_correct s.fmt _ _ (flt_num_lt s a) (flt_num_lt s b)
    exact ⟨_, rfl, by rw [ofNatF_num s h3]; exact ⟨h1, h2⟩⟩
  | frel s op =>
    obtain ⟨h1, h2⟩ := float_relop_correct s.fmt (isWasm s) op _ _ (flt_num_lt s a) (flt_num_lt s b)
    exact ⟨_, rfl, fun h => by rw [h1 h]; rfl, fun h => by rw [h2 h]; rfl⟩

end Verif.Lemmas
