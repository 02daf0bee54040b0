import Verif.Props.OpInstr
import Verif.Props.Sample
/-
C63: the float operations that round — `fNN.add/sub/mul/div/sqrt/ceil/floor/trunc/nearest`, `fNN.convert_iMM_s/u`,
`f32.demote_f64`, `f64.promote_f32` — deliver the IEEE 754 result (round to nearest, ties to even; `Spec.Ieee`).
-/
namespace Verif.Props
open Verif.Model Verif.Spec Verif.Lemmas

variable {H : FloatHost} {P : Prog} {len : Nat} {s : VM}

/-- `fNN.add/sub/mul/div`: the instruction always completes, and what it writes is the correctly rounded result. -/
theorem float_arith_instr (sz : Sz) (op : FArith) {dst : Dst} {x y : Opnd sz.flt} {a b : sz.flt.Carrier}
    (ha : s.read sz.flt x = .ok a) (hb : s.read sz.flt y = .ok b) (hd : DstOk s sz.flt dst) :
    ∃ v s', step H P len s (.op2 (.arith sz op) dst x y) = .ok (.cont s') ∧ Wrote s s' sz.flt dst v ∧
      Arith sz.fmt op (sz.flt.num a) (sz.flt.num b) (sz.flt.num v) := by
  have h := arith_correct (sz_ok sz) (host_nan sz (H.arith_nan sz op a b)) op (flt_num_lt sz a) (flt_num_lt sz b)
  obtain ⟨s', h1, h2⟩ := op2_instr (H := H) (P := P) (len := len) (op := .arith sz op) ha hb hd rfl
  exact ⟨_, s', h1, h2, (ofNatF_num sz (arith_lt h)).symm ▸ h⟩

/-- `fNN.sqrt/ceil/floor/trunc/nearest`. -/
theorem float_round_instr (sz : Sz) (op : FRound) {dst : Dst} {x : Opnd sz.flt} {a : sz.flt.Carrier}
    (ha : s.read sz.flt x = .ok a) (hd : DstOk s sz.flt dst) :
    ∃ v s', step H P len s (.op1 (.round sz op) dst x) = .ok (.cont s') ∧ Wrote s s' sz.flt dst v ∧
      Rounded sz.fmt op (sz.flt.num a) (sz.flt.num v) := by
  have h := rounded_correct (sz_ok sz) (host_nan sz (H.round_nan sz op a)) op (flt_num_lt sz a)
  obtain ⟨s', h1, h2⟩ := op1_instr (H := H) (P := P) (len := len) (op := .round sz op) ha hd rfl
  exact ⟨_, s', h1, h2, (ofNatF_num sz (rounded_lt (flt_num_lt sz a) h)).symm ▸ h⟩

/-- `fNN.convert_iMM_s/u`: the signed or unsigned reading of the integer, correctly rounded; 0 becomes +0. -/
theorem convert_instr (d sz : Sz) (sg : Bool) {dst : Dst} {x : Opnd sz.int} {a : sz.int.Carrier}
    (ha : s.read sz.int x = .ok a) (hd : DstOk s d.flt dst) :
    ∃ v s', step H P len s (.op1 (.convert d sz sg) dst x) = .ok (.cont s') ∧ Wrote s s' d.flt dst v ∧
      FromInt d.fmt (if sg then signed sz.bits (sz.int.num a) else sz.int.num a) (d.flt.num v) := by
  have h := fromInt_correct (sz_ok d) (sz.value sg a)
  obtain ⟨s', h1, h2⟩ := op1_instr (H := H) (P := P) (len := len) (op := .convert d sz sg) ha hd rfl
  refine ⟨_, s', h1, h2, ?_⟩
  rw [← value_eq]
  exact (ofNatF_num d (fromInt_lt h)).symm ▸ h

/-- `f32.demote_f64`. -/
theorem demote_instr {dst : Dst} {x : Opnd .f64} {a : BitVec 64} (ha : s.read .f64 x = .ok a) (hd : DstOk s .f32 dst) :
    ∃ (v : BitVec 32) (s' : VM), step H P len s (.op1 .demote dst x) = .ok (.cont s') ∧ Wrote s s' .f32 dst v ∧
      FromFloat f64 f32 a.toNat v.toNat := by
  have h : FromFloat f64 f32 a.toNat (fFromFloat f64 f32 (H.demote a).toNat a.toNat) :=
    fromFloat_correct (f := f64) f32_ok (host_nan .s32 (H.demote_nan a)) a.isLt
  have e : (BitVec.ofNat 32 (fFromFloat f64 f32 (H.demote a).toNat a.toNat)).toNat = _ := ofNatF_num .s32 (fromFloat_lt h)
  obtain ⟨s', h1, h2⟩ := op1_instr (H := H) (P := P) (len := len) (op := .demote) ha hd rfl
  exact ⟨_, s', h1, h2, e.symm ▸ h⟩

/-- `f64.promote_f32`: NaNs stay NaNs, infinities keep their sign, and every finite value, zeros' signs included, is
unchanged: no rounding.  (A value is counted in units of the smallest subnormal, 2^-149 and 2^-1074.) -/
theorem promote_instr {dst : Dst} {x : Opnd .f32} {a : BitVec 32} (ha : s.read .f32 x = .ok a) (hd : DstOk s .f64 dst) :
    ∃ (v : BitVec 64) (s' : VM), step H P len s (.op1 .promote dst x) = .ok (.cont s') ∧ Wrote s s' .f64 dst v ∧
      FromFloat f32 f64 a.toNat v.toNat ∧
      (match f32.val a.toNat with
        | .nan => f64.val v.toNat = .nan
        | .inf n => f64.val v.toNat = .inf n
        | .fin z => f64.val v.toNat = .fin (z * 2 ^ 925) ∧ f64.sign v.toNat = f32.sign a.toNat) := by
  have h : FromFloat f32 f64 a.toNat (fFromFloat f32 f64 (H.promote a).toNat a.toNat) :=
    fromFloat_correct (f := f32) f64_ok (host_nan .s64 (H.promote_nan a)) a.isLt
  have e : (BitVec.ofNat 64 (fFromFloat f32 f64 (H.promote a).toNat a.toNat)).toNat = _ := ofNatF_num .s64 (fromFloat_lt h)
  obtain ⟨s', h1, h2⟩ := op1_instr (H := H) (P := P) (len := len) (op := .promote) ha hd rfl
  have k := promote_exact (nan := (H.promote a).toNat) a.isLt (H.promote_nan a)
  rw [← e] at k
  exact ⟨_, s', h1, h2, e.symm ▸ h, k⟩

/-- What IEEE 754 says leaves no freedom but the choice of a NaN: two results of the same operation on the same operands are the same
bit pattern, or both NaNs. -/
theorem float_result_unique (sz : Sz) {r r' : Nat} :
    (∀ op a b, Arith sz.fmt op a b r → Arith sz.fmt op a b r' → r = r' ∨ (sz.fmt.IsNaN r ∧ sz.fmt.IsNaN r')) ∧
    (∀ op a, Rounded sz.fmt op a r → Rounded sz.fmt op a r' → r = r' ∨ (sz.fmt.IsNaN r ∧ sz.fmt.IsNaN r')) ∧
    (∀ n, FromInt sz.fmt n r → FromInt sz.fmt n r' → r = r') ∧
    (∀ (sz' : Sz) a, FromFloat sz'.fmt sz.fmt a r → FromFloat sz'.fmt sz.fmt a r' → r = r' ∨ (sz.fmt.IsNaN r ∧ sz.fmt.IsNaN r')) :=
  ⟨fun _ _ _ => arith_unique (sz_ok sz), fun _ _ => rounded_unique (sz_ok sz), fun _ => fromInt_unique (sz_ok sz),
    fun _ _ => fromFloat_unique (sz_ok sz)⟩

/-! ### Consequences a user relies on -/

/-- integers of at most 24 (f32) / 53 (f64) bits convert exactly; in particular `f64.convert_i32_s/u` is always exact -/
theorem convert_exact (sz : Sz) {n : Int} (h : n.natAbs ≤ 2 ^ (sz.fmt.m + 1)) {r : Nat} (hr : FromInt sz.fmt n r) :
    sz.fmt.val r = .fin (n * 2 ^ sz.fmt.fracBits) := by
  rw [fromInt_unique (sz_ok sz) hr (fromInt_correct (sz_ok sz) n)]
  exact fFromInt_exact (sz_ok sz) (by cases sz <;> decide) h

/-- addition and multiplication are commutative, up to the choice of a NaN -/
theorem float_commutative (sz : Sz) {op : FArith} (h : op = .add ∨ op = .mul) {a b r r' : Nat} (h1 : Arith sz.fmt op a b r)
    (h2 : Arith sz.fmt op b a r') : r = r' ∨ (sz.fmt.IsNaN r ∧ sz.fmt.IsNaN r') :=
  arith_unique (sz_ok sz) h1 (arith_comm h h2)

/-! ### Concrete cases -/

section Cases
open Verif.Props.Sample (host)

/-- 0.1 + 0.2 in f64 is 0.30000000000000004 -/
example : Op2.eval host (.arith .s64 .add) (0x3FB999999999999A : BitVec 64) (0x3FC999999999999A : BitVec 64) =
    .ok (0x3FD3333333333334 : BitVec 64) := by decide +kernel
/-- 1 / 3 in f32 -/
example : Op2.eval host (.arith .s32 .div) (0x3F800000 : BitVec 32) (0x40400000 : BitVec 32) = .ok (0x3EAAAAAB : BitVec 32) := by
  decide +kernel
/-- overflow and underflow -/
example : Op2.eval host (.arith .s32 .mul) (0x7F7FFFFF : BitVec 32) (0x40000000 : BitVec 32) = .ok (0x7F800000 : BitVec 32) := by
  decide +kernel
example : Op2.eval host (.arith .s32 .mul) (0x00000001 : BitVec 32) (0xBF000000 : BitVec 32) = .ok (0x80000000 : BitVec 32) := by
  decide +kernel
/-- x - x is +0, -0 + -0 is -0 -/
example : Op2.eval host (.arith .s32 .sub) (0x3F800000 : BitVec 32) (0x3F800000 : BitVec 32) = .ok (0 : BitVec 32) := by decide +kernel
example : Op2.eval host (.arith .s32 .add) (0x80000000 : BitVec 32) (0x80000000 : BitVec 32) = .ok (0x80000000 : BitVec 32) := by
  decide +kernel
/-- sqrt 2 -/
example : Op1.eval host (.round .s32 .sqrt) (0x40000000 : BitVec 32) = .ok (0x3FB504F3 : BitVec 32) := by decide +kernel
/-- nearest 2.5 = 2, ceil -0.5 = -0 -/
example : Op1.eval host (.round .s32 .nearest) (0x40200000 : BitVec 32) = .ok (0x40000000 : BitVec 32) := by decide +kernel
example : Op1.eval host (.round .s32 .ceil) (0xBF000000 : BitVec 32) = .ok (0x80000000 : BitVec 32) := by decide +kernel
/-- 2^24 + 1 is a tie in f32 and goes to 2^24; 2^32 - 1 as a signed integer is -1 -/
example : Op1.eval host (.convert .s32 .s32 true) (16777217 : BitVec 32) = .ok (0x4B800000 : BitVec 32) := by decide +kernel
example : Op1.eval host (.convert .s64 .s32 true) (0xFFFFFFFF : BitVec 32) = .ok (0xBFF0000000000000 : BitVec 64) := by decide +kernel
example : Op1.eval host (.convert .s64 .s32 false) (0xFFFFFFFF : BitVec 32) = .ok (0x41EFFFFFFFE00000 : BitVec 64) := by decide +kernel
/-- the largest f64 demotes to infinity; the smallest f32 subnormal promotes exactly -/
example : Op1.eval host .demote (0x7FEFFFFFFFFFFFFF : BitVec 64) = .ok (0x7F800000 : BitVec 32) := by decide +kernel
example : Op1.eval host .promote (0x00000001 : BitVec 32) = .ok (0x36A0000000000000 : BitVec 64) := by decide +kernel

end Cases

end Verif.Props
