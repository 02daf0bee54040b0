import Verif.Model.Mem
import Verif.Lemmas.Num
/- Helper lemmas for Props/Mem. -/
namespace Verif.Lemmas
open Verif Verif.Spec Verif.Model

theorem overwrite_length {d bs : List Byte} {pos : Nat} (h : pos + bs.length ≤ d.length) :
    (overwrite d pos bs).length = d.length := by
  simp [overwrite]; omega

theorem overwrite_getElem? {d bs : List Byte} {pos : Nat} (h : pos + bs.length ≤ d.length) (i : Nat) :
    (overwrite d pos bs)[i]? = if pos ≤ i ∧ i < pos + bs.length then bs[i - pos]? else d[i]? := by
  have hl : (d.take pos).length = pos := by simp; omega
  unfold overwrite
  by_cases h1 : i < pos
  · rw [if_neg (by omega), List.append_assoc, List.getElem?_append_left (by omega)]
    simp [List.getElem?_take, h1]
  · by_cases h2 : i < pos + bs.length
    · rw [if_pos (by omega), List.append_assoc, List.getElem?_append_right (by omega), hl,
        List.getElem?_append_left (by omega)]
    · rw [if_neg (by omega), List.getElem?_append_right (by simp; omega)]
      simp only [List.length_append, hl, List.getElem?_drop]
      congr 1; omega

theorem toLE_length (n v : Nat) : (toLE n v).length = n := by
  induction n generalizing v with
  | zero => rfl
  | succ n ih => simp [toLE, ih]

theorem toLE_getElem? (n v k : Nat) (hk : k < n) : (toLE n v)[k]? = some (BitVec.ofNat 8 (leByte v k)) := by
  induction n generalizing v k with
  | zero => omega
  | succ n ih =>
    cases k with
    | zero =>
      simp only [toLE, leByte, List.getElem?_cons_zero, Nat.pow_zero, Nat.div_one]
      congr 1; apply BitVec.eq_of_toNat_eq; simp only [BitVec.toNat_ofNat]; omega
    | succ k =>
      simp only [toLE, List.getElem?_cons_succ]
      rw [ih _ _ (by omega)]
      simp only [leByte]
      rw [Nat.div_div_eq_div_mul, Nat.pow_succ']

theorem fromLE_toLE (n v : Nat) : fromLE (toLE n v) = v % 256 ^ n := by
  induction n generalizing v with
  | zero => simp [toLE, fromLE, Nat.mod_one]
  | succ n ih =>
    simp only [toLE, fromLE, ih, BitVec.toNat_ofNat]
    rw [show 256 ^ (n + 1) = 256 * 256 ^ n from Nat.pow_succ', Nat.mod_mul]

theorem fromLE_lt (bs : List Byte) : fromLE bs < 256 ^ bs.length := by
  induction bs with
  | nil => simp [fromLE]
  | cons b bs ih =>
    simp only [fromLE, List.length_cons, Nat.pow_succ']
    have := b.isLt
    omega

theorem toLE_fromLE (bs : List Byte) : toLE bs.length (fromLE bs) = bs := by
  induction bs with
  | nil => rfl
  | cons b bs ih =>
    simp only [fromLE, List.length_cons, toLE]
    have hb := b.isLt
    congr 1
    · apply BitVec.eq_of_toNat_eq
      simp only [BitVec.toNat_ofNat]; omega
    · rw [show (b.toNat + 256 * fromLE bs) / 256 = fromLE bs by omega, ih]

theorem fromLE_append (bs : List Byte) (b : Byte) :
    fromLE (bs ++ [b]) = fromLE bs + b.toNat * 256 ^ bs.length := by
  induction bs with
  | nil => simp [fromLE]
  | cons x xs ih =>
    simp only [List.cons_append, fromLE, ih, List.length_cons, Nat.pow_succ']
    rw [Nat.mul_add, ← Nat.mul_assoc, Nat.mul_comm 256 b.toNat]
    simp [Nat.mul_assoc, Nat.add_assoc]

/-- byte `i` of the memory, as a number -/
theorem fromLE_read (d : List Byte) (ea n : Nat) (h : ea + n ≤ d.length) :
    fromLE ((d.drop ea).take n) = leValue (fun i => (d.getD i 0).toNat) ea n := by
  induction n with
  | zero => simp [fromLE, leValue]
  | succ n ih =>
    rw [leValue, ← ih (by omega)]
    have hlt : n < (d.drop ea).length := by simp; omega
    rw [List.take_succ_eq_append_getElem hlt, fromLE_append]
    have hl : ((d.drop ea).take n).length = n := by simp; omega
    rw [hl]
    congr 3
    simp [List.getD, List.getElem?_eq_getElem (show ea + n < d.length by omega)]

theorem effAddr_eq {p : BitVec 32} {off : BitVec 64} (h : p.toNat + off.toNat < 2 ^ 32) :
    effAddr p off = p.toNat + off.toNat := by
  simp only [effAddr, BitVec.toNat_add, BitVec.toNat_setWidth]
  rw [Nat.mod_eq_of_lt (a := off.toNat) (by omega), Nat.mod_eq_of_lt h]

theorem loadWidth (op : LoadOp) : op.width = op.bytes := by cases op <;> rfl
theorem storeWidth (op : StoreOp) : op.width = op.bytes := by cases op <;> rfl

end Verif.Lemmas
