import Verif.Model.Errno
/- C41: WASI error numbers. -/
namespace Verif.Props
open Verif.Spec Verif.Model

/-- C41. Every number of the WASI table is converted to the error the ABI gives it and back to the same number. -/
theorem errno_round_trip (n : BitVec 16) (e : WasiErr) (h : wasiErrnos[n.toNat]? = some e) :
    fromErrno n = e ∧ (toErrno e).toNat = n.toNat := by
  have hlt : n.toNat < 77 := by
    rcases Nat.lt_or_ge n.toNat 77 with hl | hl
    · exact hl
    · rw [List.getElem?_eq_none (by simpa [wasiErrnos] using hl)] at h; cases h
  have key : ∀ k : Fin 77, wasiErrnos[k.val]? = some (fromErrno (BitVec.ofNat 16 k.val)) ∧
        (toErrno (fromErrno (BitVec.ofNat 16 k.val))).toNat = k.val := by
    decide +kernel
  have h1 := key ⟨n.toNat, hlt⟩
  simp only [BitVec.ofNat_toNat, BitVec.setWidth_eq] at h1
  rw [h1.1] at h; cases h; exact ⟨rfl, h1.2⟩

/-- C41. Every error except a process-exit request is in the table, at the position `to_errno` reports. -/
theorem errno_of_error (e : WasiErr) (h : ∀ c, e ≠ .processExit c) :
    wasiErrnos[(toErrno e).toNat]? = some e ∧ fromErrno ((toErrno e).setWidth 16) = e := by
  cases e with
  | processExit c => exact absurd rfl (h c)
  | _ => exact ⟨rfl, rfl⟩

/-- C41. Every number outside the table is reported as an I/O error. -/
theorem errno_unknown_is_io (n : BitVec 16) (h : wasiErrnos[n.toNat]? = none) : fromErrno n = .io := by
  have hge : 77 ≤ n.toNat := by
    have := List.getElem?_eq_none_iff.mp h
    simpa [wasiErrnos] using this
  unfold fromErrno
  split <;> first | rfl | omega

example : wasiErrnos[(44#16).toNat]? = some .noEnt := rfl
example : wasiErrnos[(77#16).toNat]? = none := rfl

end Verif.Props
