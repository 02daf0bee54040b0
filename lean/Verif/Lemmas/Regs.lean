import Verif.Model.Regs
/- Helper lemmas about the register file and the allocator. -/
namespace Verif.Lemmas
open Verif.Model

theorem RegFile.ext' {r s : RegFile} (h1 : ∀ c, r.regs c = s.regs c) (h2 : r.frames = s.frames)
    (h3 : r.cached = s.cached) : r = s := by
  cases r; cases s; simp only at *; subst h2 h3; congr; funext c; exact h1 c

theorem get_set (r r' : RegFile) (c d : Cls) (i j : Nat) (v : c.Carrier) (h : r.set c i v = .ok r') :
    r'.get d j = if hcd : d = c then (if j = i then .ok (hcd ▸ v) else r.get d j) else r.get d j := by
  unfold RegFile.set at h
  split at h
  · rename_i hlt
    injection h with h; subst h
    by_cases hcd : d = c
    · subst hcd
      simp only [RegFile.get, upd_same, dif_pos]
      by_cases hj : j = i
      · subst hj; simp [List.getElem?_set, hlt]
      · rw [if_neg hj, List.getElem?_set, if_neg (by omega)]
    · simp [RegFile.get, hcd]
  · cases h

theorem set_ok_of_get {r : RegFile} {c : Cls} {i : Nat} {w : c.Carrier} (h : r.get c i = .ok w) (v : c.Carrier) :
    ∃ r', r.set c i v = .ok r' := by
  unfold RegFile.get at h
  split at h
  · rename_i x hx
    have := (List.getElem?_eq_some_iff.1 hx).1
    exact ⟨_, by unfold RegFile.set; rw [if_pos this]⟩
  · cases h

end Verif.Lemmas
