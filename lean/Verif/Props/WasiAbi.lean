import Verif.Spec.WasiAbi
import Verif.Model.Module
/- C45: the imports of `wasi_snapshot_preview1`. -/
namespace Verif.Props
open Verif.Spec Verif.Model

/-- C45. Every function of the interface is known under its name, with the type of its definition, and nothing else is known. -/
theorem wasi_imports_match (name : String) :
    (parseWasi name).map WasiFn.type = ((preview1.find? fun p => p.1 == name).map fun p => p.2.lower) := by
  have key : ∀ (xs : List (String × WasiFn)) (ys : List (String × WitFn)), xs.all (fun x => ys.any fun y => x.1 == y.1) = true →
      ys.all (fun y => xs.any fun x => x.1 == y.1) = true →
      xs.all (fun x => ys.all fun y => !(x.1 == y.1) || decide (x.2.type = y.2.lower)) = true →
      ((xs.find? fun p => p.1 == name).map (·.2)).map WasiFn.type = ((ys.find? fun p => p.1 == name).map fun p => p.2.lower) := by
    intro xs ys h1 h2 h3
    cases hx : xs.find? fun p => p.1 == name with
    | none =>
      cases hy : ys.find? fun p => p.1 == name with
      | none => rfl
      | some y =>
        have hn : y.1 = name := by simpa using List.find?_some hy
        have := List.all_eq_true.mp h2 y (List.mem_of_find?_eq_some hy)
        obtain ⟨x, hxm, hxy⟩ := List.any_eq_true.mp this
        have := List.find?_eq_none.mp hx x hxm
        simp only [beq_iff_eq] at hxy this
        exact absurd (hxy.trans hn) this
    | some x =>
      have hn : x.1 = name := by simpa using List.find?_some hx
      have hxm := List.mem_of_find?_eq_some hx
      cases hy : ys.find? fun p => p.1 == name with
      | none =>
        obtain ⟨y, hym, hxy⟩ := List.any_eq_true.mp (List.all_eq_true.mp h1 x hxm)
        have := List.find?_eq_none.mp hy y hym
        simp only [beq_iff_eq] at hxy this
        exact absurd (hxy.symm.trans hn) this
      | some y =>
        have hny : y.1 = name := by simpa using List.find?_some hy
        have := List.all_eq_true.mp (List.all_eq_true.mp h3 x hxm) y (List.mem_of_find?_eq_some hy)
        simp only [hn, hny, BEq.rfl, Bool.not_true, Bool.false_or, decide_eq_true_eq] at this
        simp [this]
  exact key wasiMap preview1 (by decide +kernel) (by decide +kernel) (by decide +kernel)

/-- two different names are two different functions -/
theorem wasi_names_distinct {n n' : String} {w : WasiFn} (h : parseWasi n = some w) (h' : parseWasi n' = some w) : n = n' := by
  have key : ∀ (xs : List (String × WasiFn)), xs.all (fun x => xs.all fun y => !decide (x.2 = y.2) || x.1 == y.1) = true →
      (xs.find? fun p => p.1 == n).map (·.2) = some w → (xs.find? fun p => p.1 == n').map (·.2) = some w → n = n' := by
    intro xs hall h h'
    rw [Option.map_eq_some_iff] at h h'
    obtain ⟨x, hx, rfl⟩ := h
    obtain ⟨y, hy, hxy⟩ := h'
    have := List.all_eq_true.mp (List.all_eq_true.mp hall x (List.mem_of_find?_eq_some hx)) y (List.mem_of_find?_eq_some hy)
    have hn : x.1 = n := by simpa using List.find?_some hx
    have hn' : y.1 = n' := by simpa using List.find?_some hy
    rw [← hn, ← hn']
    simpa [hxy] using this
  exact key wasiMap (by decide +kernel) h h'

/-- C45. The interpreter's own dispatch agrees with the type it gives the import: it demands exactly as many arguments, of
exactly these types, for every function but `proc_raise`, for which there is no case. -/
theorem wasi_dispatch_matches_partial (w : WasiFn) : w.wants = some w.type.params ∨ w = .procRaise := by
  cases w <;> first | exact .inl rfl | exact .inr rfl

/-- Finding (C45): `proc_raise` is accepted as an import and cannot be called. -/
theorem proc_raise_violated : parseWasi "proc_raise" = some .procRaise ∧ WasiFn.wants .procRaise = none := by decide +kernel

/-- Finding (C45): the type a module declares for a WASI import is not compared with the function's type: any declaration is
accepted.  Calls are then compiled against the WASI type, not against the declared one. -/
theorem wasi_type_unchecked_violated (ti : Nat) :
    importDesc "wasi_snapshot_preview1" "fd_close" (.func ti) = some (.wasi .fdClose) := by
  simp only [importDesc, if_true]
  rw [show parseWasi "fd_close" = some .fdClose by decide +kernel]

/-- a name of the interface, with its type -/
example : (parseWasi "path_open").map WasiFn.type =
    some ⟨[.i32, .i32, .i32, .i32, .i32, .i64, .i64, .i32, .i32], [.i32]⟩ := by
  rw [wasi_imports_match]; decide +kernel

/-- a name outside the interface is not a WASI function -/
example : parseWasi "fd_dup" = none := by
  have := wasi_imports_match "fd_dup"
  rw [show ((preview1.find? fun p => p.1 == "fd_dup").map fun p => p.2.lower) = none by decide +kernel] at this
  simpa using this

end Verif.Props
