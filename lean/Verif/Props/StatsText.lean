import Verif.Lemmas.Percent
import Verif.Spec.StatsText
import Verif.Props.Stats
/-
C59: the table `--stats` prints, with its percentages.
-/
namespace Verif.Props
open Verif.Model Verif.Spec Verif.Lemmas

/-- `{:5.1}` of the quotient computed in floating point: for every count and every total of 64 bits, what is shown is the share of
the count in the total. -/
theorem percentage_shown {count total : Nat} (h0 : 0 < count) (h : count ≤ total) (ht : total < 2 ^ 64) :
    IsShare count total (tenths (percentage count total)) := tenths_percentage h0 h ht

/-- Up to 2^39 instructions the floating point roundings have no influence at all: the shown tenth of a percent is a nearest one. -/
theorem share_nearest {count total t : Nat} (h : IsShare count total t) (ht : total < 2 ^ 39) :
    2 * ((t * total : Nat) - ((1000 * count : Nat) : Int)).natAbs ≤ total := by
  unfold IsShare at h
  generalize 2 * ((t * total : Nat) - ((1000 * count : Nat) : Int)).natAbs = x at *
  omega

/-- no share is above 100.0% -/
theorem share_le {count total t : Nat} (h : IsShare count total t) (h0 : 0 < total) (hc : count ≤ total) : t ≤ 1000 := by
  unfold IsShare at h
  rcases Nat.lt_or_ge 1000 t with c | c
  · have h1 : 1001 * total ≤ t * total := Nat.mul_le_mul_right _ c
    generalize t * total = x at *
    omega
  · exact c

/-- C59, part: the text of the report.  Whatever was recorded, in whatever order the hash map is walked, the lines printed are the
title, the number of instructions, the table (a line for each entry of the report, with name, count and share of the total), how
many more entries there are (if any), and the end.  What the entries are: `stats_report`. -/
theorem stats_table {executed : List Nat} (hl : executed.length < 2 ^ 64) {order : List (Nat × Nat)}
    (ho : order.Perm (Stats.after executed).per) :
    ∃ rows : List (List Char),
      ((Stats.after executed).report order).lines =
        ["=== Execution Statistics ===".toList,
          "Total instructions executed: ".toList ++ Nat.toDigits 10 executed.length] ++
        (if executed = [] then [] else
          [[], "Top Instructions:".toList] ++ rows ++
          if ((Stats.after executed).report order).more = 0 then [] else
            ["  ... and ".toList ++ Nat.toDigits 10 ((Stats.after executed).report order).more ++ " more".toList]) ++
        ["=======================".toList] ∧
      rows.length = ((Stats.after executed).report order).top.length ∧
      ∀ (i : Nat) (name : String) (count : Nat), ((Stats.after executed).report order).top[i]? = some (name, count) →
        ∃ row, rows[i]? = some row ∧ TellsShare name.toList count executed.length row := by
  obtain ⟨listed, h1, h2, -, h4, -, -, -⟩ := stats_report hl ho
  refine ⟨((Stats.after executed).report order).top.map (statsLine executed.length), ?_, by simp, fun i name count h => ?_⟩
  · have e : (executed.length = 0) = (executed = []) := by simp
    unfold StatsReport.lines
    rw [h1]
    simp only [e]
    split
    · rfl
    · generalize ((Stats.after executed).report order).more = k
      rcases Nat.eq_zero_or_pos k with c | c
      · rw [if_neg (by omega), if_pos c]; rfl
      · rw [if_pos c, if_neg (by omega)]; rfl
  · refine ⟨_, by rw [List.getElem?_map, h]; rfl, ?_⟩
    rw [h2, List.getElem?_map] at h
    obtain ⟨g, hg, e⟩ := Option.map_eq_some_iff.1 h
    cases e
    have hm := h4 g (List.mem_of_getElem? hg)
    refine ⟨25 - ((statsName g).toList ++ [':']).length, 12 - (Nat.toDigits 10 (executed.count g)).length,
      5 - (Nat.toDigits 10 (tenths (percentage (executed.count g) executed.length) / 10) ++
        '.' :: Nat.toDigits 10 (tenths (percentage (executed.count g) executed.length) % 10)).length,
      tenths (percentage (executed.count g) executed.length), ?_,
      percentage_shown (List.count_pos_iff.2 hm) List.count_le_length hl⟩
    · unfold statsLine padRight padLeft decimal
      simp only [List.append_assoc, List.cons_append, List.nil_append]
      rfl

/-! ### Concrete cases -/

/-- a third -/
example : tenths (percentage 1 3) = 333 ∧ tenths (percentage 2 3) = 667 ∧ tenths (percentage 7 7) = 1000 := by decide +kernel
/-- ties (0.05%, 0.15%, 6.25%): to even if the quotient is exact, else by the error of the quotient -/
example : tenths (percentage 1 16) = 62 ∧ tenths (percentage 3 16) = 188 ∧ tenths (percentage 1 2000) = 1 := by decide +kernel
/-- the hypotheses of `stats_table` are met -/
example : ∃ rows : List (List Char), rows.length = ((Stats.after [0x6A, 0x6A, 0x20]).report (Stats.after [0x6A, 0x6A, 0x20]).per).top.length :=
  (stats_table (executed := [0x6A, 0x6A, 0x20]) (by decide) (List.Perm.refl _)).imp fun _ h => h.2.1
/-- a table -/
example : ({ total := 3, top := [("i32.add", 2), ("local.get", 1)], more := 5 } : StatsReport).lines =
    ["=== Execution Statistics ===", "Total instructions executed: 3", "", "Top Instructions:",
     "  i32.add:                             2 ( 66.7%)", "  local.get:                           1 ( 33.3%)",
     "  ... and 5 more", "======================="].map String.toList := by decide +kernel

end Verif.Props
