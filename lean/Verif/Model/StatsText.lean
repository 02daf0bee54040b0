import Verif.Model.Stats
import Verif.Model.Ieee
/-
The text `--stats` prints (stats.rs:278-322), with the formatting of the standard library it uses: `{:N}` pads a string on the
right and a number on the left; `{:.1}` of a float is its exact value rounded to tenths, ties to even
(`flt2dec::strategy::dragon::format_exact`).
-/
namespace Verif.Model
open Verif.Spec

/-- stats.rs:303 `(*count as f64 / total as f64) * 100.0`; no NaN can occur, as neither operand is one and the total is not 0 -/
def percentage (count total : Nat) : Nat :=
  fArith f64 0x7FF8000000000000 .mul
    (fArith f64 0x7FF8000000000000 .div (fFromInt f64 count) (fFromInt f64 total)) 0x4059000000000000

/-- `{:.1}` of a finite float that is not negative, in tenths -/
def tenths (b : Nat) : Nat :=
  let n := 10 * f64.mag b
  let u := 2 ^ f64.fracBits
  match compare (2 * (n % u)) u with
  | .lt => n / u
  | .gt => n / u + 1
  | .eq => n / u + n / u % 2

/-- `{}` of an unsigned integer -/
def decimal (n : Nat) : List Char := Nat.toDigits 10 n

/-- `{:w}` of a string -/
def padRight (w : Nat) (s : List Char) : List Char := s ++ List.replicate (w - s.length) ' '

/-- `{:w}` of a number -/
def padLeft (w : Nat) (s : List Char) : List Char := List.replicate (w - s.length) ' ' ++ s

/-- stats.rs:304-309: one line of the table -/
def statsLine (total : Nat) (e : String × Nat) : List Char :=
  let t := tenths (percentage e.2 total)
  "  ".toList ++ padRight 25 (e.1.toList ++ [':']) ++ [' '] ++ padLeft 12 (decimal e.2) ++ " (".toList ++
    padLeft 5 (decimal (t / 10) ++ '.' :: decimal (t % 10)) ++ "%)".toList

/-- stats.rs:278-322: the lines `report` prints to the standard error -/
def StatsReport.lines (r : StatsReport) : List (List Char) :=
  ["=== Execution Statistics ===".toList, "Total instructions executed: ".toList ++ decimal r.total] ++
  (if r.total = 0 then []
   else ["".toList, "Top Instructions:".toList] ++ r.top.map (statsLine r.total) ++
     if 0 < r.more then ["  ... and ".toList ++ decimal r.more ++ " more".toList] else []) ++
  ["=======================".toList]

end Verif.Model
