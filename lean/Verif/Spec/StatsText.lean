/-
What a line of the `--stats` table tells.
-/
namespace Verif.Spec

/-- `t` tenths of a percent is the share of `count` in `total`, to one decimal: the error is at most half a tenth (and a 2^-39th
of that). -/
def IsShare (count total t : Nat) : Prop :=
  2 ^ 39 * (2 * ((t * total : Nat) - ((1000 * count : Nat) : Int)).natAbs) ≤ (2 ^ 39 + 1) * total

/-- the line is `name: count (p.q%)`, apart from spaces -/
def TellsShare (name : List Char) (count total : Nat) (line : List Char) : Prop :=
  ∃ (i j k t : Nat), line = [' ', ' '] ++ name ++ [':'] ++ List.replicate i ' ' ++ [' '] ++ List.replicate j ' ' ++
      Nat.toDigits 10 count ++ [' ', '('] ++ List.replicate k ' ' ++ Nat.toDigits 10 (t / 10) ++ ['.'] ++
      Nat.toDigits 10 (t % 10) ++ ['%', ')'] ∧
    IsShare count total t

end Verif.Spec
