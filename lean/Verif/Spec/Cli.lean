/-
What `--app-args` splitting should mean: each character is quoted or not, depending on how many quote characters
precede it; words are the pieces between unquoted spaces, without the quote characters, empty pieces discarded.
-/
namespace Verif.Spec

/-- pair every character with "is it inside quotes" (an odd number of `"` before it) -/
def quoting (inq : Bool) : List Char → List (Char × Bool)
  | [] => []
  | c :: cs => (c, inq) :: quoting (if c = '"' then !inq else inq) cs

/-- pieces between the elements satisfying `p` -/
def splitAtP {α : Type} (p : α → Bool) : List α → List (List α)
  | [] => [[]]
  | a :: as =>
    if p a then [] :: splitAtP p as
    else match splitAtP p as with
      | [] => [[a]]
      | w :: ws => (a :: w) :: ws

/-- the word list of a command line -/
def shellWords (s : List Char) : List (List Char) :=
  let marked := (quoting false s).filter (fun x => x.1 != '"')
  let pieces := splitAtP (fun x => x.1 == ' ' && !x.2) marked
  (pieces.map (·.map (·.1))).filter (fun w => !w.isEmpty)

end Verif.Spec
