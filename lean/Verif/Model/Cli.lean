/- Model of `parse_args_string`, src/main.rs:52-80 (strings as lists of characters). -/
namespace Verif.Model

/-- loop variables `result` (in order), `current_arg`, `in_quotes` (src/main.rs:53-55) -/
structure ArgSt where
  result : List (List Char)
  cur : List Char
  inq : Bool

/-- body of the `while let Some(ch)` loop, src/main.rs:58-74 -/
def argStep (s : ArgSt) (ch : Char) : ArgSt :=
  if ch = '"' then { s with inq := !s.inq }
  else if ch = ' ' ∧ s.inq = false then
    if s.cur = [] then s else { s with result := s.result ++ [s.cur], cur := [] }
  else { s with cur := s.cur ++ [ch] }

/-- after the loop, src/main.rs:76-80 -/
def ArgSt.finish (s : ArgSt) : List (List Char) := if s.cur = [] then s.result else s.result ++ [s.cur]

/-- src/main.rs:52-80 `parse_args_string` -/
def parseArgs (args : List Char) : List (List Char) :=
  (args.foldl argStep { result := [], cur := [], inq := false }).finish

end Verif.Model
