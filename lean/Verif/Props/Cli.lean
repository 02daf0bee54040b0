import Verif.Spec.Cli
import Verif.Model.Cli
/- C40: splitting of `--app-args`. -/
namespace Verif.Props
open Verif.Spec Verif.Model

/-- words of a remaining line when the current word is `cur` and the quoting state is `inq` -/
def wordsFrom (inq : Bool) (cur : List Char) (s : List Char) : List (List Char) :=
  let marked := (quoting inq s).filter (fun x => x.1 != '"')
  match splitAtP (fun x => x.1 == ' ' && !x.2) marked with
  | [] => []
  | w :: ws => (((cur ++ w.map (·.1)) :: ws.map (·.map (·.1)))).filter (fun w => !w.isEmpty)

theorem splitAtP_ne_nil {α : Type} (p : α → Bool) (l : List α) : splitAtP p l ≠ [] := by
  cases l with
  | nil => simp [splitAtP]
  | cons a as =>
    simp only [splitAtP]
    split
    · simp
    · split <;> simp

theorem parse_loop (s : List Char) (st : ArgSt) :
    (s.foldl argStep st).finish = st.result ++ wordsFrom st.inq st.cur s := by
  induction s generalizing st with
  | nil =>
    simp only [List.foldl_nil, wordsFrom, quoting, List.filter_nil, splitAtP, List.map_nil, List.append_nil]
    obtain ⟨r, c, i⟩ := st
    cases c <;> simp [ArgSt.finish]
  | cons c cs ih =>
    rw [List.foldl_cons, ih (argStep st c)]
    by_cases hq : c = '"'
    · subst hq
      simp [argStep, wordsFrom, quoting]
    · by_cases hs : c = ' ' ∧ st.inq = false
      · obtain ⟨rfl, hi⟩ := hs
        obtain ⟨w, ws, hw⟩ : ∃ w ws, splitAtP (fun x : Char × Bool => x.1 == ' ' && !x.2)
            ((quoting false cs).filter (fun x => x.1 != '"')) = w :: ws := by
          cases h : splitAtP (fun x : Char × Bool => x.1 == ' ' && !x.2)
            ((quoting false cs).filter (fun x => x.1 != '"')) with
          | nil => exact absurd h (splitAtP_ne_nil _ _)
          | cons w ws => exact ⟨w, ws, rfl⟩
        cases hc : st.cur with
        | nil => simp [argStep, wordsFrom, quoting, hi, splitAtP, hc, hw]
        | cons x xs => simp [argStep, wordsFrom, quoting, hi, splitAtP, hc, hw]
      · have hst : argStep st c = { st with cur := st.cur ++ [c] } := by simp [argStep, hq, hs]
        rw [hst]
        obtain ⟨w, ws, hw⟩ : ∃ w ws, splitAtP (fun x : Char × Bool => x.1 == ' ' && !x.2)
            ((quoting st.inq cs).filter (fun x => x.1 != '"')) = w :: ws := by
          cases h : splitAtP (fun x : Char × Bool => x.1 == ' ' && !x.2)
            ((quoting st.inq cs).filter (fun x => x.1 != '"')) with
          | nil => exact absurd h (splitAtP_ne_nil _ _)
          | cons w ws => exact ⟨w, ws, rfl⟩
        have hp : (c == ' ' && !st.inq) = false := by
          cases hi : st.inq <;> simp_all
        simp [wordsFrom, quoting, hq, splitAtP, hp, hw]

/-- C40. `parse_args_string` returns the shell word list of the string, for every string. -/
theorem parseArgs_correct (s : List Char) : parseArgs s = shellWords s := by
  have h := parse_loop s { result := [], cur := [], inq := false }
  simp only [List.nil_append] at h
  rw [parseArgs, h]
  simp only [wordsFrom, shellWords]
  cases hw : splitAtP (fun x : Char × Bool => x.1 == ' ' && !x.2)
      ((quoting false s).filter (fun x => x.1 != '"')) with
  | nil => exact absurd hw (splitAtP_ne_nil _ _)
  | cons w ws => rfl

/-- the way a user writes an argument that contains spaces -/
def quoteArg (a : List Char) : List Char := '"' :: (a ++ ['"'])

def joinSp : List (List Char) → List Char
  | [] => []
  | [a] => a
  | a :: as => a ++ ' ' :: joinSp as

theorem fold_plain (a : List Char) (st : ArgSt) (hq : '"' ∉ a) (hs : st.inq = true ∨ ' ' ∉ a) :
    a.foldl argStep st = { st with cur := st.cur ++ a } := by
  induction a generalizing st with
  | nil => simp
  | cons c cs ih =>
    simp only [List.mem_cons, not_or] at hq hs
    have h1 : argStep st c = { st with cur := st.cur ++ [c] } := by
      have : ¬ (c = ' ' ∧ st.inq = false) := by
        rintro ⟨rfl, hi⟩
        rcases hs with h | h
        · simp [hi] at h
        · exact h.1 rfl
      simp [argStep, Ne.symm hq.1, this]
    rw [List.foldl_cons, h1, ih _ hq.2 (by rcases hs with h | h; exact .inl h; exact .inr h.2)]
    simp

/-- a written argument: quoted, or bare without spaces -/
inductive Written : List Char → List Char → Prop
  | quoted (a : List Char) (hne : a ≠ []) (hq : '"' ∉ a) : Written (quoteArg a) a
  | bare (a : List Char) (hne : a ≠ []) (hq : '"' ∉ a) (hs : ' ' ∉ a) : Written a a

theorem fold_written {w a : List Char} (h : Written w a) (st : ArgSt) (hi : st.inq = false) :
    w.foldl argStep st = { st with cur := st.cur ++ a } := by
  cases h with
  | quoted _ hne hq =>
    simp only [quoteArg, List.foldl_cons, List.foldl_append, List.foldl_nil]
    have h1 : argStep st '"' = { st with inq := true } := by simp [argStep, hi]
    rw [h1, fold_plain a _ hq (.inl rfl)]
    cases st; simp_all [argStep]
  | bare _ hne hq hs => exact fold_plain _ _ hq (.inr hs)

/-- C40. Writing a list of non-empty arguments on one line, separated by single spaces, each either bare (no space) or
in quotes, and splitting the line gives the arguments back. -/
theorem parseArgs_join (args : List (List Char × List Char)) (h : ∀ p ∈ args, Written p.1 p.2) :
    parseArgs (joinSp (args.map (·.1))) = args.map (·.2) := by
  have key : ∀ (args : List (List Char × List Char)), (∀ p ∈ args, Written p.1 p.2) → ∀ (res : List (List Char)),
      ((joinSp (args.map (·.1))).foldl argStep { result := res, cur := [], inq := false }).finish
        = res ++ args.map (·.2) := by
    intro args
    induction args with
    | nil => intro _ res; simp [joinSp, ArgSt.finish]
    | cons p rest ih =>
      obtain ⟨w, a⟩ := p
      intro h res
      have hw : Written w a := h (w, a) (by simp)
      have hne : a ≠ [] := by cases hw <;> assumption
      cases rest with
      | nil =>
        simp only [joinSp, List.map_cons, List.map_nil]
        rw [fold_written hw _ rfl]
        simp [ArgSt.finish, hne]
      | cons p2 rest2 =>
        have ih' := ih (fun q hq => h q (List.mem_cons_of_mem _ hq)) (res ++ [a])
        simp only [joinSp, List.map_cons, List.foldl_append, List.foldl_cons] at ih' ⊢
        rw [fold_written hw _ rfl]
        have hsp : argStep { result := res, cur := [] ++ a, inq := false } ' ' =
            { result := res ++ [a], cur := [], inq := false } := by
          simp [argStep, hne]
        rw [hsp, ih']
        simp
  exact key args h []

/-- An explicitly empty argument (`""`) cannot be passed: it is dropped, unlike in a shell. -/
theorem empty_argument_violated : parseArgs (quoteArg []) = [] ∧ parseArgs "a \"\" b".toList = [['a'], ['b']] := by
  decide

example : ∀ p ∈ [("ls".toList, "ls".toList), ("\"my file\"".toList, "my file".toList)], Written p.1 p.2 := by
  intro p hp
  simp only [List.mem_cons, List.not_mem_nil, or_false] at hp
  rcases hp with rfl | rfl
  · exact .bare _ (by decide) (by decide) (by decide)
  · exact .quoted "my file".toList (by decide) (by decide)

example : parseArgs "ab  \"c d\"e".toList = ["ab".toList, "c de".toList] := by decide

end Verif.Props
