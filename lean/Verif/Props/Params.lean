import Verif.Spec.Params
import Verif.Model.Command
/- C53: `--params`. -/
namespace Verif.Props
open Verif.Spec Verif.Model

theorem digitVal_some {c : Char} {d : Nat} : digitVal c = some d ↔ c.isDigit = true ∧ d = c.toNat - 48 := by
  have : c.isDigit = true ↔ 48 ≤ c.toNat ∧ c.toNat ≤ 57 := by
    simp only [Char.isDigit, ge_iff_le, Bool.and_eq_true, decide_eq_true_eq, UInt32.le_iff_toNat_le, Char.toNat]
    exact Iff.rfl
  rw [this, digitVal]
  split <;> rename_i h
  · simp only [Option.some.injEq, h, and_self, true_and]
    exact eq_comm
  · simp only [reduceCtorEq, false_iff]
    rintro ⟨h1, _⟩
    exact h h1

theorem decimal_cons (c : Char) (cs : List Char) : decimal (c :: cs) = (c.toNat - 48) * 10 ^ cs.length + decimal cs := rfl

theorem nat_bound (a : Nat) (k : Nat) (d : Nat) : a ≤ a * 10 ^ k + d := by
  have : 1 ≤ 10 ^ k := Nat.pow_pos (by decide)
  have := Nat.mul_le_mul_left a this
  omega

/-- the digit loop without a sign -/
theorem accDigits_plain {lo hi : Int} (hlo : lo ≤ 0) : ∀ (cs : List Char) (acc : Nat) (n : Int),
    (acc : Int) ≤ hi →
    (accDigits lo hi false acc cs = some n ↔
      (∀ c ∈ cs, c.isDigit = true) ∧ n = ((acc * 10 ^ cs.length + decimal cs : Nat) : Int) ∧ n ≤ hi)
  | [], acc, n, ha => by
    simp only [accDigits, Option.some.injEq, List.not_mem_nil, false_implies, implies_true, true_and, List.length_nil,
      Nat.pow_zero, Nat.mul_one, decimal, Nat.add_zero]
    constructor
    · rintro rfl; exact ⟨rfl, ha⟩
    · rintro ⟨rfl, _⟩; rfl
  | c :: cs, acc, n, ha => by
    rw [accDigits]
    cases hd : digitVal c with
    | none =>
      simp only [reduceCtorEq, false_iff]
      rintro ⟨h, _⟩
      have := (digitVal_some (c := c) (d := c.toNat - 48)).mpr ⟨h c (List.mem_cons_self ..), rfl⟩
      rw [hd] at this; cases this
    | some d =>
      obtain ⟨hc, rfl⟩ := digitVal_some.mp hd
      have e : acc * 10 ^ (c :: cs).length + decimal (c :: cs) =
          (acc * 10 + (c.toNat - 48)) * 10 ^ cs.length + decimal cs := by
        rw [decimal_cons, List.length_cons, Nat.pow_succ, Nat.add_mul, Nat.mul_assoc acc 10, Nat.mul_comm 10]
        omega
      simp only [Bool.false_eq_true, if_false]
      have hle := nat_bound (acc * 10 + (c.toNat - 48)) cs.length (decimal cs)
      split
      · rename_i h1
        simp only [reduceCtorEq, false_iff]
        rintro ⟨_, hn, hh⟩
        rw [e] at hn
        omega
      · split
        · rename_i h1 h2
          simp only [reduceCtorEq, false_iff]
          rintro ⟨_, hn, hh⟩
          rw [e] at hn
          omega
        · rename_i h1 h2
          have hx : ((acc : Int) * 10 + ((c.toNat - 48 : Nat) : Int)) = ((acc * 10 + (c.toNat - 48) : Nat) : Int) := by omega
          rw [hx, accDigits_plain hlo cs _ n (by omega), e]
          simp only [List.mem_cons, forall_eq_or_imp, hc, true_and]

/-- the digit loop behind a minus sign -/
theorem accDigits_neg {lo hi : Int} (hhi : 0 ≤ hi) : ∀ (cs : List Char) (acc : Nat) (n : Int),
    lo ≤ -(acc : Int) →
    (accDigits lo hi true (-(acc : Int)) cs = some n ↔
      (∀ c ∈ cs, c.isDigit = true) ∧ n = -((acc * 10 ^ cs.length + decimal cs : Nat) : Int) ∧ lo ≤ n)
  | [], acc, n, ha => by
    simp only [accDigits, Option.some.injEq, List.not_mem_nil, false_implies, implies_true, true_and, List.length_nil,
      Nat.pow_zero, Nat.mul_one, decimal, Nat.add_zero]
    constructor
    · rintro rfl; exact ⟨rfl, ha⟩
    · rintro ⟨rfl, _⟩; rfl
  | c :: cs, acc, n, ha => by
    rw [accDigits]
    cases hd : digitVal c with
    | none =>
      simp only [reduceCtorEq, false_iff]
      rintro ⟨h, _⟩
      have := (digitVal_some (c := c) (d := c.toNat - 48)).mpr ⟨h c (List.mem_cons_self ..), rfl⟩
      rw [hd] at this; cases this
    | some d =>
      obtain ⟨hc, rfl⟩ := digitVal_some.mp hd
      have e : acc * 10 ^ (c :: cs).length + decimal (c :: cs) =
          (acc * 10 + (c.toNat - 48)) * 10 ^ cs.length + decimal cs := by
        rw [decimal_cons, List.length_cons, Nat.pow_succ, Nat.add_mul, Nat.mul_assoc acc 10, Nat.mul_comm 10]
        omega
      simp only [if_true]
      have hle := nat_bound (acc * 10 + (c.toNat - 48)) cs.length (decimal cs)
      split
      · rename_i h1
        simp only [reduceCtorEq, false_iff]
        rintro ⟨_, hn, hh⟩
        rw [e] at hn
        omega
      · split
        · rename_i h1 h2
          simp only [reduceCtorEq, false_iff]
          rintro ⟨_, hn, hh⟩
          rw [e] at hn
          omega
        · rename_i h1 h2
          have hx : (-(acc : Int) * 10 - ((c.toNat - 48 : Nat) : Int)) = -((acc * 10 + (c.toNat - 48) : Nat) : Int) := by omega
          rw [hx, accDigits_neg hhi cs _ n (by omega), e]
          simp only [List.mem_cons, forall_eq_or_imp, hc, true_and]

theorem sign_not_digit {c : Char} (h : c = '+' ∨ c = '-') : c.isDigit = false := by
  rcases h with rfl | rfl <;> decide

/-- `parse::<i32>` and `parse::<i64>` accept exactly the decimal integers in range and return them. -/
theorem parseInt_iff {lo hi : Int} (hlo : lo ≤ 0) (hhi : 0 ≤ hi) (s : List Char) (n : Int) :
    parseInt lo hi s = some n ↔ Denotes s n ∧ lo ≤ n ∧ n ≤ hi := by
  have P : ∀ ds : List Char, ds ≠ [] → (accDigits lo hi false 0 ds = some n ↔ IsDigits ds ∧ n = decimal ds ∧ n ≤ hi) := by
    intro ds h0
    have := accDigits_plain (lo := lo) (hi := hi) hlo ds 0 n (by omega)
    simp only [Nat.zero_mul, Nat.zero_add] at this
    rw [show ((0 : Nat) : Int) = 0 from rfl] at this
    rw [this, IsDigits]
    simp [h0]
  have N : ∀ ds : List Char, ds ≠ [] → (accDigits lo hi true 0 ds = some n ↔ IsDigits ds ∧ n = -(decimal ds : Int) ∧ lo ≤ n) := by
    intro ds h0
    have := accDigits_neg (lo := lo) (hi := hi) hhi ds 0 n (by omega)
    simp only [Nat.zero_mul, Nat.zero_add] at this
    rw [show -((0 : Nat) : Int) = 0 from rfl] at this
    rw [this, IsDigits]
    simp [h0]
  have D : Denotes s n ↔ (IsDigits s ∧ n = decimal s) ∨ (∃ ds, s = '+' :: ds ∧ IsDigits ds ∧ n = decimal ds) ∨
      (∃ ds, s = '-' :: ds ∧ IsDigits ds ∧ n = -(decimal ds : Int)) := by
    constructor
    · intro h
      cases h with
      | plain h => exact .inl ⟨h, rfl⟩
      | plus h => exact .inr (.inl ⟨_, rfl, h, rfl⟩)
      | minus h => exact .inr (.inr ⟨_, rfl, h, rfl⟩)
    · rintro (⟨h, rfl⟩ | ⟨ds, rfl, h, rfl⟩ | ⟨ds, rfl, h, rfl⟩)
      · exact .plain h
      · exact .plus h
      · exact .minus h
  rw [D]
  match s with
  | [] =>
    simp [parseInt, IsDigits]
  | [c] =>
    rw [parseInt]
    split
    · rename_i h
      simp only [reduceCtorEq, false_iff]
      rintro ⟨⟨h1, _⟩ | ⟨ds, h1, h2, _⟩ | ⟨ds, h1, h2, _⟩, _⟩
      · have := h1.2 c (List.mem_singleton.mpr rfl)
        rw [sign_not_digit h] at this; cases this
      · cases h1; exact h2.1 rfl
      · cases h1; exact h2.1 rfl
    · rename_i h
      rw [P _ (by simp)]
      constructor
      · rintro ⟨h1, h2, h3⟩
        exact ⟨.inl ⟨h1, h2⟩, by omega, h3⟩
      · rintro ⟨⟨h1, h2⟩ | ⟨ds, h1, _⟩ | ⟨ds, h1, _⟩, _, h3⟩
        · exact ⟨h1, h2, h3⟩
        · cases h1; exact absurd (.inl rfl) h
        · cases h1; exact absurd (.inr rfl) h
  | c :: c' :: cs =>
    rw [parseInt]
    rotate_left
    · simp
    split
    · rename_i h
      subst h
      rw [N _ (by simp)]
      constructor
      · rintro ⟨h1, h2, h3⟩
        exact ⟨.inr (.inr ⟨_, rfl, h1, h2⟩), h3, by omega⟩
      · rintro ⟨⟨h1, _⟩ | ⟨ds, h1, _⟩ | ⟨ds, h1, h2, h3⟩, h4, h5⟩
        · have := h1.2 '-' (List.mem_cons_self ..); cases this
        · cases h1
        · cases h1; exact ⟨h2, h3, h4⟩
    · split
      · rename_i h0 h
        subst h
        rw [P _ (by simp)]
        constructor
        · rintro ⟨h1, h2, h3⟩
          exact ⟨.inr (.inl ⟨_, rfl, h1, h2⟩), by omega, h3⟩
        · rintro ⟨⟨h1, _⟩ | ⟨ds, h1, h2, h3⟩ | ⟨ds, h1, _⟩, h4, h5⟩
          · have := h1.2 '+' (List.mem_cons_self ..); cases this
          · cases h1; exact ⟨h2, h3, h5⟩
          · cases h1
      · rename_i h0 h
        rw [P _ (by simp)]
        constructor
        · rintro ⟨h1, h2, h3⟩
          exact ⟨.inl ⟨h1, h2⟩, by omega, h3⟩
        · rintro ⟨⟨h1, h2⟩ | ⟨ds, h1, _⟩ | ⟨ds, h1, _⟩, _, h3⟩
          · exact ⟨h1, h2, h3⟩
          · cases h1; exact absurd rfl h
          · cases h1; exact absurd rfl h0


/-! ### The parenthesised text and the type names -/

theorem upToParen_some : ∀ {s t : List Char}, upToParen s = some t → ∃ b, s = t ++ ')' :: b
  | [], _, h => by cases h
  | c :: cs, t, h => by
    rw [upToParen] at h
    split at h
    · cases h
    · split at h
      · rename_i r hr
        cases h
        obtain ⟨b, rfl⟩ := upToParen_some hr
        exact ⟨b, rfl⟩
      · split at h
        · rename_i hc
          cases h; subst hc
          exact ⟨cs, rfl⟩
        · cases h

theorem parenText_some : ∀ {s t : List Char}, parenText s = some t → ∃ a b, s = a ++ '(' :: t ++ ')' :: b
  | [], _, h => by cases h
  | c :: cs, t, h => by
    rw [parenText] at h
    split at h
    · rename_i hc
      subst hc
      split at h
      · rename_i r hr
        cases h
        obtain ⟨b, rfl⟩ := upToParen_some hr
        exact ⟨[], b, by simp⟩
      · obtain ⟨a, b, rfl⟩ := parenText_some h
        exact ⟨'(' :: a, b, by simp⟩
    · obtain ⟨a, b, rfl⟩ := parenText_some h
      exact ⟨c :: a, b, by simp⟩

theorem upToParen_text : ∀ {t : List Char}, (∀ x ∈ t, x ≠ '\n') → upToParen (t ++ [')']) = some t
  | [], _ => rfl
  | c :: cs, h => by
    rw [List.cons_append, upToParen, if_neg (h c (List.mem_cons_self ..)),
      upToParen_text fun x hx => h x (List.mem_cons_of_mem _ hx)]

theorem hasSub_iff (p : List Char) : ∀ s : List Char, hasSub p s = true ↔ Occurs p s
  | [] => by
    rw [hasSub, List.isEmpty_iff, Occurs]
    constructor
    · rintro rfl; exact ⟨[], [], rfl⟩
    · rintro ⟨a, b, h⟩
      have := congrArg List.length h
      simp only [List.length_nil, List.length_append] at this
      exact List.length_eq_zero_iff.mp (by omega)
  | c :: cs => by
    rw [hasSub, Bool.or_eq_true, hasSub_iff p cs, List.isPrefixOf_iff_prefix]
    constructor
    · rintro (⟨b, h⟩ | ⟨a, b, h⟩)
      · exact ⟨[], b, by simpa using h.symm⟩
      · exact ⟨c :: a, b, by rw [h]; simp⟩
    · rintro ⟨a, b, h⟩
      cases a with
      | nil => exact .inl ⟨b, by simpa using h.symm⟩
      | cons x a =>
        simp only [List.cons_append, List.cons.injEq] at h
        exact .inr ⟨a, b, by rw [h.2, List.append_assoc]⟩

theorem hasSub_none {x : Char} {p s : List Char} (h : ∀ c ∈ s, c ≠ x) : hasSub (x :: p) s = false := by
  rw [Bool.eq_false_iff, ne_eq, hasSub_iff]
  rintro ⟨a, b, e⟩
  subst e
  exact h x (by simp) rfl


/-! ### The claim -/

/-- What one entry contributes: nothing if it names no type; otherwise the first type named in the order I32, I64, F32, F64,
read from the text between parentheses. -/
inductive EntryReads (T : FloatText) (p : List Char) : Option Val → Prop
  | skipped (h : ∀ c n, typeName c = some n → ¬ Occurs n p) : EntryReads T p none
  | value {c n t v} (hn : typeName c = some n) (ho : Occurs n p) (ht : ∃ a b, p = a ++ '(' :: t ++ ')' :: b)
      (hm : Meaning T.f32 T.f64 c t v) : EntryReads T p (some v)

theorem orPanic_bind {α β : Type} {x : Option α} {f : α → Res β} {r : β} (h : (orPanic x >>= f) = .ok r) :
    ∃ a, x = some a ∧ f a = .ok r := by
  cases x with
  | none => cases h
  | some a => exact ⟨a, rfl, h⟩

theorem parseParam_sound {T : FloatText} {p : List Char} {v : Option Val} (h : parseParam T p = .ok v) : EntryReads T p v := by
  rw [parseParam] at h
  split at h
  · rename_i h1
    obtain ⟨t, e1, h⟩ := orPanic_bind h
    obtain ⟨n, e2, h⟩ := orPanic_bind h
    obtain ⟨d, lo, hi⟩ := (parseInt_iff (by decide) (by decide) _ _).mp e2
    cases h
    exact .value (c := .i32) rfl ((hasSub_iff _ _).mp h1) (parenText_some e1) (.i32 d (by omega) (by omega))
  · rename_i h1
    split at h
    · rename_i h2
      obtain ⟨t, e1, h⟩ := orPanic_bind h
      obtain ⟨n, e2, h⟩ := orPanic_bind h
      obtain ⟨d, lo, hi⟩ := (parseInt_iff (by decide) (by decide) _ _).mp e2
      cases h
      exact .value (c := .i64) rfl ((hasSub_iff _ _).mp h2) (parenText_some e1) (.i64 d (by omega) (by omega))
    · rename_i h2
      split at h
      · rename_i h3
        obtain ⟨t, e1, h⟩ := orPanic_bind h
        obtain ⟨n, e2, h⟩ := orPanic_bind h
        cases h
        exact .value (c := .f32) rfl ((hasSub_iff _ _).mp h3) (parenText_some e1) (.f32 e2)
      · rename_i h3
        split at h
        · rename_i h4
          obtain ⟨t, e1, h⟩ := orPanic_bind h
          obtain ⟨n, e2, h⟩ := orPanic_bind h
          cases h
          exact .value (c := .f64) rfl ((hasSub_iff _ _).mp h4) (parenText_some e1) (.f64 e2)
        · rename_i h4
          cases h
          refine .skipped ?_
          intro c n hc ho
          cases c <;> cases hc
          · exact h1 ((hasSub_iff _ _).mpr ho)
          · exact h2 ((hasSub_iff _ _).mpr ho)
          · exact h3 ((hasSub_iff _ _).mpr ho)
          · exact h4 ((hasSub_iff _ _).mpr ho)

/-- Whatever reaches the function was written on the command line: if `parse_params` succeeds, every entry contributes
nothing (no type named) or the value its parenthesised text denotes, in order. -/
theorem params_only_as_written {T : FloatText} : ∀ {ps : List (List Char)} {vs : List Val}, parseParams T ps = .ok vs →
    ∃ ws : List (Option Val), Each (EntryReads T) ps ws ∧ vs = ws.filterMap id
  | [], vs, h => by cases h; exact ⟨[], .nil, rfl⟩
  | p :: ps, vs, h => by
    rw [parseParams] at h
    cases h1 : parseParam T p with
    | ok v =>
      rw [h1, Res.bind_ok] at h
      cases h2 : parseParams T ps with
      | ok us =>
        rw [h2, Res.bind_ok] at h
        obtain ⟨ws, f, rfl⟩ := params_only_as_written h2
        refine ⟨v :: ws, .cons (parseParam_sound h1) f, ?_⟩
        cases h
        cases v <;> rfl
      | _ => rw [h2] at h; cases h
    | _ => rw [h1] at h; cases h

theorem entry_text {n t : List Char} (hn : ∀ x ∈ n, x ≠ '(') (ht : ∀ x ∈ t, x ≠ '\n') :
    parenText (n ++ '(' :: t ++ [')']) = some t := by
  induction n with
  | nil => rw [List.nil_append, List.cons_append, parenText, if_pos rfl, upToParen_text ht]
  | cons c cs ih =>
    rw [List.cons_append, List.cons_append, parenText, if_neg (hn c (List.mem_cons_self ..))]
    exact ih fun x hx => hn x (List.mem_cons_of_mem _ hx)

theorem parseParam_entry {T : FloatText} {p : List Char} {v : Val} (h : Entry T.f32 T.f64 p v) : parseParam T p = .ok (some v) := by
  obtain @⟨c, n, t, v, hn, hm, ht⟩ := h
  have tn : ∀ x ∈ t, x ≠ '\n' := fun x hx => (ht x hx).1
  have noI : ∀ x ∈ t ++ [')'], x ≠ 'I' := by
    intro x hx
    rcases List.mem_append.mp hx with h | h
    · exact (ht x h).2.1
    · rw [List.mem_singleton.mp h]; decide
  have noF : ∀ x ∈ t ++ [')'], x ≠ 'F' := by
    intro x hx
    rcases List.mem_append.mp hx with h | h
    · exact (ht x h).2.2
    · rw [List.mem_singleton.mp h]; decide
  rw [parseParam]
  cases hm with
  | i32 hd lo hi =>
    cases hn
    have y : hasSub "I32".toList (['I', '3', '2'] ++ '(' :: t ++ [')']) = true :=
      (hasSub_iff _ _).mpr ⟨[], '(' :: t ++ [')'], rfl⟩
    rw [if_pos y, entry_text (by decide) tn]
    have e := (parseInt_iff (lo := -2147483648) (hi := 2147483647) (by decide) (by decide) t _).mpr ⟨hd, by omega, by omega⟩
    simp only [orPanic, Res.bind_ok, e]
    rfl
  | i64 hd lo hi =>
    cases hn
    have y : hasSub "I64".toList (['I', '6', '4'] ++ '(' :: t ++ [')']) = true :=
      (hasSub_iff _ _).mpr ⟨[], '(' :: t ++ [')'], rfl⟩
    have a : hasSub "I32".toList (['I', '6', '4'] ++ '(' :: t ++ [')']) = false := by
      simp [hasSub, List.isPrefixOf, hasSub_none noI]
    rw [if_neg (by rw [a]; decide), if_pos y, entry_text (by decide) tn]
    have e := (parseInt_iff (lo := -9223372036854775808) (hi := 9223372036854775807) (by decide) (by decide) t _).mpr ⟨hd, by omega, by omega⟩
    simp only [orPanic, Res.bind_ok, e]
    rfl
  | f32 hx =>
    cases hn
    have y : hasSub "F32".toList (['F', '3', '2'] ++ '(' :: t ++ [')']) = true :=
      (hasSub_iff _ _).mpr ⟨[], '(' :: t ++ [')'], rfl⟩
    have a : hasSub "I32".toList (['F', '3', '2'] ++ '(' :: t ++ [')']) = false := by
      simp [hasSub, List.isPrefixOf, hasSub_none noI]
    have b : hasSub "I64".toList (['F', '3', '2'] ++ '(' :: t ++ [')']) = false := by
      simp [hasSub, List.isPrefixOf, hasSub_none noI]
    rw [if_neg (by rw [a]; decide), if_neg (by rw [b]; decide), if_pos y,
      entry_text (by decide) tn]
    simp only [orPanic, Res.bind_ok, hx]
    rfl
  | f64 hx =>
    cases hn
    have y : hasSub "F64".toList (['F', '6', '4'] ++ '(' :: t ++ [')']) = true :=
      (hasSub_iff _ _).mpr ⟨[], '(' :: t ++ [')'], rfl⟩
    have a : hasSub "I32".toList (['F', '6', '4'] ++ '(' :: t ++ [')']) = false := by
      simp [hasSub, List.isPrefixOf, hasSub_none noI]
    have b : hasSub "I64".toList (['F', '6', '4'] ++ '(' :: t ++ [')']) = false := by
      simp [hasSub, List.isPrefixOf, hasSub_none noI]
    have c : hasSub "F32".toList (['F', '6', '4'] ++ '(' :: t ++ [')']) = false := by
      simp [hasSub, List.isPrefixOf, hasSub_none noF]
    rw [if_neg (by rw [a]; decide), if_neg (by rw [b]; decide), if_neg (by rw [c]; decide),
      if_pos y, entry_text (by decide) tn]
    simp only [orPanic, Res.bind_ok, hx]
    rfl

/-- **C53.** Entries written `TYPE(number)` are passed to the function as exactly these values, in order. -/
theorem params_as_written {T : FloatText} {ps : List (List Char)} {vs : List Val}
    (h : Each (Entry T.f32 T.f64) ps vs) : parseParams T ps = .ok vs := by
  induction h with
  | nil => rfl
  | cons h _ ih => rw [parseParams, parseParam_entry h, ih]; rfl

/-! ### Every integer can be written -/

theorem decimal_eq (ds : List Char) : decimal ds = Nat.ofDigitChars 10 ds 0 := by
  induction ds with
  | nil => rfl
  | cons c cs ih =>
    rw [decimal, Nat.ofDigitChars_cons, Nat.ofDigitChars_eq_ofDigitChars_zero, ih, Nat.mul_zero, Nat.zero_add, Nat.mul_comm]

/-- the usual decimal notation of an integer -/
def written (n : Int) : List Char := (if n < 0 then ['-'] else []) ++ Nat.toDigits 10 n.natAbs

theorem written_denotes (n : Int) : Denotes (written n) n := by
  have d : IsDigits (Nat.toDigits 10 n.natAbs) :=
    ⟨Nat.toDigits_ne_nil, fun c hc => Nat.isDigit_of_mem_toDigits (by decide) (by decide) hc⟩
  have v : decimal (Nat.toDigits 10 n.natAbs) = n.natAbs := by
    rw [decimal_eq, Nat.ofDigitChars_toDigits (by decide) (by decide)]
  rw [written]
  split
  · have := Denotes.minus d
    rw [v] at this
    rw [show n = -(n.natAbs : Int) by omega]
    simpa using this
  · have := Denotes.plain d
    rw [v] at this
    rw [show n = (n.natAbs : Int) by omega]
    simpa using this

theorem digit_plain {c : Char} (h : c.isDigit = true) : c ≠ '\n' ∧ c ≠ 'I' ∧ c ≠ 'F' := by
  refine ⟨?_, ?_, ?_⟩ <;> rintro rfl <;> revert h <;> decide

theorem written_plain (n : Int) : ∀ x ∈ written n, x ≠ '\n' ∧ x ≠ 'I' ∧ x ≠ 'F' := by
  intro x hx
  rcases List.mem_append.mp hx with h | h
  · split at h
    · rw [List.mem_singleton.mp h]; decide
    · cases h
  · exact digit_plain (Nat.isDigit_of_mem_toDigits (by decide) (by decide) h)

/-- Every i32 argument can be passed: `I32(n)` in decimal. -/
theorem every_i32_passable (T : FloatText) (x : BitVec 32) :
    parseParams T [['I', '3', '2'] ++ '(' :: written x.toInt ++ [')']] = .ok [⟨.i32, x⟩] := by
  refine params_as_written (.cons (.mk (c := .i32) rfl ?_ (written_plain _)) .nil)
  have := Meaning.i32 (f32 := T.f32) (f64 := T.f64) (written_denotes x.toInt) (by have := x.le_toInt; simpa using this)
    (by have := x.toInt_lt; simpa using this)
  rwa [BitVec.ofInt_toInt] at this

/-- Every i64 argument can be passed. -/
theorem every_i64_passable (T : FloatText) (x : BitVec 64) :
    parseParams T [['I', '6', '4'] ++ '(' :: written x.toInt ++ [')']] = .ok [⟨.i64, x⟩] := by
  refine params_as_written (.cons (.mk (c := .i64) rfl ?_ (written_plain _)) .nil)
  have := Meaning.i64 (f32 := T.f32) (f64 := T.f64) (written_denotes x.toInt) (by have := x.le_toInt; simpa using this)
    (by have := x.toInt_lt; simpa using this)
  rwa [BitVec.ofInt_toInt] at this

/-! ### Examples and what goes wrong -/

/-- `--params "I32(-7),I64(+3)"` -/
example (T : FloatText) : parseParams T ["I32(-7)".toList, "I64(+3)".toList] =
    .ok [⟨.i32, (-7 : BitVec 32)⟩, ⟨.i64, (3 : BitVec 64)⟩] := by
  refine params_as_written (.cons (.mk (c := .i32) (t := "-7".toList) rfl (.i32 (n := -7) (.minus ⟨by decide, by decide⟩) (by decide) (by decide)) (by decide))
    (.cons (.mk (c := .i64) (t := "+3".toList) rfl (.i64 (n := 3) (.plus ⟨by decide, by decide⟩) (by decide) (by decide)) (by decide)) .nil))

/-- Entries without a known type name are dropped silently, whatever they are. -/
theorem untyped_params_dropped (T : FloatText) (ps : List (List Char))
    (h : ∀ p ∈ ps, ∀ t ∈ ["I32", "I64", "F32", "F64"], hasSub t.toList p = false) : parseParams T ps = .ok [] := by
  induction ps with
  | nil => rfl
  | cons p ps ih =>
    have hp := h p (List.mem_cons_self ..)
    rw [parseParams, ih fun q hq => h q (List.mem_cons_of_mem _ hq), parseParam, hp "I32" (by decide), hp "I64" (by decide),
      hp "F32" (by decide), hp "F64" (by decide)]
    rfl

example (T : FloatText) : parseParams T ["7".toList, "i32(5)".toList, "V128(1)".toList] = .ok [] :=
  untyped_params_dropped T _ (by decide +kernel)

/-- An unsigned notation of an i32 aborts the process. -/
theorem unsigned_param_aborts (T : FloatText) : parseParams T ["I32(4294967295)".toList] = .panic := by
  have : parseInt (-2147483648) 2147483647 "4294967295".toList = none := by decide +kernel
  have h2 : parenText "I32(4294967295)".toList = some "4294967295".toList := by decide +kernel
  have h3 : hasSub "I32".toList "I32(4294967295)".toList = true := by decide +kernel
  simp only [parseParams, parseParam, h3, if_true, h2, orPanic, Res.bind_ok, this, Res.bind_panic]

end Verif.Props
