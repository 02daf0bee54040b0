import Verif.Lemmas.CompNest
import Verif.Spec.Branch
/-
Where the branches of preprocessed code lead.
-/
namespace Verif.Lemmas
open Verif.Model Verif.Spec Verif.Props

theorem opens_enclosing (code : List Instr) : ∀ p, p ≤ code.length → (opens code p).map (·.1) = enclosing code p
  | 0, _ => by simp [opens, scanL, enclosing]
  | p + 1, hp => by
    have hi : code[p]? = some code[p] := List.getElem?_eq_getElem (by omega)
    have ih := opens_enclosing code p (by omega)
    rw [opens_succ hi, enclosing, hi]
    cases code[p] <;> simp only [scanStep, List.map_cons, List.map_tail, ih]

/-- the loop flag of an open bracket -/
theorem opens_flag (code : List Instr) : ∀ p, p ≤ code.length → ∀ x ∈ opens code p,
    (∃ c e h, x.2 = false ∧ code[x.1]? = some (.ite c e h)) ∨ code[x.1]? = some (.block x.2)
  | 0, _, x, h => by simp [opens, scanL] at h
  | p + 1, hp, x, h => by
    have hi : code[p]? = some code[p] := List.getElem?_eq_getElem (by omega)
    have ih := opens_flag code p (by omega)
    rw [opens_succ hi] at h
    generalize code[p] = i at hi h
    cases i <;> simp only [scanStep] at h
    case block l =>
      rcases List.mem_cons.1 h with rfl | h
      · exact .inr hi
      · exact ih x h
    case ite c e hh =>
      rcases List.mem_cons.1 h with rfl | h
      · exact .inl ⟨_, _, _, rfl, hi⟩
      · exact ih x h
    case fin => exact ih x (List.mem_of_mem_tail h)
    all_goals exact ih x h

/-- the brackets around an open bracket -/
theorem opens_drop (code : List Instr) : ∀ p, p ≤ code.length → ∀ (d : Nat) (x : Nat × Bool), (opens code p)[d]? = some x →
    opens code x.1 = (opens code p).drop (d + 1)
  | 0, _, d, x, h => by simp [opens, scanL] at h
  | p + 1, hp, d, x, h => by
    have hi : code[p]? = some code[p] := List.getElem?_eq_getElem (by omega)
    have ih := opens_drop code p (by omega)
    rw [opens_succ hi] at h ⊢
    have push : ∀ b, (((p, b) :: opens code p)[d]? = some x) → opens code x.1 = ((p, b) :: opens code p).drop (d + 1) := by
      intro b h
      cases d with
      | zero => simp only [List.getElem?_cons_zero, Option.some.injEq] at h; subst h; simp
      | succ d => simp only [List.getElem?_cons_succ] at h; simpa using ih d x h
    generalize code[p] = i at hi h
    cases i <;> simp only [scanStep] at h ⊢
    case block l => exact push l h
    case ite => exact push false h
    case fin =>
      rw [List.getElem?_tail] at h
      rw [ih (d + 1) x h, List.drop_tail]
    all_goals exact ih d x h

theorem opens_lt (code : List Instr) {p : Nat} (hp : p ≤ code.length) {x : Nat × Bool} (hx : x ∈ opens code p) : x.1 < p := by
  obtain ⟨d, hd⟩ := List.getElem?_of_mem hx
  exact (opens_get code p hp d x hd).1

/-- an else at `q` of the bracket at `s` -/
def DivAt (code : List Instr) (s q : Nat) : Prop := (∃ t, code[q]? = some (.jump t)) ∧ (opens code q).head? = some (s, false)
/-- an end at `e` of the bracket at `s` -/
def EndAt (code : List Instr) (s e : Nat) : Prop :=
  (∃ a b, code[e]? = some (.fin a b)) ∧ (opens code e).head?.map (·.1) = some s

theorem DivAt.append {code is : List Instr} {s q : Nat} (h : DivAt code s q) : DivAt (code ++ is) s q := by
  obtain ⟨⟨t, ht⟩, h2⟩ := h
  have hlt := (List.getElem?_eq_some_iff.1 ht).1
  exact ⟨⟨t, by rw [List.getElem?_append_left hlt]; exact ht⟩, by rw [opens_append (Nat.le_of_lt hlt)]; exact h2⟩

theorem EndAt.append {code is : List Instr} {s q : Nat} (h : EndAt code s q) : EndAt (code ++ is) s q := by
  obtain ⟨⟨a, b, ht⟩, h2⟩ := h
  have hlt := (List.getElem?_eq_some_iff.1 ht).1
  exact ⟨⟨a, b, by rw [List.getElem?_append_left hlt]; exact ht⟩, by rw [opens_append (Nat.le_of_lt hlt)]; exact h2⟩

/-- what phase 1 knows about the positions of ends and elses -/
structure Pos (st : CS) : Prop where
  ends : ∀ x ∈ st.ends, ∃ e, x.2 = e + 1 ∧ EndAt st.code x.1 e
  elses : ∀ x ∈ st.elses, (∃ q, x.2 = q + 1 ∧ DivAt st.code x.1 q) ∨
    (lookup st.ends x.1 = some x.2 ∧ ∀ q, ¬ DivAt st.code x.1 q)
  mctl : ∀ x ∈ st.mapCtl, (∀ e, x.2.2 = some e → ∃ q, e = q + 1 ∧ DivAt st.code x.1 q) ∧
    (x.2.2 = none → ∀ q, ¬ DivAt st.code x.1 q) ∧ (x.2.1 = true ↔ ∃ c e h, st.code[x.1]? = some (.ite c e h))
  ifs : ∀ s c e h, st.code[s]? = some (.ite c e h) → s ∈ st.mapCtl.map (·.1) ∨ s ∈ st.elses.map (·.1)
  jumps : ∀ q t, st.code[q]? = some (.jump t) → ∃ s, DivAt st.code s q
  ites : ∀ s q, DivAt st.code s q → ∃ c e h, st.code[s]? = some (.ite c e h)

theorem Pos.init (K : FnCtx) : Pos (CS.init K) := by
  refine ⟨by simp [CS.init], by simp [CS.init], by simp [CS.init], by simp [CS.init], by simp [CS.init], ?_⟩
  rintro s q ⟨⟨t, h⟩, _⟩
  simp [CS.init] at h

/-- an else in extended code: old, or the new instruction -/
theorem DivAt.of_append {code : List Instr} {i : Instr} {s q : Nat} (h : DivAt (code ++ [i]) s q) :
    DivAt code s q ∨ (q = code.length ∧ (∃ t, i = .jump t) ∧ (opens code code.length).head? = some (s, false)) := by
  obtain ⟨⟨t, ht⟩, h2⟩ := h
  rcases Nat.lt_trichotomy q code.length with hlt | rfl | hgt
  · rw [List.getElem?_append_left hlt] at ht
    rw [opens_append (Nat.le_of_lt hlt)] at h2
    exact .inl ⟨⟨t, ht⟩, h2⟩
  · simp only [List.getElem?_concat_length, Option.some.injEq] at ht
    rw [opens_append (Nat.le_refl _)] at h2
    exact .inr ⟨rfl, ⟨t, ht⟩, h2⟩
  · rw [List.getElem?_eq_none (by simp; omega)] at ht; cases ht

theorem get_append {code : List Instr} {i j : Instr} {s : Nat} (h : (code ++ [i])[s]? = some j) :
    code[s]? = some j ∨ (s = code.length ∧ i = j) := by
  rcases Nat.lt_trichotomy s code.length with hlt | rfl | hgt
  · rw [List.getElem?_append_left hlt] at h; exact .inl h
  · simp only [List.getElem?_concat_length, Option.some.injEq] at h; exact .inr ⟨rfl, h⟩
  · rw [List.getElem?_eq_none (by simp; omega)] at h; cases h

theorem get_old {code : List Instr} {i j : Instr} {s : Nat} (h : code[s]? = some j) : (code ++ [i])[s]? = some j := by
  have hlt := (List.getElem?_eq_some_iff.1 h).1
  rw [List.getElem?_append_left hlt]; exact h

/-- an instruction that is not an `else` keeps what is known (the maps are unchanged, or a bracket is opened) -/
theorem Pos.plain {a b : CS} {i : Instr} (h : Pos a) (hn : Nst a) (hj : ∀ t, i ≠ .jump t) (hc : b.code = a.code ++ [i])
    (hm : b.mapCtl = a.mapCtl ∨ ∃ f, b.mapCtl = (a.code.length, f, none) :: a.mapCtl ∧ (f = true ↔ ∃ c e h, i = .ite c e h))
    (hm' : (∃ c e h, i = .ite c e h) → b.mapCtl ≠ a.mapCtl)
    (he : b.ends = a.ends) (hl : b.elses = a.elses) : Pos b := by
  have old : ∀ s q, DivAt b.code s q → DivAt a.code s q := by
    intro s q hd
    rw [hc] at hd
    rcases hd.of_append with h1 | ⟨_, ⟨t, h1⟩, _⟩
    · exact h1
    · exact absurd h1 (hj t)
  obtain ⟨_, _, _, k4, _⟩ := hn.keep hc
  have oldm : ∀ x ∈ a.mapCtl, (∀ e, x.2.2 = some e → ∃ q, e = q + 1 ∧ DivAt b.code x.1 q) ∧
      (x.2.2 = none → ∀ q, ¬ DivAt b.code x.1 q) ∧ (x.2.1 = true ↔ ∃ c e h, b.code[x.1]? = some (.ite c e h)) := by
    intro x hx
    obtain ⟨h1, h2, h3⟩ := h.mctl x hx
    refine ⟨fun e he => ?_, fun e q hd => h2 e q (old _ _ hd), ?_⟩
    · obtain ⟨q, hq, hd⟩ := h1 e he
      exact ⟨q, hq, by rw [hc]; exact hd.append⟩
    · rw [h3, hc, List.getElem?_append_left (k4 x hx)]
  refine ⟨fun x hx => ?_, fun x hx => ?_, fun x hx => ?_, fun s c e hh hs => ?_, fun q t hq => ?_, fun s q hd => ?_⟩
  · rw [he] at hx
    obtain ⟨e, h1, h2⟩ := h.ends x hx
    exact ⟨e, h1, by rw [hc]; exact h2.append⟩
  · rw [hl] at hx
    rcases h.elses x hx with ⟨q, h1, h2⟩ | ⟨h1, h2⟩
    · exact .inl ⟨q, h1, by rw [hc]; exact h2.append⟩
    · exact .inr ⟨by rw [he]; exact h1, fun q hd => h2 q (old _ _ hd)⟩
  · rcases hm with hm | ⟨f, hm, hf⟩
    · exact oldm x (hm ▸ hx)
    · rw [hm] at hx
      rcases List.mem_cons.1 hx with rfl | hx
      · refine ⟨fun e he => (by cases he), fun _ q hd => ?_, ?_⟩
        · have := old _ _ hd
          obtain ⟨⟨t, ht⟩, h2⟩ := this
          have hlt := (List.getElem?_eq_some_iff.1 ht).1
          have := opens_lt a.code (Nat.le_of_lt hlt) (x := (a.code.length, false)) (List.mem_of_mem_head? h2)
          simp only at this; omega
        · rw [hf, hc]; simp
      · exact oldm x hx
  · rw [hc] at hs
    have hsub : ∀ k, k ∈ a.mapCtl.map (·.1) → k ∈ b.mapCtl.map (·.1) := by
      rcases hm with hm | ⟨f, hm, hf⟩
      · rw [hm]; exact fun _ => id
      · rw [hm]; intro k hk; exact List.mem_cons_of_mem _ hk
    rcases get_append hs with h1 | ⟨rfl, h1⟩
    · rcases h.ifs s c e hh h1 with h2 | h2
      · exact .inl (hsub _ h2)
      · exact .inr (by rw [hl]; exact h2)
    · rcases hm with hm | ⟨f, hm, hf⟩
      · exact absurd hm (hm' ⟨c, e, hh, h1⟩)
      · rw [hm]; exact .inl (by simp)
  · rw [hc] at hq
    rcases get_append hq with h1 | ⟨_, h1⟩
    · obtain ⟨s, hs⟩ := h.jumps q t h1
      exact ⟨s, by rw [hc]; exact hs.append⟩
    · exact absurd h1 (hj t)
  · obtain ⟨c, e, hh, h1⟩ := h.ites s q (old _ _ hd)
    exact ⟨c, e, hh, by rw [hc]; exact get_old h1⟩

theorem Pos.ctl {a b : CS} (h : Pos a) (hc : b.code = a.code) (hm : b.mapCtl = a.mapCtl) (he : b.ends = a.ends)
    (hl : b.elses = a.elses) : Pos b := by
  refine ⟨?_, ?_, ?_, ?_, ?_, ?_⟩
  · rw [hc, he]; exact h.ends
  · rw [hc, he, hl]; exact h.elses
  · rw [hc, hm]; exact h.mctl
  · rw [hc, hm, hl]; exact h.ifs
  · rw [hc]; exact h.jumps
  · rw [hc]; exact h.ites

/-- `else` -/
theorem Pos.els {a b : CS} {s : Nat} {m : List (Nat × Bool × Option Nat)} (h : Pos a) (hn : Nst a)
    (hm0 : a.mapCtl = (s, true, none) :: m)
    (hc : b.code = a.code ++ [.jump 0]) (hm : b.mapCtl = (s, true, some (a.code.length + 1)) :: m) (he : b.ends = a.ends)
    (hl : b.elses = a.elses) : Pos b := by
  obtain ⟨_, _, _, k4, _⟩ := hn.keep hc
  obtain ⟨t1, l, rest, t2, t3⟩ := hn.top hm0
  have hfr := hn.fresh hm0
  have hslt : s < a.code.length := k4 (s, true, none) (by rw [hm0]; simp)
  obtain ⟨hs1, hs2, hs3⟩ := h.mctl (s, true, none) (by rw [hm0]; simp)
  obtain ⟨c0, e0, h0, hite⟩ := hs3.1 rfl
  have hl0 : l = false := by
    rcases opens_flag a.code _ (Nat.le_refl _) (s, l) (by rw [t2]; simp) with ⟨_, _, _, h1, _⟩ | h1
    · exact h1
    · simp only at h1; rw [hite] at h1; cases h1
  subst hl0
  have hnew : DivAt b.code s a.code.length := by
    rw [hc]
    exact ⟨⟨0, by simp⟩, by rw [opens_append (Nat.le_refl _), t2]; rfl⟩
  have old : ∀ k q, k ≠ s → DivAt b.code k q → DivAt a.code k q := by
    intro k q hk hd
    rw [hc] at hd
    rcases hd.of_append with h1 | ⟨_, _, h1⟩
    · exact h1
    · rw [t2] at h1; simp only [List.head?_cons, Option.some.injEq, Prod.mk.injEq] at h1; exact absurd h1.1.symm hk
  have hkey : b.mapCtl.map (·.1) = a.mapCtl.map (·.1) := by rw [hm, hm0]; rfl
  refine ⟨fun x hx => ?_, fun x hx => ?_, fun x hx => ?_, fun k c e hh hs => ?_, fun q t hq => ?_, fun k q hd => ?_⟩
  · rw [he] at hx
    obtain ⟨e, h1, h2⟩ := h.ends x hx
    exact ⟨e, h1, by rw [hc]; exact h2.append⟩
  · rw [hl] at hx
    rcases h.elses x hx with ⟨q, h1, h2⟩ | ⟨h1, h2⟩
    · exact .inl ⟨q, h1, by rw [hc]; exact h2.append⟩
    · refine .inr ⟨by rw [he]; exact h1, fun q hd => h2 q (old _ _ (fun hk => ?_) hd)⟩
      have := (hn.elses x hx).2.2.1
      rw [hk, hm0] at this
      simp at this
  · rw [hm] at hx
    rcases List.mem_cons.1 hx with rfl | hx
    · refine ⟨fun e he => ?_, fun e => (by cases e), ?_⟩
      · simp only [Option.some.injEq] at he; exact ⟨_, he.symm, hnew⟩
      · simp only [true_iff]; exact ⟨c0, e0, h0, by rw [hc]; exact get_old hite⟩
    · obtain ⟨h1, h2, h3⟩ := h.mctl x (by rw [hm0]; exact List.mem_cons_of_mem _ hx)
      refine ⟨fun e he => ?_, fun e q hd => h2 e q (old _ _ (fun hk => ?_) hd), ?_⟩
      · obtain ⟨q, hq, hd⟩ := h1 e he
        exact ⟨q, hq, by rw [hc]; exact hd.append⟩
      · exact hfr (by rw [← hk]; exact List.mem_map_of_mem hx)
      · rw [h3, hc, List.getElem?_append_left (k4 x (by rw [hm0]; exact List.mem_cons_of_mem _ hx))]
  · rw [hc] at hs
    rw [hkey, hl]
    rcases get_append hs with h1 | ⟨_, h1⟩
    · exact h.ifs k c e hh h1
    · cases h1
  · rw [hc] at hq
    rcases get_append hq with h1 | ⟨rfl, h1⟩
    · obtain ⟨s, hs⟩ := h.jumps q t h1
      exact ⟨s, by rw [hc]; exact hs.append⟩
    · exact ⟨s, hnew⟩
  · by_cases hk : k = s
    · subst hk; exact ⟨c0, e0, h0, by rw [hc]; exact get_old hite⟩
    · obtain ⟨c, e, hh, h1⟩ := h.ites k q (old _ _ hk hd)
      exact ⟨c, e, hh, by rw [hc]; exact get_old h1⟩

/-- `end` of a bracket -/
theorem Pos.closed {a b : CS} {src dst : List Reg} {s : Nat} {isIf : Bool} {e : Option Nat} {m : List (Nat × Bool × Option Nat)}
    (h : Pos a) (hn : Nst a) (hm0 : a.mapCtl = (s, isIf, e) :: m) (hc : b.code = a.code ++ [.fin src dst]) (hm : b.mapCtl = m)
    (he : b.ends = (s, a.code.length + 1) :: a.ends)
    (hl : b.elses = if isIf then (s, e.getD (a.code.length + 1)) :: a.elses else a.elses) : Pos b := by
  obtain ⟨_, _, _, k4, _⟩ := hn.keep hc
  obtain ⟨t1, l, rest, t2, t3⟩ := hn.top hm0
  obtain ⟨hs1, hs2, hs3⟩ := h.mctl (s, isIf, e) (by rw [hm0]; simp)
  have old : ∀ k q, DivAt b.code k q → DivAt a.code k q := by
    intro k q hd
    rw [hc] at hd
    rcases hd.of_append with h1 | ⟨_, ⟨t, h1⟩, _⟩
    · exact h1
    · cases h1
  have hlook : ∀ k, k ≠ s → lookup b.ends k = lookup a.ends k := by
    intro k hk; rw [he, lookup_cons, if_neg hk]
  have hnew : EndAt b.code s a.code.length := by
    rw [hc]
    exact ⟨⟨src, dst, by simp⟩, by rw [opens_append (Nat.le_refl _), t2]; rfl⟩
  have olde : ∀ x ∈ a.elses, (∃ q, x.2 = q + 1 ∧ DivAt b.code x.1 q) ∨
      (lookup b.ends x.1 = some x.2 ∧ ∀ q, ¬ DivAt b.code x.1 q) := by
    intro x hx
    rcases h.elses x hx with ⟨q, h1, h2⟩ | ⟨h1, h2⟩
    · exact .inl ⟨q, h1, by rw [hc]; exact h2.append⟩
    · refine .inr ⟨?_, fun q hd => h2 q (old _ _ hd)⟩
      rw [hlook]
      · exact h1
      · intro hk
        have := (hn.elses x hx).2.2.1
        rw [hk, hm0] at this
        simp at this
  refine ⟨fun x hx => ?_, fun x hx => ?_, fun x hx => ?_, fun k c e' hh hs => ?_, fun q t hq => ?_, fun k q hd => ?_⟩
  · rw [he] at hx
    rcases List.mem_cons.1 hx with rfl | hx
    · exact ⟨_, rfl, hnew⟩
    · obtain ⟨e, h1, h2⟩ := h.ends x hx
      exact ⟨e, h1, by rw [hc]; exact h2.append⟩
  · rw [hl] at hx
    split at hx
    · rcases List.mem_cons.1 hx with rfl | hx
      · cases e with
        | none =>
          refine .inr ⟨by rw [he, lookup_cons]; simp, fun q hd => hs2 rfl q (old _ _ hd)⟩
        | some e =>
          obtain ⟨q, h1, h2⟩ := hs1 e rfl
          exact .inl ⟨q, h1, by rw [hc]; exact h2.append⟩
      · exact olde x hx
    · exact olde x hx
  · rw [hm] at hx
    have hx' : x ∈ a.mapCtl := by rw [hm0]; exact List.mem_cons_of_mem _ hx
    obtain ⟨h1, h2, h3⟩ := h.mctl x hx'
    refine ⟨fun e he => ?_, fun e q hd => h2 e q (old _ _ hd), ?_⟩
    · obtain ⟨q, hq, hd⟩ := h1 e he
      exact ⟨q, hq, by rw [hc]; exact hd.append⟩
    · rw [h3, hc, List.getElem?_append_left (k4 x hx')]
  · rw [hc] at hs
    rcases get_append hs with h1 | ⟨_, h1⟩
    · rcases h.ifs k c e' hh h1 with h2 | h2
      · rw [hm0] at h2
        simp only [List.map_cons, List.mem_cons] at h2
        rcases h2 with rfl | h2
        · have : isIf = true := hs3.2 ⟨c, e', hh, h1⟩
          subst this
          rw [hl]; exact .inr (by simp)
        · exact .inl (by rw [hm]; exact h2)
      · refine .inr ?_
        rw [hl]
        split
        · exact List.mem_cons_of_mem _ h2
        · exact h2
    · cases h1
  · rw [hc] at hq
    rcases get_append hq with h1 | ⟨_, h1⟩
    · obtain ⟨s, hs⟩ := h.jumps q t h1
      exact ⟨s, by rw [hc]; exact hs.append⟩
    · cases h1
  · obtain ⟨c, e, hh, h1⟩ := h.ites k q (old _ _ hd)
    exact ⟨c, e, hh, by rw [hc]; exact get_old h1⟩

theorem Pos.compOp {K : FnCtx} {st st' : CS} {o : WOp} {rest rest' : List WOp} (h : Pos st) (hn : Nst st)
    (hc : Model.compOp K st o rest = some (st', rest')) : Pos st' := by
  by_cases hb : isBracket o = false
  · obtain ⟨⟨_, _, h3, h4, h5⟩, hcode, _, _⟩ := compOp_plain hb hc
    rcases hcode with hcode | ⟨i, hi, hcode⟩
    · exact h.ctl hcode h3 h4 h5
    · exact h.plain hn (by rintro t rfl; simp [isSimple] at hi) hcode (.inl h3) (by rintro ⟨_, _, _, rfl⟩; simp [isSimple] at hi) h4 h5
  · cases o <;> simp only [isBracket, not_true_eq_false, Bool.true_eq_false, not_false_eq_true] at hb
    case block bt =>
      have := compOp_block (isL := false) hc
      subst this
      exact h.plain hn (i := .block false) (by intro t ht; cases ht) rfl (.inr ⟨false, rfl, by simp⟩) (by rintro ⟨_, _, _, hh⟩; cases hh) rfl rfl
    case loop bt =>
      have := compOp_block (isL := true) hc
      subst this
      exact h.plain hn (i := .block true) (by intro t ht; cases ht) rfl (.inr ⟨false, rfl, by simp⟩) (by rintro ⟨_, _, _, hh⟩; cases hh) rfl rfl
    case ite bt =>
      have := compOp_ite hc
      subst this
      refine h.plain hn (i := .ite _ 0 false) (by intro t ht; cases ht) rfl (.inr ⟨true, rfl, ?_⟩) (fun _ => ?_) rfl rfl
      · simp
      · intro hh
        have := congrArg List.length hh
        simp [CS.emit] at this
    case els =>
      have hc' := hc
      simp only [Model.compOp] at hc'
      split at hc'
      · rename_i s m hm
        have := compOp_els' hm hc
        subst this
        exact h.els hn hm rfl rfl rfl rfl
      · cases hc'
    case fin =>
      cases hm : st.mapCtl with
      | cons x m =>
        obtain ⟨s, isIf, e⟩ := x
        have := compOp_fin' hm hc
        subst this
        exact h.closed hn hm rfl rfl rfl rfl
      | nil =>
        simp only [Model.compOp, Option.map_eq_some_iff] at hc
        obtain ⟨x, hx, he⟩ := hc
        cases he
        have hm' : (compEnd K st).mapCtl = [] := hm
        simp only [closeMaps, hm'] at hx
        split at hx
        · cases hx
          exact h.plain hn (i := .fin _ _) (by intro t ht; cases ht) rfl (.inl rfl) (by rintro ⟨_, _, _, hh⟩; cases hh) rfl rfl
        · cases hx

theorem Pos.compRun {K : FnCtx} : ∀ {n : Nat} {st fin : CS} {ops : List WOp}, Pos st → Nst st → Model.compRun K n st ops = some fin →
    Pos fin
  | n, st, fin, [], h, hn, hr => by
    cases n <;>
    · simp only [Model.compRun] at hr
      split at hr
      · cases hr; exact h
      · cases hr
  | 0, st, fin, _ :: _, h, hn, hr => by simp [Model.compRun] at hr
  | n + 1, st, fin, op :: rest, h, hn, hr => by
    simp only [Model.compRun] at hr
    split at hr
    · cases hr
    · rename_i st' rest' hs
      unfold compStep at hs
      split at hs
      · exact Pos.compRun (n := n) (h.compOp hn hs) (hn.compOp hs) hr
      · split at hs
        · cases hs
          refine Pos.compRun (n := n) ?_ ?_ hr
          · exact h.plain hn (i := .nop) (by intro t ht; cases ht) rfl (.inl rfl) (by rintro ⟨_, _, _, hh⟩; cases hh) rfl rfl
          · exact hn.simple (i := .nop) rfl rfl rfl rfl rfl
        · have hn' : Nst { st with dead := 0 } := hn.ctl rfl rfl rfl rfl
          have h' : Pos { st with dead := 0 } := h.ctl rfl rfl rfl rfl
          exact Pos.compRun (n := n) (h'.compOp hn' hs) (hn'.compOp hs) hr

/-! ## the patched body -/

theorem scan_patched {ends elses : List (Nat × Nat)} {len : Nat} {stk : List (Nat × Bool)} {i j : Instr}
    (h : patch ends elses len stk i = some j) (st : List (Nat × Bool)) (pc : Nat) : scanStep st pc j = scanStep st pc i := by
  cases i <;> simp only [patch, Option.map_eq_some_iff, Option.some.injEq] at h
  case br => obtain ⟨_, _, rfl⟩ := h; rfl
  case brIf => obtain ⟨_, _, rfl⟩ := h; rfl
  case brTable => subst h; rfl
  case ite =>
    split at h
    · cases h; rfl
    · simp only [Option.map_eq_some_iff] at h
      obtain ⟨_, _, rfl⟩ := h; rfl
  case jump =>
    split at h
    · cases h; rfl
    · simp only [Option.map_eq_some_iff] at h
      obtain ⟨_, _, rfl⟩ := h; rfl
  all_goals (subst h; rfl)

theorem opens_patched {ends elses : List (Nat × Nat)} {len : Nat} {code body : List Instr}
    (h : patchFrom ends elses len 0 [] code = some body) : ∀ p, p ≤ code.length → opens body p = opens code p
  | 0, _ => by simp [opens, scanL]
  | p + 1, hp => by
    obtain ⟨j, hj, hpa⟩ := (patchFrom_get h).2 p _ (List.getElem?_eq_getElem (show p < code.length by omega))
    rw [opens_succ hj, opens_succ (List.getElem?_eq_getElem (show p < code.length by omega)), opens_patched h p (by omega),
      scan_patched hpa]

/-- the instruction before patching -/
theorem unpatched {ends elses : List (Nat × Nat)} {len : Nat} {code body : List Instr}
    (h : patchFrom ends elses len 0 [] code = some body) {p : Nat} {j : Instr} (hj : body[p]? = some j) :
    ∃ i, code[p]? = some i ∧ patch ends elses len (scanStep (opens code p) p i) i = some j := by
  obtain ⟨hl, hg⟩ := patchFrom_get h
  have hlt : p < code.length := by have := (List.getElem?_eq_some_iff.1 hj).1; omega
  obtain ⟨j', hj', hpa⟩ := hg p _ (List.getElem?_eq_getElem hlt)
  rw [hj] at hj'
  cases hj'
  exact ⟨_, List.getElem?_eq_getElem hlt, by simpa [opens] using hpa⟩

/-- patching keeps the kind of an instruction -/
theorem patch_kind {ends elses : List (Nat × Nat)} {len : Nat} {stk : List (Nat × Bool)} {i j : Instr}
    (h : patch ends elses len stk i = some j) :
    ((∃ t, i = .jump t) ↔ ∃ t, j = .jump t) ∧ (∀ a b, i = .fin a b ↔ j = .fin a b) ∧ (∀ l, i = .block l ↔ j = .block l) := by
  cases i <;> simp only [patch, Option.map_eq_some_iff, Option.some.injEq] at h
  case br => obtain ⟨_, _, rfl⟩ := h; simp
  case brIf => obtain ⟨_, _, rfl⟩ := h; simp
  case brTable => subst h; simp
  case ite =>
    split at h
    · cases h; simp
    · simp only [Option.map_eq_some_iff] at h
      obtain ⟨_, _, rfl⟩ := h; simp
  case jump =>
    split at h
    · cases h; simp
    · simp only [Option.map_eq_some_iff] at h
      obtain ⟨_, _, rfl⟩ := h; simp
  all_goals (subst h; simp)

theorem routed {fin : CS} {body : List Instr} (hn : Nst fin) (hm : fin.mapCtl = []) (hpos : Pos fin)
    (hp : patchFrom fin.ends fin.elses fin.code.length 0 [] fin.code = some body) : Routed body := by
  obtain ⟨hl, hg⟩ := patchFrom_get hp
  have ho := opens_patched hp
  have henc : ∀ p, p ≤ fin.code.length → enclosing body p = (opens fin.code p).map (·.1) := by
    intro p hp'
    rw [← opens_enclosing body p (by omega), ho p hp']
  have hend : ∀ s e, EndAt fin.code s e → Closes body s e := by
    rintro s e ⟨⟨a, b, h1⟩, h2⟩
    have hlt := (List.getElem?_eq_some_iff.1 h1).1
    obtain ⟨j, hj, hpa⟩ := hg e _ h1
    refine ⟨⟨a, b, ?_⟩, ?_⟩
    · rw [hj, ((patch_kind hpa).2.1 a b).1 rfl]
    · rw [henc e (Nat.le_of_lt hlt), List.head?_map]; exact h2
  have hdiv : ∀ s q, DivAt fin.code s q → Divides body s q := by
    rintro s q ⟨⟨t, h1⟩, h2⟩
    have hlt := (List.getElem?_eq_some_iff.1 h1).1
    obtain ⟨j, hj, hpa⟩ := hg q _ h1
    obtain ⟨t', ht'⟩ := (patch_kind hpa).1.1 ⟨t, rfl⟩
    exact ⟨⟨t', by rw [hj, ht']⟩, by rw [henc q (Nat.le_of_lt hlt), List.head?_map, h2]; rfl⟩
  have hdiv' : ∀ s q, Divides body s q → DivAt fin.code s q := by
    rintro s q ⟨⟨t, h1⟩, h2⟩
    obtain ⟨i, hi, hpa⟩ := unpatched hp h1
    have hlt := (List.getElem?_eq_some_iff.1 hi).1
    obtain ⟨t', rfl⟩ := (patch_kind hpa).1.2 ⟨t, rfl⟩
    obtain ⟨s', h3⟩ := hpos.jumps q t' hi
    rw [henc q (Nat.le_of_lt hlt), List.head?_map, h3.2] at h2
    cases h2
    exact h3
  have hblk : ∀ p (x : Nat × Bool), p ≤ fin.code.length → x ∈ opens fin.code p → (x.2 = true ↔ body[x.1]? = some (.block true)) := by
    intro p x hp' hx
    rw [← ho p hp'] at hx
    rcases opens_flag body p (by omega) x hx with ⟨_, _, _, h1, h2⟩ | h2
    · rw [h1, h2]; simp
    · rw [h2]; simp
  have htar : ∀ p d t (x : Nat × Bool), p ≤ fin.code.length → (opens fin.code p)[d]? = some x → blockTarget fin.ends x = some t →
      Leads body p d t := by
    intro p d t x hp' hx ht
    have hb := hblk p x hp' (List.mem_of_getElem? hx)
    unfold Leads
    rw [henc p hp', List.getElem?_map, hx]
    simp only [Option.map_some]
    unfold blockTarget at ht
    split at ht
    · rename_i hh; cases ht; exact .inl ⟨hb.1 hh, rfl⟩
    · rename_i hh
      refine .inr ⟨fun h => hh (hb.2 h), ?_⟩
      obtain ⟨e, h1, h2⟩ := hpos.ends _ (lookup_mem ht)
      exact ⟨e, hend _ _ h2, h1⟩
  have htar2 : ∀ p d t, p ≤ fin.code.length → Model.target2 fin.ends fin.code.length (opens fin.code p) d = some t →
      Leads body p d t := by
    intro p d t hp' ht
    unfold Model.target2 at ht
    split at ht
    · rename_i hx
      cases ht
      unfold Leads
      rw [henc p hp', List.getElem?_map, hx]
      exact hl.symm
    · rename_i x hx
      exact htar p d t x hp' hx ht
  refine ⟨?_, ?_, ?_, ?_, ?_, ?_⟩
  · rw [hl, henc _ (Nat.le_refl _), ← hn.maps, hm]; rfl
  · intro p d t s r hj
    obtain ⟨i, hi, hpa⟩ := unpatched hp hj
    have hlt := (List.getElem?_eq_some_iff.1 hi).1
    cases i <;> simp only [patch, Option.map_eq_some_iff, Option.some.injEq, reduceCtorEq, and_false, exists_false] at hpa
    case br =>
      obtain ⟨x, hx, he⟩ := hpa
      cases he
      exact htar2 _ _ _ (Nat.le_of_lt hlt) hx
    all_goals
      split at hpa
      · cases hpa
      · simp only [Option.map_eq_some_iff, reduceCtorEq, and_false, exists_false] at hpa
  · intro p d t c s r hj
    obtain ⟨i, hi, hpa⟩ := unpatched hp hj
    have hlt := (List.getElem?_eq_some_iff.1 hi).1
    cases i <;> simp only [patch, Option.map_eq_some_iff, Option.some.injEq, reduceCtorEq, and_false, exists_false] at hpa
    case brIf =>
      obtain ⟨x, hx, he⟩ := hpa
      cases he
      exact htar2 _ _ _ (Nat.le_of_lt hlt) hx
    all_goals
      split at hpa
      · cases hpa
      · simp only [Option.map_eq_some_iff, reduceCtorEq, and_false, exists_false] at hpa
  · intro p ts df i0 s hj
    obtain ⟨i, hi, hpa⟩ := unpatched hp hj
    have hlt := (List.getElem?_eq_some_iff.1 hi).1
    have key : ∀ d, if d < (enclosing body p).length then Leads body p d (target3 fin.ends (opens fin.code p) d)
        else target3 fin.ends (opens fin.code p) d = 0 := by
      intro d
      rw [henc p (Nat.le_of_lt hlt), List.length_map]
      split
      · rename_i hd
        have hx := List.getElem?_eq_getElem hd
        obtain ⟨t, h1, _, _⟩ := hn.target hm (Nat.le_of_lt hlt) hx
        have : target3 fin.ends (opens fin.code p) d = t := by
          unfold target3; rw [hx]; simp only [h1, Option.getD_some]
        rw [this]
        exact htar p d t _ (Nat.le_of_lt hlt) hx h1
      · rename_i hd
        unfold target3
        rw [List.getElem?_eq_none (by omega)]
    cases i <;> simp only [patch, Option.map_eq_some_iff, Option.some.injEq, reduceCtorEq, and_false, exists_false] at hpa
    case brTable ts0 df0 i1 s1 =>
      cases hpa
      intro x hx
      simp only [List.mem_cons, List.mem_map] at hx
      rcases hx with rfl | ⟨y, _, rfl⟩
      · exact key _
      · exact key _
    all_goals
      split at hpa
      · cases hpa
      · simp only [Option.map_eq_some_iff, reduceCtorEq, and_false, exists_false] at hpa
  · intro p c t h hj
    obtain ⟨i, hi, hpa⟩ := unpatched hp hj
    have hlt := (List.getElem?_eq_some_iff.1 hi).1
    cases i <;> simp only [patch, Option.map_eq_some_iff, Option.some.injEq, reduceCtorEq, and_false, exists_false] at hpa
    case ite c0 e0 h0 =>
      simp only [scanStep, List.getElem?_cons_zero, Option.map_eq_some_iff] at hpa
      obtain ⟨x, hx, he⟩ := hpa
      cases he
      have hx' : lookup fin.ends p = some x := hx
      obtain ⟨e, h1, h2⟩ := hpos.ends _ (lookup_mem hx')
      simp only at h1 h2
      refine ⟨e, hend _ _ h2, ?_⟩
      obtain ⟨y, hy⟩ : ∃ y, lookup fin.elses p = some y := by
        rcases hpos.ifs p _ _ _ hi with h3 | h3
        · rw [hm] at h3; cases h3
        · exact lookup_of_mem h3
      rw [hy]
      simp only [Option.getD_some]
      rcases hpos.elses _ (lookup_mem hy) with ⟨q, h3, h4⟩ | ⟨h3, h4⟩
      · simp only at h3 h4
        refine .inl ⟨q, hdiv _ _ h4, h3, ?_⟩
        have : q ≠ e := by
          rintro rfl
          obtain ⟨⟨_, _, g1⟩, _⟩ := h2
          obtain ⟨⟨_, g2⟩, _⟩ := h4
          rw [g1] at g2; cases g2
        simp only [ne_eq, decide_eq_true_eq]
        omega
      · simp only at h3 h4
        rw [hx'] at h3
        cases h3
        exact .inr ⟨fun q hq => h4 q (hdiv' _ _ hq), h1, by simp⟩
    all_goals
      split at hpa
      · cases hpa
      · simp only [Option.map_eq_some_iff, reduceCtorEq, and_false, exists_false] at hpa
  · intro q t hj
    obtain ⟨i, hi, hpa⟩ := unpatched hp hj
    have hlt := (List.getElem?_eq_some_iff.1 hi).1
    cases i <;> simp only [patch, Option.map_eq_some_iff, Option.some.injEq, reduceCtorEq, and_false, exists_false] at hpa
    case jump e0 =>
      obtain ⟨s, h1⟩ := hpos.jumps q e0 hi
      have h2 := h1.2
      rw [List.head?_eq_getElem?] at h2
      simp only [scanStep, h2, Option.map_eq_some_iff] at hpa
      obtain ⟨x, hx, he⟩ := hpa
      cases he
      have hx' : lookup fin.ends s = some t := hx
      obtain ⟨e, h3, h4⟩ := hpos.ends _ (lookup_mem hx')
      exact ⟨s, e, hdiv _ _ h1, hend _ _ h4, h3⟩
    all_goals
      split at hpa
      · cases hpa
      · simp only [Option.map_eq_some_iff, reduceCtorEq, and_false, exists_false] at hpa

theorem compile_routed {K : FnCtx} {ops : List WOp} {code : Code} (h : compileFn K ops = some code) : Routed code.body := by
  unfold compileFn at h
  split at h
  · cases h
  · rename_i fin hrun
    split at h
    · cases h
    · rename_i body hpat
      cases h
      obtain ⟨hn, hm⟩ := Nst.compRun (Nst.init K) hrun
      exact routed hn hm (Pos.compRun (Pos.init K) (Nst.init K) hrun) hpat

end Verif.Lemmas
