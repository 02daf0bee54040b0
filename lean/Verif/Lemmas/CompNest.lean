import Verif.Lemmas.CompLev
import Verif.Props.QuietRun
import Verif.Props.Nested
/-
Every body the preprocessor produces, from whatever operators, jumps only inside itself and is well nested.
-/
namespace Verif.Lemmas
open Verif.Model Verif.Spec Verif.Props

/-- open brackets before position `p` -/
def opens (code : List Instr) (p : Nat) : List (Nat × Bool) := scanL 0 [] (code.take p)

/-- number of open brackets before position `p` -/
def lev (code : List Instr) (p : Nat) : Nat := (opens code p).length

theorem opens_append {code is : List Instr} {p : Nat} (h : p ≤ code.length) : opens (code ++ is) p = opens code p := by
  simp only [opens, List.take_append_of_le_length h]

theorem lev_append {code is : List Instr} {p : Nat} (h : p ≤ code.length) : lev (code ++ is) p = lev code p := by
  simp only [lev, opens_append h]

theorem opens_len (code : List Instr) : opens code code.length = scanL 0 [] code := by simp [opens]

theorem opens_succ {code : List Instr} {p : Nat} {i : Instr} (h : code[p]? = some i) :
    opens code (p + 1) = scanStep (opens code p) p i := by
  have hp : p < code.length := (List.getElem?_eq_some_iff.1 h).1
  have : code.take (p + 1) = code.take p ++ [i] := by
    rw [List.take_add_one, h]; rfl
  simp only [opens, this, scanL_append, scanL, List.length_take, Nat.min_eq_left (Nat.le_of_lt hp), Nat.zero_add]

/-- where the open brackets start -/
theorem opens_get (code : List Instr) : ∀ p, p ≤ code.length → ∀ (d : Nat) (x : Nat × Bool), (opens code p)[d]? = some x →
    x.1 < p ∧ lev code x.1 + 1 + d = lev code p
  | 0, _, d, x, h => by simp [opens, scanL] at h
  | p + 1, hp, d, x, h => by
    have hi : code[p]? = some code[p] := List.getElem?_eq_getElem (by omega)
    have hs := opens_succ hi
    have ih := opens_get code p (by omega)
    have hl : lev code (p + 1) = (scanStep (opens code p) p code[p]).length := by rw [lev, hs]
    rw [hs] at h
    rw [hl]
    have push : ∀ b, scanStep (opens code p) p code[p] = (p, b) :: opens code p →
        x.1 < p + 1 ∧ lev code x.1 + 1 + d = (scanStep (opens code p) p code[p]).length := by
      intro b hb
      rw [hb] at h ⊢
      cases d with
      | zero =>
        simp only [List.getElem?_cons_zero, Option.some.injEq] at h
        subst h
        exact ⟨by simp, by simp [lev]⟩
      | succ d =>
        simp only [List.getElem?_cons_succ] at h
        have := ih d x h
        refine ⟨by omega, ?_⟩
        simp only [List.length_cons]
        have h2 := this.2
        simp only [lev] at h2 ⊢
        omega
    have same : scanStep (opens code p) p code[p] = opens code p →
        x.1 < p + 1 ∧ lev code x.1 + 1 + d = (scanStep (opens code p) p code[p]).length := by
      intro hb
      rw [hb] at h ⊢
      have := ih d x h
      exact ⟨by omega, this.2⟩
    cases hc : code[p] with
    | block b => exact hc ▸ push b (by rw [hc]; rfl)
    | ite a b c => exact hc ▸ push false (by rw [hc]; rfl)
    | fin s t =>
      rw [hc] at h
      simp only [scanStep] at h ⊢
      rw [List.getElem?_tail] at h
      have := ih (d + 1) x h
      have h2 := this.2
      have hlt : d + 1 < (opens code p).length := (List.getElem?_eq_some_iff.1 h).1
      refine ⟨by omega, ?_⟩
      simp only [List.length_tail]
      simp only [lev] at h2 ⊢
      omega
    | _ => exact hc ▸ same (by rw [hc]; rfl)

/-- what phase 1 knows about brackets, whatever operators it has been given -/
structure Nst (st : CS) : Prop where
  maps : st.mapCtl.map (·.1) = (opens st.code st.code.length).map (·.1)
  ends : ∀ x ∈ st.ends, x.2 ≤ st.code.length ∧ x.1 < st.code.length ∧ lev st.code x.2 = lev st.code x.1 ∧
    x.1 ∉ st.mapCtl.map (·.1)
  elses : ∀ x ∈ st.elses, x.2 ≤ st.code.length ∧ x.1 < st.code.length ∧ x.1 ∉ st.mapCtl.map (·.1) ∧
    (lev st.code x.2 = lev st.code x.1 + 1 ∨ lookup st.ends x.1 = some x.2)
  mctl : ∀ x ∈ st.mapCtl, ∀ e, x.2.2 = some e → e ≤ st.code.length ∧ lev st.code e = lev st.code x.1 + 1
  starts : ∀ p, p ≤ st.code.length → ∀ x ∈ opens st.code p, x.1 ∈ st.mapCtl.map (·.1) ∨ x.1 ∈ st.ends.map (·.1)
  jumps : ∀ p e, st.code[p]? = some (.jump e) → 0 < lev st.code p

theorem Nst.init (K : FnCtx) : Nst (CS.init K) := by
  refine ⟨rfl, by simp [CS.init], by simp [CS.init], by simp [CS.init], ?_, by simp [CS.init]⟩
  intro p hp x hx
  simp [CS.init, opens, scanL] at hx

theorem opens_snoc (code : List Instr) (i : Instr) :
    opens (code ++ [i]) (code ++ [i]).length = scanStep (opens code code.length) code.length i := by
  rw [List.length_append, List.length_singleton, opens_succ (i := i) (by simp), opens_append (Nat.le_refl _)]

/-- the state after one more instruction; the maps are still to be updated -/
theorem Nst.keep {a b : CS} {i : Instr} (h : Nst a) (hc : b.code = a.code ++ [i]) :
    (∀ x ∈ a.ends, x.2 ≤ b.code.length ∧ x.1 < b.code.length ∧ lev b.code x.2 = lev b.code x.1) ∧
    (∀ x ∈ a.elses, x.2 ≤ b.code.length ∧ x.1 < b.code.length ∧
      (lev b.code x.2 = lev b.code x.1 + 1 ∨ lookup a.ends x.1 = some x.2)) ∧
    (∀ x ∈ a.mapCtl, ∀ e, x.2.2 = some e → e ≤ b.code.length ∧ lev b.code e = lev b.code x.1 + 1) ∧
    (∀ x ∈ a.mapCtl, x.1 < a.code.length) ∧
    (∀ p, p ≤ a.code.length → opens b.code p = opens a.code p) := by
  have hmem : ∀ x ∈ a.mapCtl, x.1 < a.code.length := by
    intro x hx
    have : x.1 ∈ a.mapCtl.map (·.1) := List.mem_map_of_mem hx
    rw [h.maps, List.mem_map] at this
    obtain ⟨y, hy, he⟩ := this
    obtain ⟨d, hd⟩ := List.getElem?_of_mem hy
    have := opens_get a.code _ (Nat.le_refl _) d y hd
    omega
  rw [hc]
  simp only [List.length_append, List.length_singleton]
  refine ⟨fun x hx => ?_, fun x hx => ?_, fun x hx e he => ?_, hmem, fun p hp => opens_append hp⟩
  · obtain ⟨h1, h2, h3, _⟩ := h.ends x hx
    rw [lev_append h1, lev_append (Nat.le_of_lt h2)]
    exact ⟨by omega, by omega, h3⟩
  · obtain ⟨h1, h2, _, h3⟩ := h.elses x hx
    rw [lev_append h1, lev_append (Nat.le_of_lt h2)]
    exact ⟨by omega, by omega, h3⟩
  · obtain ⟨h1, h2⟩ := h.mctl x hx e he
    have := hmem x hx
    rw [lev_append h1, lev_append (Nat.le_of_lt this)]
    exact ⟨by omega, h2⟩

theorem opens_all {code : List Instr} {i : Instr} {P : Nat → Prop}
    (h1 : ∀ p, p ≤ code.length → ∀ x ∈ opens code p, P x.1)
    (h2 : ∀ x ∈ scanStep (opens code code.length) code.length i, P x.1) :
    ∀ p, p ≤ (code ++ [i]).length → ∀ x ∈ opens (code ++ [i]) p, P x.1 := by
  intro p hp x hx
  by_cases hp' : p ≤ code.length
  · rw [opens_append hp'] at hx; exact h1 p hp' x hx
  · have : p = (code ++ [i]).length := by simp at hp ⊢; omega
    subst this
    rw [opens_snoc] at hx
    exact h2 x hx

theorem jumps_all {code : List Instr} {i : Instr} (h1 : ∀ p e, code[p]? = some (.jump e) → 0 < lev code p)
    (h2 : ∀ e, i = .jump e → 0 < lev code code.length) :
    ∀ p e, (code ++ [i])[p]? = some (.jump e) → 0 < lev (code ++ [i]) p := by
  intro p e hp
  rcases Nat.lt_trichotomy p code.length with hlt | rfl | hgt
  · rw [List.getElem?_append_left hlt] at hp
    rw [lev_append (Nat.le_of_lt hlt)]
    exact h1 p e hp
  · simp only [List.getElem?_concat_length, Option.some.injEq] at hp
    rw [lev_append (Nat.le_refl _)]
    exact h2 e hp
  · rw [List.getElem?_eq_none (by simp; omega)] at hp
    cases hp

/-- an instruction that is neither a bracket nor an `else` -/
theorem Nst.simple {a b : CS} {i : Instr} (h : Nst a) (hi : isSimple i = true) (hc : b.code = a.code ++ [i])
    (hm : b.mapCtl = a.mapCtl) (he : b.ends = a.ends) (hl : b.elses = a.elses) : Nst b := by
  obtain ⟨k1, k2, k3, k4, k5⟩ := h.keep hc
  have hscan := scanStep_flat (isFlat_of hi) (opens a.code a.code.length) a.code.length
  refine ⟨?_, fun x hx => ?_, fun x hx => ?_, fun x hx => k3 x (hm ▸ hx), ?_, ?_⟩
  · rw [hm, hc, opens_snoc, hscan]; exact h.maps
  · rw [he] at hx; rw [hm]
    obtain ⟨h1, h2, h3⟩ := k1 x hx
    exact ⟨h1, h2, h3, (h.ends x hx).2.2.2⟩
  · rw [hl] at hx; rw [hm, he]
    obtain ⟨h1, h2, h3⟩ := k2 x hx
    exact ⟨h1, h2, (h.elses x hx).2.2.1, h3⟩
  · rw [hm, he, hc]
    exact opens_all (P := fun k => k ∈ a.mapCtl.map (·.1) ∨ k ∈ a.ends.map (·.1)) h.starts (by rw [hscan]; exact h.starts _ (Nat.le_refl _))
  · rw [hc]
    exact jumps_all h.jumps (fun e hj => by subst hj; simp [isSimple] at hi)

/-- a bracket is opened -/
theorem Nst.opened {a b : CS} {i : Instr} {l isIf : Bool} (h : Nst a)
    (hi : ∀ stk pc, scanStep stk pc i = (pc, l) :: stk) (hnj : ∀ e, i ≠ .jump e) (hc : b.code = a.code ++ [i])
    (hm : b.mapCtl = (a.code.length, isIf, none) :: a.mapCtl) (he : b.ends = a.ends) (hl : b.elses = a.elses) : Nst b := by
  obtain ⟨k1, k2, k3, k4, k5⟩ := h.keep hc
  refine ⟨?_, fun x hx => ?_, fun x hx => ?_, fun x hx e he => ?_, ?_, ?_⟩
  · rw [hm, hc, opens_snoc, hi]; simp [h.maps]
  · rw [he] at hx; rw [hm]
    obtain ⟨h1, h2, h3⟩ := k1 x hx
    obtain ⟨_, g2, _, g4⟩ := h.ends x hx
    refine ⟨h1, h2, h3, ?_⟩
    simp only [List.map_cons, List.mem_cons, not_or]
    exact ⟨by omega, g4⟩
  · rw [hl] at hx; rw [hm, he]
    obtain ⟨h1, h2, h3⟩ := k2 x hx
    obtain ⟨_, g2, g3, _⟩ := h.elses x hx
    refine ⟨h1, h2, ?_, h3⟩
    simp only [List.map_cons, List.mem_cons, not_or]
    exact ⟨by omega, g3⟩
  · rw [hm] at hx
    rcases List.mem_cons.1 hx with rfl | hx
    · cases he
    · exact k3 x hx e he
  · rw [hm, he, hc]
    refine opens_all (P := fun k => k ∈ ((a.code.length, isIf, none) :: a.mapCtl).map (·.1) ∨ k ∈ a.ends.map (·.1))
      (fun p hp x hx => ?_) (fun x hx => ?_)
    · rcases h.starts p hp x hx with h1 | h1
      · exact Or.inl (by simp only [List.map_cons, List.mem_cons]; exact Or.inr h1)
      · exact Or.inr h1
    · rw [hi] at hx
      rcases List.mem_cons.1 hx with rfl | hx
      · exact Or.inl (by simp)
      · rcases h.starts _ (Nat.le_refl _) x hx with h1 | h1
        · exact Or.inl (by simp only [List.map_cons, List.mem_cons]; exact Or.inr h1)
        · exact Or.inr h1
  · rw [hc]
    exact jumps_all h.jumps (fun e hj => absurd hj (hnj e))

/-- the start of the innermost open bracket -/
theorem Nst.top {a : CS} (h : Nst a) {s : Nat} {y : Bool × Option Nat} {m : List (Nat × Bool × Option Nat)}
    (hm : a.mapCtl = (s, y) :: m) : lev a.code s + 1 = lev a.code a.code.length ∧
      ∃ l rest, opens a.code a.code.length = (s, l) :: rest ∧ m.map (·.1) = rest.map (·.1) := by
  have := h.maps
  rw [hm] at this
  cases ho : opens a.code a.code.length with
  | nil => rw [ho] at this; simp at this
  | cons x rest =>
    rw [ho] at this
    simp only [List.map_cons, List.cons.injEq] at this
    obtain ⟨xs, xl⟩ := x
    simp only at this
    obtain ⟨rfl, h2⟩ := this
    exact ⟨by simpa using (opens_get a.code _ (Nat.le_refl _) 0 (s, xl) (by rw [ho]; rfl)).2, xl, rest, rfl, h2⟩

/-- the starts of open brackets are different -/
theorem Nst.fresh {a : CS} (h : Nst a) {s : Nat} {y : Bool × Option Nat} {m : List (Nat × Bool × Option Nat)}
    (hm : a.mapCtl = (s, y) :: m) : s ∉ m.map (·.1) := by
  obtain ⟨h1, l, rest, h2, h3⟩ := h.top hm
  rw [h3]
  intro hs
  rw [List.mem_map] at hs
  obtain ⟨x, hx, he⟩ := hs
  obtain ⟨d, hd⟩ := List.getElem?_of_mem hx
  have := (opens_get a.code _ (Nat.le_refl _) (d + 1) x (by rw [h2]; exact hd)).2
  rw [he] at this
  omega

theorem Nst.els {a b : CS} {s : Nat} {m : List (Nat × Bool × Option Nat)} (h : Nst a) (hm0 : a.mapCtl = (s, true, none) :: m)
    (hc : b.code = a.code ++ [.jump 0]) (hm : b.mapCtl = (s, true, some (a.code.length + 1)) :: m) (he : b.ends = a.ends)
    (hl : b.elses = a.elses) : Nst b := by
  obtain ⟨k1, k2, k3, k4, k5⟩ := h.keep hc
  have hkeys : b.mapCtl.map (·.1) = a.mapCtl.map (·.1) := by rw [hm, hm0]; rfl
  obtain ⟨t1, l, rest, t2, t3⟩ := h.top hm0
  refine ⟨?_, fun x hx => ?_, fun x hx => ?_, fun x hx e he => ?_, ?_, ?_⟩
  · rw [hkeys, hc, opens_snoc]; exact h.maps
  · rw [he] at hx; rw [hkeys]
    obtain ⟨h1, h2, h3⟩ := k1 x hx
    exact ⟨h1, h2, h3, (h.ends x hx).2.2.2⟩
  · rw [hl] at hx; rw [hkeys, he]
    obtain ⟨h1, h2, h3⟩ := k2 x hx
    exact ⟨h1, h2, (h.elses x hx).2.2.1, h3⟩
  · rw [hm] at hx
    rcases List.mem_cons.1 hx with rfl | hx
    · simp only [Option.some.injEq] at he
      subst he
      have hlt : s < a.code.length := k4 (s, true, none) (by rw [hm0]; simp)
      have e1 : (a.code ++ [Instr.jump 0]).length = a.code.length + 1 := by simp
      rw [hc, lev_append (Nat.le_of_lt hlt), ← e1]
      refine ⟨Nat.le_refl _, ?_⟩
      rw [t1, lev, opens_snoc]
      rfl
    · exact k3 x (by rw [hm0]; simp [hx]) e he
  · rw [hkeys, he, hc]
    refine opens_all (code := a.code) (i := .jump 0) (P := fun k => k ∈ a.mapCtl.map (·.1) ∨ k ∈ a.ends.map (·.1)) ?_ ?_
    · exact h.starts
    · exact h.starts _ (Nat.le_refl _)
  · rw [hc]
    exact jumps_all h.jumps (fun e hj => by omega)

theorem Nst.closed {a b : CS} {src dst : List Reg} {s : Nat} {isIf : Bool} {e : Option Nat} {m : List (Nat × Bool × Option Nat)}
    (h : Nst a) (hm0 : a.mapCtl = (s, isIf, e) :: m) (hc : b.code = a.code ++ [.fin src dst]) (hm : b.mapCtl = m)
    (he : b.ends = (s, a.code.length + 1) :: a.ends)
    (hl : b.elses = if isIf then (s, e.getD (a.code.length + 1)) :: a.elses else a.elses) : Nst b := by
  obtain ⟨k1, k2, k3, k4, k5⟩ := h.keep hc
  obtain ⟨t1, l, rest, t2, t3⟩ := h.top hm0
  have hf := h.fresh hm0
  have hlt : s < a.code.length := k4 (s, isIf, e) (by rw [hm0]; simp)
  have e1 : a.code.length + 1 = b.code.length := by rw [hc]; simp
  have hnew : lev b.code b.code.length = lev b.code s := by
    rw [hc, lev_append (Nat.le_of_lt hlt), lev, opens_snoc]
    simp only [scanStep, t2, List.tail_cons]
    have : lev a.code a.code.length = rest.length + 1 := by rw [lev, t2]; rfl
    omega
  have hsub : ∀ x ∈ m, x ∈ a.mapCtl := fun x hx => by rw [hm0]; simp [hx]
  have hkey : ∀ k, k ∈ a.mapCtl.map (·.1) ↔ k = s ∨ k ∈ m.map (·.1) := by intro k; rw [hm0]; simp
  have hlook : ∀ k, k ≠ s → lookup b.ends k = lookup a.ends k := by
    intro k hk; rw [he, lookup_cons, if_neg hk]
  refine ⟨?_, fun x hx => ?_, ?_, fun x hx e' he' => ?_, ?_, ?_⟩
  · rw [hm, hc, opens_snoc, t2]; exact t3
  · rw [he] at hx
    rw [hm]
    rcases List.mem_cons.1 hx with rfl | hx
    · refine ⟨Nat.le_of_eq e1, by simp only; omega, ?_, hf⟩
      simp only [e1]; exact hnew
    · obtain ⟨h1, h2, h3⟩ := k1 x hx
      exact ⟨h1, h2, h3, fun hk => (h.ends x hx).2.2.2 ((hkey _).2 (Or.inr hk))⟩
  · have old : ∀ x ∈ a.elses, x.2 ≤ b.code.length ∧ x.1 < b.code.length ∧ x.1 ∉ b.mapCtl.map (·.1) ∧
        (lev b.code x.2 = lev b.code x.1 + 1 ∨ lookup b.ends x.1 = some x.2) := by
      intro x hx
      obtain ⟨h1, h2, h3⟩ := k2 x hx
      have hn := (h.elses x hx).2.2.1
      rw [hkey, not_or] at hn
      refine ⟨h1, h2, by rw [hm]; exact hn.2, ?_⟩
      rw [hlook _ hn.1]; exact h3
    intro x hx
    rw [hl] at hx
    split at hx
    · rcases List.mem_cons.1 hx with rfl | hx
      · cases e with
        | none =>
          refine ⟨by simp only [Option.getD_none]; omega, by simp only; omega, by rw [hm]; exact hf, Or.inr ?_⟩
          rw [he, lookup_cons]; simp
        | some e =>
          have := k3 (s, isIf, some e) (by rw [hm0]; simp) e rfl
          exact ⟨this.1, by simp only; omega, by rw [hm]; exact hf, Or.inl this.2⟩
      · exact old x hx
    · exact old x hx
  · rw [hm] at hx
    exact k3 x (hsub x hx) e' he'
  · have pr : ∀ k, k ∈ a.mapCtl.map (·.1) ∨ k ∈ a.ends.map (·.1) → k ∈ b.mapCtl.map (·.1) ∨ k ∈ b.ends.map (·.1) := by
      intro k hk
      rw [hm, he, hkey] at *
      rcases hk with (rfl | hk) | hk
      · exact Or.inr (by simp)
      · exact Or.inl hk
      · exact Or.inr (by simp only [List.map_cons, List.mem_cons]; exact Or.inr hk)
    rw [hc]
    refine opens_all (P := fun k => k ∈ b.mapCtl.map (·.1) ∨ k ∈ b.ends.map (·.1)) (fun p hp x hx => pr _ (h.starts p hp x hx)) (fun x hx => pr _ (h.starts _ (Nat.le_refl _) x ?_))
    simp only [scanStep] at hx
    exact List.mem_of_mem_tail hx
  · rw [hc]
    exact jumps_all h.jumps (fun e hj => by cases hj)

/-- the last `end` -/
theorem Nst.last {a b : CS} {src dst : List Reg} (h : Nst a) (hm0 : a.mapCtl = []) (hc : b.code = a.code ++ [.fin src dst])
    (hm : b.mapCtl = []) (he : b.ends = a.ends) (hl : b.elses = a.elses) : Nst b := by
  obtain ⟨k1, k2, k3, k4, k5⟩ := h.keep hc
  have hnil : opens a.code a.code.length = [] := by
    have := h.maps; rw [hm0] at this; simpa using this.symm
  refine ⟨?_, fun x hx => ?_, fun x hx => ?_, fun x hx => absurd hx (by rw [hm]; simp), ?_, ?_⟩
  · rw [hm, hc, opens_snoc, hnil]; rfl
  · rw [he] at hx
    obtain ⟨h1, h2, h3⟩ := k1 x hx
    exact ⟨h1, h2, h3, by rw [hm]; simp⟩
  · rw [hl] at hx; rw [he]
    obtain ⟨h1, h2, h3⟩ := k2 x hx
    exact ⟨h1, h2, by rw [hm]; simp, h3⟩
  · rw [he, hc]
    refine opens_all (P := fun k => k ∈ b.mapCtl.map (·.1) ∨ k ∈ a.ends.map (·.1)) (fun p hp x hx => ?_) ?_
    · rcases h.starts p hp x hx with h1 | h1
      · rw [hm0] at h1; cases h1
      · exact Or.inr h1
    · intro x hx; rw [hnil] at hx; cases hx
  · rw [hc]
    exact jumps_all h.jumps (fun e hj => by cases hj)

theorem Nst.ctl {a b : CS} (h : Nst a) (hc : b.code = a.code) (hm : b.mapCtl = a.mapCtl) (he : b.ends = a.ends)
    (hl : b.elses = a.elses) : Nst b := by
  refine ⟨?_, ?_, ?_, ?_, ?_, ?_⟩
  · rw [hc, hm]; exact h.maps
  · rw [hc, hm, he]; exact h.ends
  · rw [hc, hm, he, hl]; exact h.elses
  · rw [hc, hm]; exact h.mctl
  · rw [hc, hm, he]; exact h.starts
  · rw [hc]; exact h.jumps

theorem Nst.compOp {K : FnCtx} {st st' : CS} {o : WOp} {rest rest' : List WOp} (h : Nst st)
    (hc : Model.compOp K st o rest = some (st', rest')) : Nst st' := by
  by_cases hb : isBracket o = false
  · obtain ⟨⟨_, _, h3, h4, h5⟩, hcode, _, _⟩ := compOp_plain hb hc
    rcases hcode with hcode | ⟨i, hi, hcode⟩
    · exact h.ctl hcode h3 h4 h5
    · exact h.simple hi hcode h3 h4 h5
  · cases o <;> simp only [isBracket, not_true_eq_false, Bool.true_eq_false, not_false_eq_true] at hb
    case block bt =>
      have := compOp_block (isL := false) hc
      subst this
      exact h.opened (i := .block false) (l := false) (isIf := false) (fun _ _ => rfl) (by intro e he; cases he) rfl rfl rfl rfl
    case loop bt =>
      have := compOp_block (isL := true) hc
      subst this
      exact h.opened (i := .block true) (l := true) (isIf := false) (fun _ _ => rfl) (by intro e he; cases he) rfl rfl rfl rfl
    case ite bt =>
      have := compOp_ite hc
      subst this
      exact h.opened (i := .ite _ 0 false) (l := false) (isIf := true) (fun _ _ => rfl) (by intro e he; cases he) rfl rfl rfl rfl
    case els =>
      have hc' := hc
      simp only [Model.compOp] at hc'
      split at hc'
      · rename_i s m hm
        have := compOp_els' hm hc
        subst this
        exact h.els hm rfl rfl rfl rfl
      · cases hc'
    case fin =>
      cases hm : st.mapCtl with
      | cons x m =>
        obtain ⟨s, isIf, e⟩ := x
        have := compOp_fin' hm hc
        subst this
        exact h.closed hm rfl rfl rfl rfl
      | nil =>
        simp only [Model.compOp, Option.map_eq_some_iff] at hc
        obtain ⟨x, hx, he⟩ := hc
        cases he
        have hm' : (compEnd K st).mapCtl = [] := hm
        simp only [closeMaps, hm'] at hx
        split at hx
        · cases hx
          exact h.last hm rfl hm rfl rfl
        · cases hx

theorem Nst.compRun {K : FnCtx} : ∀ {n : Nat} {st fin : CS} {ops : List WOp}, Nst st → Model.compRun K n st ops = some fin →
    Nst fin ∧ fin.mapCtl = []
  | n, st, fin, [], h, hr => by
    cases n <;>
    · simp only [Model.compRun] at hr
      split at hr
      · rename_i he
        cases hr
        exact ⟨h, by simpa using he⟩
      · cases hr
  | 0, st, fin, _ :: _, h, hr => by simp [Model.compRun] at hr
  | n + 1, st, fin, op :: rest, h, hr => by
    simp only [Model.compRun] at hr
    split at hr
    · cases hr
    · rename_i st' rest' hs
      refine Nst.compRun (n := n) ?_ hr
      unfold compStep at hs
      split at hs
      · exact h.compOp hs
      · split at hs
        · cases hs
          exact h.simple (i := .nop) rfl rfl rfl rfl rfl
        · exact Nst.compOp (st := { st with dead := 0 }) (h.ctl rfl rfl rfl rfl) hs

theorem lookup_mem {m : List (Nat × Nat)} {k v : Nat} (h : lookup m k = some v) : (k, v) ∈ m := by
  induction m with
  | nil => simp [lookup] at h
  | cons x m ih =>
    obtain ⟨a, b⟩ := x
    rw [lookup_cons] at h
    split at h
    · rename_i e; cases h; subst e; simp
    · exact List.mem_cons_of_mem _ (ih h)

theorem lookup_of_mem {m : List (Nat × Nat)} {k : Nat} (h : k ∈ m.map (·.1)) : ∃ v, lookup m k = some v := by
  induction m with
  | nil => simp at h
  | cons x m ih =>
    obtain ⟨a, b⟩ := x
    rw [lookup_cons]
    split
    · exact ⟨_, rfl⟩
    · rename_i hne
      simp only [List.map_cons, List.mem_cons] at h
      exact ih (h.resolve_left hne)

/-- where a branch to an open bracket leads -/
theorem Nst.target {fin : CS} (h : Nst fin) (hm : fin.mapCtl = []) {p d : Nat} (hp : p ≤ fin.code.length) {x : Nat × Bool}
    (hx : (opens fin.code p)[d]? = some x) :
    ∃ t, blockTarget fin.ends x = some t ∧ t ≤ fin.code.length ∧ lev fin.code t + 1 + d = lev fin.code p := by
  obtain ⟨h1, h2⟩ := opens_get fin.code p hp d x hx
  unfold blockTarget
  split
  · exact ⟨x.1, rfl, by omega, h2⟩
  · rcases h.starts p hp x (List.mem_of_getElem? hx) with h3 | h3
    · rw [hm] at h3; cases h3
    · obtain ⟨v, hv⟩ := lookup_of_mem h3
      have := h.ends _ (lookup_mem hv)
      exact ⟨v, hv, this.1, by simp only at this; omega⟩

/-- phase 2 targets -/
theorem Nst.target2 {fin : CS} (h : Nst fin) (hm : fin.mapCtl = []) {p d t : Nat} (hp : p ≤ fin.code.length)
    (ht : Model.target2 fin.ends fin.code.length (opens fin.code p) d = some t) :
    t ≤ fin.code.length ∧ lev fin.code t + 1 = max (lev fin.code p - d) 1 := by
  unfold Model.target2 at ht
  split at ht
  · rename_i hn
    cases ht
    have : lev fin.code p ≤ d := by simpa [lev] using hn
    have h0 : lev fin.code fin.code.length = 0 := by
      have := congrArg List.length h.maps
      rw [hm] at this
      simpa [lev] using this.symm
    exact ⟨Nat.le_refl _, by omega⟩
  · rename_i x hx
    obtain ⟨t', h1, h2, h3⟩ := h.target hm hp hx
    rw [h1] at ht
    cases ht
    exact ⟨h2, by omega⟩

/-- phase 3 targets -/
theorem Nst.target3 {fin : CS} (h : Nst fin) (hm : fin.mapCtl = []) {p : Nat} (hp : p ≤ fin.code.length) (d : Nat) :
    Model.target3 fin.ends (opens fin.code p) d ≤ fin.code.length ∧
      lev fin.code (Model.target3 fin.ends (opens fin.code p) d) + 1 = max (lev fin.code p - d) 1 := by
  unfold Model.target3
  split
  · rename_i hn
    have : lev fin.code p ≤ d := by simpa [lev] using hn
    have h0 : lev fin.code 0 = 0 := by simp [lev, opens, scanL]
    exact ⟨Nat.zero_le _, by omega⟩
  · rename_i x hx
    obtain ⟨t', h1, h2, h3⟩ := h.target hm hp hx
    rw [h1]
    exact ⟨h2, by simp only [Option.getD_some]; omega⟩

/-- what phases 2 and 3 make of one instruction -/
theorem patched {fin : CS} {body : List Instr} (h : Nst fin) (hm : fin.mapCtl = [])
    (hp : patchFrom fin.ends fin.elses fin.code.length 0 [] fin.code = some body) {p : Nat} {j : Instr}
    (hj : body[p]? = some j) :
    (∀ t ∈ j.targets, t ≤ body.length) ∧
    ∀ ls : List Label, ls.length = lev fin.code p + 1 → ∀ q ∈ flow body.length p ls j, q.2.length = lev fin.code q.1 + 1 := by
  obtain ⟨hl, hg⟩ := patchFrom_get hp
  have hlt : p < fin.code.length := by
    have := (List.getElem?_eq_some_iff.1 hj).1; omega
  obtain ⟨j', hj', hpa⟩ := hg p _ (List.getElem?_eq_getElem hlt)
  rw [hj] at hj'
  cases hj'
  generalize hi : fin.code[p] = i at hpa
  have hci : fin.code[p]? = some i := by rw [List.getElem?_eq_getElem hlt, hi]
  have hsucc := opens_succ hci
  have e0 : scanL 0 [] (fin.code.take p) = opens fin.code p := rfl
  rw [Nat.zero_add, e0] at hpa
  rw [hl]
  have hend : lev fin.code fin.code.length = 0 := by
    have := congrArg List.length h.maps
    rw [hm] at this
    simpa [lev] using this.symm
  have simple : isSimple i = true → isFixed i = true → (∀ t ∈ j.targets, t ≤ fin.code.length) ∧
      ∀ ls : List Label, ls.length = lev fin.code p + 1 → ∀ q ∈ flow fin.code.length p ls j, q.2.length = lev fin.code q.1 + 1 := by
    intro hs hf
    rw [patch_fixed hf, Option.some.injEq] at hpa
    subst hpa
    have hl1 : lev fin.code (p + 1) = lev fin.code p := by rw [lev, hsucc, scanStep_flat (isFlat_of hs)]; rfl
    cases i <;> simp only [isSimple, isFixed, Bool.false_eq_true] at hs hf
    all_goals
      refine ⟨by simp [Instr.targets], fun ls hls q hq => ?_⟩
      simp only [flow, List.mem_singleton, List.not_mem_nil] at hq
      try (subst hq; simp only [hl1]; exact hls)
  have cutl : ∀ (d : Nat) (ls : List Label), ls.length = lev fin.code p + 1 → (cut d ls).length = max (lev fin.code p - d) 1 := by
    intro d ls hls
    rw [cut_length _ _ (by omega), hls]; omega
  cases hci' : i with
  | block l =>
    subst hci'
    simp only [patch, Option.some.injEq] at hpa
    subst hpa
    refine ⟨by simp [Instr.targets], fun ls hls q hq => ?_⟩
    simp only [flow, List.mem_singleton] at hq
    subst hq
    simp only [lev, hsucc, scanStep, List.length_cons]
    simpa [lev] using hls
  | fin s t =>
    subst hci'
    simp only [patch, Option.some.injEq] at hpa
    subst hpa
    refine ⟨by simp [Instr.targets], fun ls hls q hq => ?_⟩
    have hl1 : lev fin.code (p + 1) = lev fin.code p - 1 := by rw [lev, hsucc]; simp [scanStep, lev]
    simp only [flow] at hq
    split at hq
    · simp only [List.mem_singleton] at hq
      subst hq
      simp only [hend]; omega
    · split at hq
      · rename_i hc
        simp only [List.mem_singleton] at hq
        subst hq
        simp only [hend]; exact hc.2
      · simp only [List.mem_singleton] at hq
        subst hq
        simp only [hl1, List.length_tail]; omega
  | ite c e hh =>
    subst hci'
    simp only [patch, scanStep, List.getElem?_cons_zero, Option.map_eq_some_iff] at hpa
    obtain ⟨x, hx, rfl⟩ := hpa
    have hs1 : (opens fin.code (p + 1))[0]? = some (p, false) := by rw [hsucc]; rfl
    obtain ⟨t, h1, h2, h3⟩ := h.target hm (p := p + 1) (by omega) hs1
    rw [hx] at h1
    cases h1
    have hl1 : lev fin.code (p + 1) = lev fin.code p + 1 := by rw [lev, hsucc]; rfl
    have hxp : lookup fin.ends p = some x := hx
    have hel : ∀ y, lookup fin.elses p = some y → y ≤ fin.code.length ∧ (lev fin.code y = lev fin.code p + 1 ∨ y = x) := by
      intro y hy
      obtain ⟨g1, _, _, g4⟩ := h.elses _ (lookup_mem hy)
      refine ⟨g1, g4.imp id fun e => ?_⟩
      simp only at e
      rw [hxp] at e
      exact (Option.some.inj e).symm
    constructor
    · intro y hy
      simp only [Instr.targets, List.mem_singleton] at hy
      subst hy
      cases hlo : lookup fin.elses p with
      | none => exact h2
      | some y => exact (hel y hlo).1
    · intro ls hls q hq
      simp only [flow, List.mem_cons, List.not_mem_nil, or_false] at hq
      rcases hq with rfl | rfl
      · simp only [hl1, List.length_cons]; omega
      · cases hlo : lookup fin.elses p with
        | none =>
          simp only [Option.getD_none, ne_eq, not_true, decide_false, Bool.false_eq_true, if_false]
          omega
        | some y =>
          simp only [Option.getD_some]
          rcases (hel y hlo).2 with hy | rfl
          · split
            · simp only [List.length_cons]; omega
            · rename_i hne
              simp only [ne_eq, decide_eq_true_eq, Decidable.not_not] at hne
              subst hne
              simp only; omega
          · simp only [ne_eq, not_true, decide_false, Bool.false_eq_true, if_false]
            omega
  | jump e =>
    subst hci'
    have hpos := h.jumps p e hci
    simp only [patch, scanStep] at hpa
    cases ho : (opens fin.code p)[0]? with
    | none => simp only [lev] at hpos; rw [List.getElem?_eq_none_iff] at ho; omega
    | some b =>
      rw [ho] at hpa
      simp only [Option.map_eq_some_iff] at hpa
      obtain ⟨x, hx, rfl⟩ := hpa
      obtain ⟨t, h1, h2, h3⟩ := h.target hm (Nat.le_of_lt hlt) ho
      rw [hx] at h1
      cases h1
      refine ⟨by simpa [Instr.targets] using h2, fun ls hls q hq => ?_⟩
      simp only [flow, List.mem_singleton] at hq
      subst hq
      simp only
      rw [if_pos (by omega)]
      simp only [List.length_tail]; omega
  | br d t0 s t =>
    subst hci'
    simp only [patch, scanStep, Option.map_eq_some_iff] at hpa
    obtain ⟨x, hx, rfl⟩ := hpa
    obtain ⟨h1, h2⟩ := h.target2 hm (Nat.le_of_lt hlt) hx
    refine ⟨by simpa [Instr.targets] using h1, fun ls hls q hq => ?_⟩
    simp only [flow, List.mem_singleton] at hq
    subst hq
    simp only [cutl d ls hls, h2]
  | brIf d t0 c s t =>
    subst hci'
    simp only [patch, scanStep, Option.map_eq_some_iff] at hpa
    obtain ⟨x, hx, rfl⟩ := hpa
    obtain ⟨h1, h2⟩ := h.target2 hm (Nat.le_of_lt hlt) hx
    have hl1 : lev fin.code (p + 1) = lev fin.code p := by rw [lev, hsucc]; rfl
    refine ⟨by simpa [Instr.targets] using h1, fun ls hls q hq => ?_⟩
    simp only [flow, List.mem_cons, List.not_mem_nil, or_false] at hq
    rcases hq with rfl | rfl
    · simp only [hl1]; exact hls
    · simp only [cutl d ls hls, h2]
  | brTable ts d i s =>
    subst hci'
    simp only [patch, scanStep, Option.some.injEq] at hpa
    subst hpa
    have h3 := h.target3 hm (Nat.le_of_lt hlt)
    constructor
    · intro t ht
      simp only [Instr.targets, List.mem_cons, List.map_map, List.mem_map] at ht
      rcases ht with rfl | ⟨x, _, rfl⟩
      · exact (h3 d.1).1
      · exact (h3 x.1).1
    · intro ls hls q hq
      simp only [flow, List.mem_cons, List.map_map, List.mem_map] at hq
      rcases hq with rfl | ⟨x, _, rfl⟩
      · simp only [cutl _ ls hls, (h3 d.1).2]
      · simp only [Function.comp, cutl _ ls hls, (h3 x.1).2]
  | _ => exact simple (by rw [hci']; rfl) (by rw [hci']; rfl)

/-- a call continues behind itself, in the same brackets -/
def isCall : Instr → Bool
  | .call _ _ _ | .callIndirect _ _ _ _ _ | .callWasi _ _ _ => true
  | _ => false

/-- the shape of preprocessed code: `l` gives the number of labels at each position -/
structure Shaped (code : List Instr) (l : Nat → Nat) : Prop where
  inside : Inside code
  nested : WellNested code l
  zero : l 0 = 1
  pos : ∀ p, 0 < l p
  call : ∀ p i, code[p]? = some i → isCall i = true → l (p + 1) = l p

/-- Whatever operators a body is made of: if the preprocessor accepts it, the code jumps only inside itself and is well
nested. -/
theorem compile_shaped {K : FnCtx} {ops : List WOp} {code : Code} (h : compileFn K ops = some code) :
    ∃ l, Shaped code.body l := by
  unfold compileFn at h
  split at h
  · cases h
  · rename_i fin hrun
    split at h
    · cases h
    · rename_i body hpat
      cases h
      obtain ⟨hn, hm⟩ := Nst.compRun (Nst.init K) hrun
      obtain ⟨hl, hg⟩ := patchFrom_get hpat
      refine ⟨fun p => lev fin.code p + 1, fun i hi t ht => ?_, ⟨?_, fun p i hi ls hls q hq => ?_⟩, by simp [lev, opens, scanL],
        fun p => Nat.succ_pos _, fun p j hj hc => ?_⟩
      · obtain ⟨p, hp⟩ := List.getElem?_of_mem hi
        exact (patched hn hm hpat hp).1 t ht
      · have := congrArg List.length hn.maps
        rw [hm] at this
        simp only [hl, lev]
        simpa using this.symm
      · exact (patched hn hm hpat hi).2 ls hls q hq
      · have hlt : p < fin.code.length := by
          have := (List.getElem?_eq_some_iff.1 hj).1
          simp only [hl] at this; exact this
        obtain ⟨j', hj', hpa⟩ := hg p _ (List.getElem?_eq_getElem hlt)
        rw [hj] at hj'
        cases hj'
        generalize hi : fin.code[p] = i at hpa
        have hci : fin.code[p]? = some i := by rw [List.getElem?_eq_getElem hlt, hi]
        have hi' : isCall i = true := by
          cases i <;> simp only [patch, Option.map_eq_some_iff, Option.some.injEq] at hpa
          case br => obtain ⟨_, _, rfl⟩ := hpa; exact hc
          case brIf => obtain ⟨_, _, rfl⟩ := hpa; exact hc
          case brTable => subst hpa; exact hc
          case ite =>
            split at hpa
            · cases hpa; exact hc
            · simp only [Option.map_eq_some_iff] at hpa
              obtain ⟨_, _, rfl⟩ := hpa; exact hc
          case jump =>
            split at hpa
            · cases hpa; exact hc
            · simp only [Option.map_eq_some_iff] at hpa
              obtain ⟨_, _, rfl⟩ := hpa; exact hc
          all_goals (subst hpa; exact hc)
        simp only [lev, opens_succ hci]
        cases i <;> simp only [isCall, Bool.false_eq_true] at hi' <;> rfl

end Verif.Lemmas
