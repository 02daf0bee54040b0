import Verif.Spec.Steady
/-
Steady programs never reach a deviation (C51, C65).
-/
namespace Verif.Lemmas
open Verif.Model Verif.Spec

variable {S : Wasi} {Q : SProg} {M : MInfo} {tbs : List (List Ref)} {mem : Bool}

/-- the tables are these, and there is a memory or not -/
def Same (tbs : List (List Ref)) (mem : Bool) (st : Store) : Prop := st.tables = tbs ∧ st.mem.isSome = mem

theorem op_same {W : Type} {H : FloatHost} {o : WOp} {stk stk' : List Val} {s s' : SSt W} (h : Op H o stk s (.next stk' s'))
    (hp : steadyOp o = true) (hs : Same tbs mem s.st) : Same tbs mem s'.st := by
  obtain ⟨h1, h2⟩ := hs
  cases h <;> first | (exact ⟨h1, h2⟩) | (simp [steadyOp] at hp; done)

theorem op_steady {W : Type} {o : WOp} {stk : List Val} {s : SSt W} (hp : steadyOp o = true) : ¬ Odd .deviates o stk s := by
  intro h
  cases h with
  | trunc hop => rcases hop with rfl | rfl <;> simp [steadyOp] at hp
  | _ => simp [steadyOp] at hp

/-- the end of a sequence is no deviation, and keeps tables and memory -/
def Calm {W : Type} (tbs : List (List Ref)) (mem : Bool) : WOut W → Prop
  | .norm _ s | .br _ _ s | .ret _ s => Same tbs mem s.st
  | .odd y => y ≠ .deviates
  | .trap st _ | .exit _ st _ => Same tbs mem st

/-- the same of what is left to do after a block -/
def CalmX {W : Type} (tbs : List (List Ref)) (mem : Bool) : WOut W ⊕ (List Val × SSt W) → Prop
  | .inl o => Calm tbs mem o
  | .inr (_, s) => Same tbs mem s.st

/-- the same of a call -/
def CalmC {W : Type} (tbs : List (List Ref)) (mem : Bool) : CallOut W → Prop
  | .ok _ st _ => Same tbs mem st
  | .odd y => y ≠ .deviates
  | .trap st _ | .exit _ st _ => Same tbs mem st

theorem Calm.leaves {W : Type} {n : Nat} {rest : List Val} {o : WOut W} {x : WOut W ⊕ (List Val × SSt W)} (h : Calm tbs mem o)
    (hl : Leaves n rest o x) : CalmX tbs mem x := by
  cases hl <;> exact h

theorem CalmC.returns {W : Type} {locals rest : List Val} {c : CallOut W} {x : WOut W ⊕ (List Val × SSt W)} (h : CalmC tbs mem c)
    (hr : Returns locals rest c x) : CalmX tbs mem x := by
  cases hr <;> exact h

/-- a program of steady functions whose tables do not name host functions, with a memory if it has host functions -/
structure SteadyQ (S : Wasi) (tbs : List (List Ref)) (mem : Bool) (Q : SProg) : Prop where
  bodies : ∀ t ls b, SFunc.wasm t ls b ∈ Q.funcs → steady b = true
  tables : ∀ (t : Nat) (tb : List Ref) (i f : Nat) t' id, tbs[t]? = some tb → tb[i]? = some (.func f) → Q.funcs[f]? ≠ some (.wasi t' id)
  mem : ∀ t id, SFunc.wasi t id ∈ Q.funcs → mem = true
  host : Defined S

theorem ev_calm (hQ : SteadyQ S tbs mem Q) {w : WSeq} {stk : List Val} {s : SSt S.W} {out : WOut S.W} (h : Ev S Q M w stk s out) :
    steady w = true → Same tbs mem s.st → Calm tbs mem out := by
  induction h using Ev.rec
    (motive_2 := fun k x out _ => steady k = true → CalmX tbs mem x → Calm tbs mem out)
    (motive_3 := fun F args st w c _ => F ∈ Q.funcs → Same tbs mem st → CalmC tbs mem c) with
  | done => exact fun _ hs => hs
  | next h hk ih =>
    intro hn hs
    simp only [steady, Bool.and_eq_true] at hn
    exact ih hn.2 (op_same h hn.1 hs)
  | trap h => exact fun _ hs => hs
  | @odd y o k stk s h =>
    intro hn hs e
    simp only [steady, Bool.and_eq_true] at hn
    subst e
    exact op_steady hn.1 h
  | br => exact fun _ hs => hs
  | brIf h => exact fun _ hs => hs
  | brIf0 hk ih =>
    intro hn hs
    simp only [steady, Bool.and_eq_true] at hn
    exact ih hn.2 hs
  | brTable h => exact fun _ hs => hs
  | brTableD h => exact fun _ hs => hs
  | ret => exact fun _ hs => hs
  | call hf ha hc hr hx ihc ihx =>
    intro hn hs
    simp only [steady, Bool.and_eq_true] at hn
    exact ihx hn.2 ((ihc (List.mem_of_getElem? hf) hs).returns hr)
  | callIndirect ht he hf hty ha hc hr hx ihc ihx =>
    intro hn hs
    simp only [steady, Bool.and_eq_true] at hn
    exact ihx hn.2 ((ihc (List.mem_of_getElem? hf) hs).returns hr)
  | callOutside ht he => exact fun _ hs => hs
  | callNull ht he hr => exact fun _ hs => hs
  | callHost ht he hf =>
    intro _ hs
    rw [hs.1] at ht
    exact (hQ.tables _ _ _ _ _ _ ht he hf).elim
  | callNoTable h => exact fun _ _ => nofun
  | block hp hb hl hx ihb ihx =>
    intro hn hs
    simp only [steady, Bool.and_eq_true] at hn
    exact ihx hn.2 ((ihb hn.1 hs).leaves hl)
  | loop hp hb h0 hl hx ihb ihx =>
    intro hn hs
    simp only [steady, Bool.and_eq_true] at hn
    exact ihx hn.2 ((ihb hn.1 hs).leaves hl)
  | again hp hb hx ihb ihx =>
    intro hn hs
    have hn' := hn
    simp only [steady, Bool.and_eq_true] at hn'
    exact ihx hn (ihb hn'.1 hs)
  | ite hc hp hb hl hx ihb ihx =>
    intro hn hs
    simp only [steady, Bool.and_eq_true] at hn
    exact ihx hn.2 ((ihb hn.1 hs).leaves hl)
  | ite0 hp hx ih =>
    intro hn hs
    simp only [steady, Bool.and_eq_true] at hn
    exact ih hn.2 hs
  | itee hc hp hb hl hx ihb ihx =>
    intro hn hs
    simp only [steady, Bool.and_eq_true] at hn
    exact ihx hn.2 ((ihb hn.1.1 hs).leaves hl)
  | itee0 hp hb hl hx ihb ihx =>
    intro hn hs
    simp only [steady, Bool.and_eq_true] at hn
    exact ihx hn.2 ((ihb hn.1.2 hs).leaves hl)
  | stop => rename_i h; exact h
  | go hk ih =>
    rename_i hn hx
    exact ih hn hx
  | @norm t ls b st w vs s' args h ih =>
    rename_i hF hs
    exact ih (hQ.bodies _ _ _ hF) hs
  | @brOut t ls b st w d vs s' args h ih =>
    rename_i hF hs
    exact ih (hQ.bodies _ _ _ hF) hs
  | @retOut t ls b st w vs s' args h ih =>
    rename_i hF hs
    exact ih (hQ.bodies _ _ _ hF) hs
  | trapOut h ih =>
    rename_i hF hs
    exact ih (hQ.bodies _ _ _ hF) hs
  | exitOut h ih =>
    rename_i hF hs
    exact ih (hQ.bodies _ _ _ hF) hs
  | oddOut h ih =>
    rename_i hF hs
    exact ih (hQ.bodies _ _ _ hF) hs
  | host hm h hv =>
    rename_i hs
    obtain ⟨h1, h2⟩ := hs
    rw [hm] at h2
    exact ⟨h1, h2⟩
  | hostFails hm h =>
    rename_i hs
    obtain ⟨h1, h2⟩ := hs
    rw [hm] at h2
    exact ⟨h1, h2⟩
  | hostRefuses hm h => rename_i hs; exact hs
  | hostExits hm h => rename_i hs; exact hs
  | hostOdd h =>
    rename_i hF hs
    exfalso
    obtain ⟨_, h2⟩ := hs
    rw [hQ.mem _ _ hF] at h2
    obtain ⟨m, hm⟩ := Option.isSome_iff_exists.mp h2
    exact hQ.host _ _ _ _ (h m hm)

theorem call_same (hQ : SteadyQ S tbs mem Q) {F : SFunc} (hF : F ∈ Q.funcs) {args : List Val} {st : Store} {w : S.W}
    (hs : Same tbs mem st) {c : CallOut S.W} (h : Call S Q M F args st w c) : CalmC tbs mem c := by
  cases h with
  | norm h => exact ev_calm hQ h (hQ.bodies _ _ _ hF) hs
  | brOut h => exact ev_calm hQ h (hQ.bodies _ _ _ hF) hs
  | retOut h => exact ev_calm hQ h (hQ.bodies _ _ _ hF) hs
  | trapOut h => exact ev_calm hQ h (hQ.bodies _ _ _ hF) hs
  | exitOut h => exact ev_calm hQ h (hQ.bodies _ _ _ hF) hs
  | oddOut h => exact ev_calm hQ h (hQ.bodies _ _ _ hF) hs
  | host hm h hv =>
    obtain ⟨h1, h2⟩ := hs
    rw [hm] at h2
    exact ⟨h1, h2⟩
  | hostFails hm h =>
    obtain ⟨h1, h2⟩ := hs
    rw [hm] at h2
    exact ⟨h1, h2⟩
  | hostRefuses hm h => exact hs
  | hostExits hm h => exact hs
  | hostOdd h =>
    obtain ⟨_, h2⟩ := hs
    rw [hQ.mem _ _ hF] at h2
    obtain ⟨m, hm⟩ := Option.isSome_iff_exists.mp h2
    exact (hQ.host _ _ _ _ (h m hm)).elim

theorem call_calm (hQ : SteadyQ S tbs mem Q) {F : SFunc} (hF : F ∈ Q.funcs) {args : List Val} {st : Store} {w : S.W}
    (hs : Same tbs mem st) : ¬ Call S Q M F args st w (.odd .deviates) := fun h => call_same hQ hF hs h rfl

theorem elems_of_active {gs : List (Bool × Cls × CExpr)} {k : Nat} {es : List ModElem} {segs : List (Seg Ref)} (h : ActiveElems gs k es segs) :
    ∀ s ∈ segs, ∀ r ∈ s.items, ∃ e ∈ es, ∃ fs f, e.idxes = some fs ∧ f ∈ fs ∧ r = .func f := by
  induction h with
  | nil => nofun
  | passive _ _ ih | other _ _ _ ih =>
    intro s hs r hr
    obtain ⟨e, he, h⟩ := ih s hs r hr
    exact ⟨e, .tail _ he, h⟩
  | active _ hf _ _ ih =>
    intro s hs r hr
    rcases List.mem_cons.mp hs with rfl | hs
    · obtain ⟨f, h1, rfl⟩ := List.mem_map.mp hr
      exact ⟨_, .head _, _, f, hf, h1, rfl⟩
    · obtain ⟨e, he, h⟩ := ih s hs r hr
      exact ⟨e, .tail _ he, h⟩

/-- what the table of a freshly instantiated module names is in one of the element segments -/
theorem initial_table {A : SMod} {st : Store} (h : InitialStore A st) {t i f : Nat} {tb : List Ref} (ht : st.tables[t]? = some tb)
    (hi : tb[i]? = some (.func f)) : ∃ e ∈ A.elems, f ∈ e.1 := by
  have hlt : t < A.tables.length := by rw [← h.tables.1]; exact (List.getElem?_eq_some_iff.mp ht).1
  obtain ⟨tb', segs, h1, _, h3, h4⟩ := h.tables.2 t _ (List.getElem?_eq_getElem hlt)
  rw [ht] at h1
  cases h1
  rcases h4 i _ hi with ⟨pre, s, post, rfl, _, hs, _⟩ | ⟨_, e⟩
  · obtain ⟨e, he, fs, f', k1, k2, k3⟩ := elems_of_active h3 s (by simp) _ (List.mem_of_getElem? hs)
    obtain ⟨x, hx, rfl⟩ := List.mem_map.mp he
    cases k3
    cases k1
    exact ⟨x, hx, k2⟩
  · cases e

/-- a steady module's program, from its initial store on -/
theorem steadyQ {A : SMod} {H : FloatHost} (hA : A.Steady H) (hD : Defined S) {st : Store} (hst : InitialStore A st) :
    SteadyQ S st.tables st.mem.isSome (A.source H) := by
  refine ⟨hA.bodies, ?_, ?_, hD⟩
  · intro t tb i f t' id ht hi hf
    obtain ⟨e, he, hfe⟩ := initial_table hst ht hi
    have hle := hA.elems e he f hfe
    simp only [SMod.source] at hf
    rw [List.getElem?_append_right (by simpa using hle), List.getElem?_map, Option.map_eq_some_iff] at hf
    obtain ⟨_, _, k⟩ := hf
    cases k
  · intro t id h
    simp only [SMod.source, List.mem_append, List.mem_map, reduceCtorEq, and_false, exists_false, or_false] at h
    obtain ⟨i, hi, _⟩ := h
    cases hm : st.mem with
    | some m => rfl
    | none => exact (hA.mem (fun e => by rw [e] at hi; cases hi) (hst.mem.1.mp hm)).elim

/-- **A steady program never reaches a deviation.** -/
theorem never_deviates {A : SMod} {H : FloatHost} (hA : A.Steady H) (hD : Defined S) {F : SFunc} (hF : F ∈ (A.source H).funcs)
    {args : List Val} {st : Store} (hst : InitialStore A st) {w : S.W} : ¬ Call S (A.source H) M F args st w (.odd .deviates) :=
  call_calm (steadyQ hA hD hst) hF ⟨rfl, rfl⟩

end Verif.Lemmas
