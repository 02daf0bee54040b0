import Verif.Spec.Named
/-
A program whose names exist never names what its module does not have (C51).
-/
namespace Verif.Lemmas
open Verif.Model Verif.Spec

variable {S : Wasi} {Q : SProg} {M : MInfo} {N : Stock}

/-- operators keep what there is -/
theorem op_has {W : Type} {H : FloatHost} {o : WOp} {stk stk' : List Val} {s s' : SSt W} (h : Op H o stk s (.next stk' s')) (hs : s.st.Has N) :
    s'.st.Has N ∧ s'.locals.length = s.locals.length := by
  obtain ⟨h1, h2, h3⟩ := hs
  cases h <;> (try rename_i hm _ _ _ ; rw [hm] at h1) <;> (try rename_i hm _ _ ; rw [hm] at h1) <;> exact ⟨⟨by simp_all [SSt.withMem, SSt.withTable], by simp_all [SSt.withMem, SSt.withTable], by simp_all [SSt.withMem, SSt.withTable]⟩, by simp [SSt.withMem, SSt.withTable]⟩

/-- operators whose names exist are not misnamed -/
theorem op_named {W : Type} {o : WOp} {stk : List Val} {s : SSt W} (hs : s.st.Has N) (hn : opNamed N s.locals.length o = true) :
    ¬ Odd .misnamed o stk s := by
  obtain ⟨h1, h2, h3⟩ := hs
  intro h
  cases h with
  | noLocal h => simp only [opNamed, decide_eq_true_eq] at hn; omega
  | noLocalT h => simp only [opNamed, decide_eq_true_eq] at hn; omega
  | noMem h ho =>
    rw [h] at h1
    cases o <;> simp only at ho <;> simp_all [opNamed]
  | noData h ho =>
    rcases ho with rfl | rfl <;> simp only [opNamed, Bool.and_eq_true, decide_eq_true_eq] at hn <;> omega
  | noTable h ho =>
    rcases ho with rfl | rfl | rfl <;> simp only [opNamed, decide_eq_true_eq] at hn <;> omega

/-- the end of a sequence is not a misnaming, and keeps what there is -/
def Tidy {W : Type} (N : Stock) (nl : Nat) : WOut W → Prop
  | .norm _ s | .br _ _ s | .ret _ s => s.st.Has N ∧ s.locals.length = nl
  | .odd y => y ≠ .misnamed
  | .trap st _ | .exit _ st _ => st.Has N

/-- the same of what is left to do after a block -/
def TidyX {W : Type} (N : Stock) (nl : Nat) : WOut W ⊕ (List Val × SSt W) → Prop
  | .inl o => Tidy N nl o
  | .inr (_, s) => s.st.Has N ∧ s.locals.length = nl

/-- the same of a call -/
def TidyC {W : Type} (N : Stock) : CallOut W → Prop
  | .ok _ st _ => st.Has N
  | .odd y => y ≠ .misnamed
  | .trap st _ | .exit _ st _ => st.Has N

theorem Tidy.leaves {W : Type} {nl n : Nat} {rest : List Val} {o : WOut W} {x : WOut W ⊕ (List Val × SSt W)} (h : Tidy N nl o)
    (hl : Leaves n rest o x) : TidyX N nl x := by
  cases hl <;> exact h

theorem TidyC.returns {W : Type} {locals rest : List Val} {c : CallOut W} {x : WOut W ⊕ (List Val × SSt W)} (h : TidyC N c)
    (hr : Returns locals rest c x) : TidyX N locals.length x := by
  cases hr with
  | ok => exact ⟨h, rfl⟩
  | trap => exact h
  | exit => exact h
  | odd => exact h

/-- the functions of a program mention only what there is -/
def NamedQ (N : Stock) (Q : SProg) : Prop :=
  ∀ t ls b, SFunc.wasm t ls b ∈ Q.funcs → named N (localTypes t.params ls).length b = true

theorem body_named (hQ : NamedQ N Q) {t : FuncType} {ls : List (Nat × Cls)} {b : WSeq} (hF : SFunc.wasm t ls b ∈ Q.funcs) {args : List Val}
    (ha : args.length = t.params.length) : named N (initialLocals args ls).length b = true := by
  have : (initialLocals args ls).length = (localTypes t.params ls).length := by
    simp [initialLocals, localTypes, ha, List.length_flatten, List.length_flatMap, List.map_map, Function.comp_def]
  rw [this]
  exact hQ t ls b hF

theorem ev_tidy (hQ : NamedQ N Q) {w : WSeq} {stk : List Val} {s : SSt S.W} {out : WOut S.W} (h : Ev S Q M w stk s out) :
    named N s.locals.length w = true → s.st.Has N → Tidy N s.locals.length out := by
  induction h using Ev.rec
    (motive_2 := fun k x out _ => ∀ nl, named N nl k = true → TidyX N nl x → Tidy N nl out)
    (motive_3 := fun F args st w c _ => F ∈ Q.funcs → args.length = F.type.params.length → st.Has N → TidyC N c) with
  | done => exact fun _ hs => ⟨hs, rfl⟩
  | next h hk ih =>
    intro hn hs
    simp only [named, Bool.and_eq_true] at hn
    obtain ⟨h1, h2⟩ := op_has h hs
    rw [← h2]
    exact ih (h2 ▸ hn.2) h1
  | trap h => exact fun _ hs => hs
  | @odd y o k stk s h =>
    intro hn hs e
    simp only [named, Bool.and_eq_true] at hn
    subst e
    exact op_named hs hn.1 h
  | br => exact fun _ hs => ⟨hs, rfl⟩
  | brIf h => exact fun _ hs => ⟨hs, rfl⟩
  | brIf0 hk ih =>
    intro hn hs
    simp only [named, Bool.and_eq_true] at hn
    exact ih hn.2 hs
  | brTable h => exact fun _ hs => ⟨hs, rfl⟩
  | brTableD h => exact fun _ hs => ⟨hs, rfl⟩
  | ret => exact fun _ hs => ⟨hs, rfl⟩
  | call hf ha hc hr hx ihc ihx =>
    intro hn hs
    simp only [named, Bool.and_eq_true] at hn
    exact ihx _ hn.2 ((ihc (List.mem_of_getElem? hf) (by rw [← ha]; simp) hs).returns hr)
  | callIndirect ht he hf hty ha hc hr hx ihc ihx =>
    intro hn hs
    simp only [named, Bool.and_eq_true] at hn
    exact ihx _ hn.2 ((ihc (List.mem_of_getElem? hf) (by rw [← ha]; simp) hs).returns hr)
  | callOutside ht he => exact fun _ hs => hs
  | callNull ht he hr => exact fun _ hs => hs
  | callHost ht he hf => exact fun _ _ => nofun
  | callNoTable h =>
    intro hn hs
    simp only [named, opNamed, Bool.and_eq_true, decide_eq_true_eq] at hn
    have := hs.tables
    omega
  | block hp hb hl hx ihb ihx =>
    intro hn hs
    simp only [named, Bool.and_eq_true] at hn
    exact ihx _ hn.2 ((ihb hn.1 hs).leaves hl)
  | loop hp hb h0 hl hx ihb ihx =>
    intro hn hs
    simp only [named, Bool.and_eq_true] at hn
    exact ihx _ hn.2 ((ihb hn.1 hs).leaves hl)
  | again hp hb hx ihb ihx =>
    intro hn hs
    have hn' := hn
    simp only [named, Bool.and_eq_true] at hn'
    obtain ⟨h1, h2⟩ := ihb hn'.1 hs
    rw [← h2]
    exact ihx (h2 ▸ hn) h1
  | ite hc hp hb hl hx ihb ihx =>
    intro hn hs
    simp only [named, Bool.and_eq_true] at hn
    exact ihx _ hn.2 ((ihb hn.1 hs).leaves hl)
  | ite0 hp hx ih =>
    intro hn hs
    simp only [named, Bool.and_eq_true] at hn
    exact ih hn.2 hs
  | itee hc hp hb hl hx ihb ihx =>
    intro hn hs
    simp only [named, Bool.and_eq_true] at hn
    exact ihx _ hn.2 ((ihb hn.1.1 hs).leaves hl)
  | itee0 hp hb hl hx ihb ihx =>
    intro hn hs
    simp only [named, Bool.and_eq_true] at hn
    exact ihx _ hn.2 ((ihb hn.1.2 hs).leaves hl)
  | stop => rename_i h; exact h
  | go hk ih => 
    rename_i hn hx
    obtain ⟨h1, h2⟩ := hx
    rw [← h2] at hn ⊢
    exact ih hn h1
  | @norm t ls b st w vs s' args h ih =>
    rename_i hF ha hs
    exact (ih (body_named hQ hF ha) hs).1
  | @brOut t ls b st w d vs s' args h ih =>
    rename_i hF ha hs
    exact (ih (body_named hQ hF ha) hs).1
  | @retOut t ls b st w vs s' args h ih =>
    rename_i hF ha hs
    exact (ih (body_named hQ hF ha) hs).1
  | trapOut h ih =>
    rename_i hF ha hs
    exact ih (body_named hQ hF ha) hs
  | exitOut h ih =>
    rename_i hF ha hs
    exact ih (body_named hQ hF ha) hs
  | oddOut h ih =>
    rename_i hF ha hs
    exact ih (body_named hQ hF ha) hs
  | host hm h hv =>
    rename_i hs
    obtain ⟨h1, h2, h3⟩ := hs
    rw [hm] at h1
    exact ⟨h1, h2, h3⟩
  | hostFails hm h =>
    rename_i hs
    obtain ⟨h1, h2, h3⟩ := hs
    rw [hm] at h1
    exact ⟨h1, h2, h3⟩
  | hostRefuses hm h => rename_i hs; exact hs
  | hostExits hm h => rename_i hs; exact hs
  | hostOdd h => exact nofun

/-- what there is stays, whether or not the call succeeds -/
theorem call_keeps (hQ : NamedQ N Q) {F : SFunc} (hF : F ∈ Q.funcs) {args : List Val} (ha : args.length = F.type.params.length) {st : Store}
    (hs : st.Has N) {w : S.W} {c : CallOut S.W} (h : Call S Q M F args st w c) : TidyC N c := by
  cases h with
  | norm h => exact (ev_tidy hQ h (body_named hQ hF ha) hs).1
  | brOut h => exact (ev_tidy hQ h (body_named hQ hF ha) hs).1
  | retOut h => exact (ev_tidy hQ h (body_named hQ hF ha) hs).1
  | trapOut h => exact ev_tidy hQ h (body_named hQ hF ha) hs
  | exitOut h => exact ev_tidy hQ h (body_named hQ hF ha) hs
  | oddOut h => exact ev_tidy hQ h (body_named hQ hF ha) hs
  | host hm h hv =>
    obtain ⟨h1, h2, h3⟩ := hs
    rw [hm] at h1
    exact ⟨h1, h2, h3⟩
  | hostFails hm h =>
    obtain ⟨h1, h2, h3⟩ := hs
    rw [hm] at h1
    exact ⟨h1, h2, h3⟩
  | hostRefuses hm h => exact hs
  | hostExits hm h => exact hs
  | hostOdd h => exact nofun

/-- a call in such a program does not end with a misnaming -/
theorem call_named (hQ : NamedQ N Q) {F : SFunc} (hF : F ∈ Q.funcs) {args : List Val} (ha : args.length = F.type.params.length) {st : Store}
    (hs : st.Has N) {w : S.W} : ¬ Call S Q M F args st w (.odd .misnamed) := by
  intro h
  cases h with
  | oddOut h => exact ev_tidy hQ h (body_named hQ hF ha) hs rfl

end Verif.Lemmas
