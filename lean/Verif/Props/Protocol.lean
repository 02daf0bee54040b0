import Verif.Model.Trigger
/-
C61: checkpoints and requests, for every interleaving of user, monitor thread and interpreter.
-/
namespace Verif.Props
open Verif.Model

theorem after_cons {s s' : Sys} {e : Ev} {es : List Ev} (h : s.after (e :: es) = some s') : ∃ t, s.next e = some t ∧ t.after es = some s' := by
  rw [Sys.after] at h
  exact Option.bind_eq_some_iff.mp h

theorem after_append {s : Sys} (es fs : List Ev) : s.after (es ++ fs) = (s.after es).bind fun t => t.after fs := by
  induction es generalizing s with
  | nil => rfl
  | cons e es ih =>
    rw [List.cons_append, Sys.after, Sys.after]
    cases s.next e with
    | none => rfl
    | some t => exact ih

/-- induction along a history -/
theorem after_inv {I : Sys → Prop} {ok : Ev → Prop} (step : ∀ s e s', I s → ok e → s.next e = some s' → I s') :
    ∀ (es : List Ev) (s s' : Sys), I s → (∀ e ∈ es, ok e) → s.after es = some s' → I s'
  | [], s, s', hi, _, h => by cases h; exact hi
  | e :: es, s, s', hi, ho, h => by
    obtain ⟨t, h1, h2⟩ := after_cons h
    exact after_inv step es t s' (step s e t hi (ho e (by simp)) h1) (fun x hx => ho x (by simp [hx])) h2

/-! ### No checkpoint without a request -/

/-- nothing has been asked for -/
def Calm (s : Sys) : Prop := s.file = false ∧ ∀ p, s.proc = some p →
  p.pending = false ∧ p.flag = false ∧ p.int = .run ∧ (p.mon = none ∨ p.mon = some .poll)

theorem calm_step (s : Sys) (e : Ev) (s' : Sys) (hi : Calm s) (he : e ≠ .create) (h : s.next e = some s') : Calm s' ∧ e ≠ .checkpointed := by
  obtain ⟨f, p⟩ := s
  obtain ⟨rfl, hp⟩ := hi
  simp only at hp
  cases e with
  | create => exact absurd rfl he
  | delete => cases h; exact ⟨⟨rfl, hp⟩, nofun⟩
  | start a en =>
    cases p with
    | some p => cases h
    | none =>
      cases h
      refine ⟨⟨rfl, fun q hq => ?_⟩, nofun⟩
      cases hq
      refine ⟨rfl, rfl, rfl, ?_⟩
      cases a <;> cases en <;> simp [Proc.fresh]
  | _ =>
    cases p with
    | none => cases h
    | some p =>
      obtain ⟨h1, h2, h3, h4⟩ := hp p rfl
      first
        | (simp only [Sys.next, Option.bind_some, monitorStep] at h
           rcases h4 with h4 | h4
           · simp [h4] at h
           · simp only [h4, Bool.false_eq_true, if_false, Option.map_some, Option.some.injEq] at h
             subst h
             exact ⟨⟨rfl, fun q hq => by cases hq; exact ⟨h1, h2, h3, .inr h4⟩⟩, nofun⟩)
        | (simp [Sys.next, h1] at h; done)
        | (simp [Sys.next, h3] at h; done)
        | (simp only [Sys.next, Option.bind_some, lookStep, h2, h3] at h
           split at h
           · simp only [Bool.false_eq_true, if_false, Option.map_some, Option.some.injEq, ite_self] at h
             subst h
             exact ⟨⟨rfl, fun q hq => by cases hq; exact ⟨h1, h2, h3, h4⟩⟩, nofun⟩
           · cases h)
        | (simp [Sys.next, h3] at h
           subst h
           exact ⟨⟨rfl, nofun⟩, nofun⟩)
        | (cases h; exact ⟨⟨rfl, nofun⟩, nofun⟩)

/-- C61: whatever processes run, in whatever interleaving, if the trigger file does not exist at the beginning and nobody
creates it, no process stops for a checkpoint. -/
theorem no_checkpoint_without_request {es : List Ev} {s : Sys} (h : (Sys.mk false none).after es = some s) (hc : .create ∉ es) :
    .checkpointed ∉ es := by
  have key : ∀ (es : List Ev) (s s' : Sys), Calm s → .create ∉ es → s.after es = some s' → .checkpointed ∉ es := by
    intro es
    induction es with
    | nil => intro _ _ _ _ _; exact nofun
    | cons e es ih =>
      intro s s' hi hc h
      obtain ⟨t, h1, h2⟩ := after_cons h
      obtain ⟨h3, h4⟩ := calm_step s e t hi (fun he => hc (by simp [he])) h1
      intro hm
      rcases List.mem_cons.1 hm with hm | hm
      · exact h4 hm.symm
      · exact ih t s' h3 (fun he => hc (by simp [he])) h2 hm
  exact key es _ s ⟨rfl, fun p hp => by cases hp⟩ hc h

/-- two processes, one of each build, each looking at the trigger -/
example : ((Sys.mk false none).after [.start true true, .monitor, .look, .finish, .start false true, .look, .finish]).isSome = true := by
  decide

/-! ### The file-polling build -/

/-- requests that may still be answered: one being served by the interpreter, one lying in the directory (the file that is
about to be removed does not count twice) -/
def owed (s : Sys) : Nat :=
  match s.proc.map Proc.int with
  | none | some .run => s.file.toNat
  | some .remove => 1
  | some .stopping => 1 + s.file.toNat

/-- the file-polling build -/
def Polling (s : Sys) : Prop := ∀ p, s.proc = some p → p.atomics = false ∧ p.mon = none

/-- events of that build, with a file system that removes files -/
def PollEv : Ev → Prop
  | .start a _ => a = false
  | .unlink ok => ok = true
  | _ => True

/-- 1 for the given event -/
def one (e x : Ev) : Nat := if e = x then 1 else 0

theorem polling_step (s : Sys) (e : Ev) (s' : Sys) (hi : Polling s) (he : PollEv e) (h : s.next e = some s') :
    Polling s' ∧ owed s' + one e .checkpointed ≤ owed s + one e .create := by
  obtain ⟨f, p⟩ := s
  cases p with
  | none =>
    cases e with
    | create => cases h; exact ⟨nofun, by simp [owed, one]⟩
    | delete => cases h; exact ⟨nofun, by simp [owed, one]⟩
    | start a en =>
      cases h
      cases he
      refine ⟨fun q hq => ?_, by simp [owed, Proc.fresh, one]⟩
      cases hq; exact ⟨rfl, rfl⟩
    | _ => cases h
  | some p =>
    obtain ⟨h1, h2⟩ := hi p rfl
    obtain ⟨a, en, mon, pe, fl, i⟩ := p
    simp only at h1 h2
    subst h1 h2
    have keep : ∀ (f : Bool) (i : IntPc) pe fl, Polling ⟨f, some ⟨false, en, none, pe, fl, i⟩⟩ := fun f i pe fl q hq => by cases hq; exact ⟨rfl, rfl⟩
    cases e with
    | create => cases h; exact ⟨keep _ _ _ _, by cases i <;> cases f <;> simp [owed, one]⟩
    | delete => cases h; exact ⟨keep _ _ _ _, by cases i <;> simp [owed, one]⟩
    | start a' en' => cases h
    | monitor => cases h
    | flush =>
      cases pe with
      | false => cases h
      | true => cases h; exact ⟨keep _ _ _ _, by cases i <;> simp [owed, one]⟩
    | look =>
      simp only [Sys.next, Option.bind_some, lookStep] at h
      split at h
      · rename_i hr
        obtain ⟨_, hr⟩ := hr
        subst hr
        cases f <;> cases h <;> exact ⟨keep _ _ _ _, by simp [owed, one]⟩
      · cases h
    | unlink ok =>
      cases he
      cases i <;> cases h
      exact ⟨keep _ _ _ _, by simp [owed, one]⟩
    | checkpointed =>
      cases i <;> cases h
      exact ⟨nofun, by simp [owed, one]; omega⟩
    | finish => cases i <;> cases h; exact ⟨nofun, by simp [owed, one]⟩
    | kill => cases h; exact ⟨nofun, by cases i <;> cases f <;> simp [owed, one]⟩

/-- C61, file-polling build: in every history — any number of processes, crashes at any point — there are at most as many
checkpoints as requests, provided the file system removes the file when asked to. -/
theorem checkpoints_le_requests_partial {es : List Ev} {s : Sys} (h : (Sys.mk false none).after es = some s)
    (hb : ∀ a e, .start a e ∈ es → a = false) (hu : .unlink false ∉ es) : es.count .checkpointed ≤ es.count .create := by
  have key : ∀ (es : List Ev) (s s' : Sys), Polling s → (∀ e ∈ es, PollEv e) → s.after es = some s' →
      owed s' + es.count .checkpointed ≤ owed s + es.count .create := by
    intro es
    induction es with
    | nil => intro s s' _ _ h; cases h; simp
    | cons e es ih =>
      intro s s' hi ho h
      obtain ⟨t, h1, h2⟩ := after_cons h
      obtain ⟨h3, h4⟩ := polling_step s e t hi (ho e (by simp)) h1
      have := ih t s' h3 (fun x hx => ho x (by simp [hx])) h2
      simp only [List.count_cons, one] at *
      simp only [beq_iff_eq]
      omega
  have := key es _ s (fun p hp => by cases hp) (fun e he => by
    cases e with
    | start a en => exact hb a en he
    | unlink ok => cases ok with
      | true => rfl
      | false => exact absurd he hu
    | _ => trivial) h
  simp only [owed, Option.map_none, Bool.toNat_false] at this
  omega

/-- two requests, two checkpoints, and a crash in between -/
example : ((Sys.mk false none).after [.start false true, .create, .look, .unlink true, .checkpointed, .start false true, .create, .look,
    .kill, .start false true, .look, .unlink true, .checkpointed]).isSome = true := by decide

/-- a request lies in the directory, or is being served -/
def Kept (s : Sys) : Prop := s.file = true ∨ ∃ p, s.proc = some p ∧ p.int = .stopping

/-- C61, file-polling build: a request that is not withdrawn stays until a checkpoint has been made — in every history without
crashes, at a moment when no checkpoint is being written, the file is still there or a process has stopped for a checkpoint. -/
theorem request_kept_partial {es : List Ev} {s s' : Sys} (hs : Polling s) (hf : s.file = true) (h : s.after es = some s')
    (hb : ∀ a e, .start a e ∈ es → a = false) (hd : .delete ∉ es) (hk : .kill ∉ es)
    (hq : ∀ p, s'.proc = some p → p.int ≠ .stopping) : s'.file = true ∨ .checkpointed ∈ es := by
  have step : ∀ (s : Sys) (e : Ev) (s' : Sys), Polling s → Kept s → (∀ a en, e = .start a en → a = false) → e ≠ .delete → e ≠ .kill →
      s.next e = some s' → Polling s' ∧ (Kept s' ∨ e = .checkpointed) := by
    intro s e s' hi hkept hst hde hki h
    obtain ⟨f, p⟩ := s
    cases p with
    | none =>
      obtain hff | ⟨p, hp, _⟩ := hkept
      · simp only at hff
        subst hff
        cases e with
        | create => cases h; exact ⟨nofun, .inl (.inl rfl)⟩
        | delete => exact absurd rfl hde
        | start a en =>
          cases h
          have := hst a en rfl
          subst this
          exact ⟨fun q hq => by cases hq; exact ⟨rfl, rfl⟩, .inl (.inl rfl)⟩
        | _ => cases h
      · cases hp
    | some p =>
      obtain ⟨h1, h2⟩ := hi p rfl
      obtain ⟨a, en, mon, pe, fl, i⟩ := p
      simp only at h1 h2
      subst h1 h2
      have keep : ∀ (f : Bool) (i : IntPc) pe fl, Polling ⟨f, some ⟨false, en, none, pe, fl, i⟩⟩ := fun f i pe fl q hq => by cases hq; exact ⟨rfl, rfl⟩
      have hc : f = true ∨ i = .stopping := by
        obtain hff | ⟨p, hp, hi⟩ := hkept
        · exact .inl hff
        · cases hp; exact .inr hi
      have kept : ∀ (f : Bool) (i : IntPc) pe fl, f = true ∨ i = .stopping → Kept ⟨f, some ⟨false, en, none, pe, fl, i⟩⟩ := fun f i pe fl h =>
        h.elim .inl fun h => .inr ⟨_, rfl, h⟩
      cases e with
      | create => cases h; exact ⟨keep _ _ _ _, .inl (.inl rfl)⟩
      | delete => exact absurd rfl hde
      | kill => exact absurd rfl hki
      | start a' en' => cases h
      | monitor => cases h
      | flush =>
        cases pe with
        | false => cases h
        | true => cases h; exact ⟨keep _ _ _ _, .inl (kept _ _ _ _ hc)⟩
      | look =>
        simp only [Sys.next, Option.bind_some, lookStep] at h
        split at h
        · rename_i hr
          obtain ⟨_, hr⟩ := hr
          subst hr
          cases f
          · simp at hc
          · cases h; exact ⟨keep _ _ _ _, .inl (.inl rfl)⟩
        · cases h
      | unlink ok =>
        cases i <;> cases h
        exact ⟨keep _ _ _ _, .inl (kept _ _ _ _ (.inr rfl))⟩
      | checkpointed => cases i <;> cases h; exact ⟨nofun, .inr rfl⟩
      | finish =>
        cases i <;> cases h
        refine ⟨nofun, .inl (.inl ?_)⟩
        simpa using hc
  have key : ∀ (es : List Ev) (s s' : Sys), Polling s → Kept s → (∀ a e, .start a e ∈ es → a = false) → .delete ∉ es → .kill ∉ es →
      s.after es = some s' → Kept s' ∨ .checkpointed ∈ es := by
    intro es
    induction es with
    | nil => intro s s' _ hk _ _ _ h; cases h; exact .inl hk
    | cons e es ih =>
      intro s s' hi hk hb hd hki h
      obtain ⟨t, h1, h2⟩ := after_cons h
      obtain ⟨h3, h4⟩ := step s e t hi hk (fun a en he => hb a en (by simp [he])) (fun he => hd (by simp [he])) (fun he => hki (by simp [he])) h1
      rcases h4 with h4 | h4
      · rcases ih t s' h3 h4 (fun a en he => hb a en (by simp [he])) (fun he => hd (by simp [he])) (fun he => hki (by simp [he])) h2 with h5 | h5
        · exact .inl h5
        · exact .inr (by simp [h5])
      · exact .inr (by simp [h4])
  rcases key es s s' hs (.inl hf) hb hd hk h with h1 | h1
  · obtain h2 | ⟨p, h2, h3⟩ := h1
    · exact .inl h2
    · exact absurd h3 (hq p h2)
  · exact .inr h1

/-- the program ends before it looks: the request waits for the next process -/
example : (Sys.mk true none).after [.start false true, .finish] = some ⟨true, none⟩ := by decide

/-! ### The atomics build -/

/-- the monitor thread is running and has a request to deal with, or has dealt with it -/
def Noticed (s : Sys) : Prop := ∃ p, s.proc = some p ∧ p.atomics = true ∧ p.int ≠ .remove ∧ (p.flag = true → p.pending = true) ∧
  (p.mon = some .remove → p.pending = true) ∧ p.mon ≠ none ∧ (s.file = true ∨ p.pending = true)

/-- steps the monitor still needs -/
def monLeft (s : Sys) : Nat :=
  match s.proc with
  | none => 0
  | some p => if p.pending then 0 else match p.mon with
    | some .store => 1
    | _ => 2

/-- C61, atomics build: in every interleaving in which the process stays alive and the request is not withdrawn, after two
steps of the monitor thread and once its store is visible the flag is up, and the next look of the interpreter stops the
process. -/
theorem request_reaches_interpreter {es : List Ev} {p : Proc} {s' : Sys} (hm : p = Proc.fresh true true)
    (h : (Sys.mk true (some p)).after es = some s') (hn : ∀ e ∈ es, e ≠ .delete ∧ e ≠ .kill ∧ e ≠ .finish ∧ e ≠ .checkpointed)
    (h2 : 2 ≤ es.count .monitor) : ∃ q, s'.proc = some q ∧ ∃ t, s'.next .flush = some t ∧
      ∃ r, (t.next .look = some r ∨ (q.int = .stopping ∧ r = t)) ∧ ∃ q', r.proc = some q' ∧ q'.int = .stopping := by
  have step : ∀ (s : Sys) (e : Ev) (s' : Sys), Noticed s → (∀ q, s.proc = some q → q.enable = true) →
      e ≠ .delete ∧ e ≠ .kill ∧ e ≠ .finish ∧ e ≠ .checkpointed → s.next e = some s' →
      Noticed s' ∧ (∀ q, s'.proc = some q → q.enable = true) ∧ monLeft s' ≤ monLeft s - one e .monitor := by
    intro s e s' hi hen ho h
    obtain ⟨f, p⟩ := s
    obtain ⟨p, hp, ha, h3, h4, h5, h6, h7⟩ := hi
    simp only at hp h7
    subst hp
    have he := hen p rfl
    obtain ⟨a, en, mon, pe, fl, i⟩ := p
    simp only at ha he h3 h4 h5 h6 h7
    subst ha he
    cases e with
    | create => cases h; exact ⟨⟨_, rfl, rfl, h3, h4, h5, h6, .inl rfl⟩, hen, by simp [monLeft, one]⟩
    | delete => exact absurd rfl ho.1
    | kill => exact absurd rfl ho.2.1
    | finish => exact absurd rfl ho.2.2.1
    | checkpointed => exact absurd rfl ho.2.2.2
    | start a' en' => cases h
    | monitor =>
      cases mon with
      | none => exact absurd rfl h6
      | some m =>
        cases m with
        | poll =>
          cases f with
          | false =>
            simp only [Bool.false_eq_true, false_or] at h7
            subst h7
            cases h
            exact ⟨⟨_, rfl, rfl, h3, h4, h5, h6, .inr rfl⟩, fun q hq => by cases hq; rfl, by simp [monLeft, one]⟩
          | true =>
            cases h
            exact ⟨⟨_, rfl, rfl, h3, h4, nofun, nofun, .inl rfl⟩, fun q hq => by cases hq; rfl, by cases pe <;> simp [monLeft, one]⟩
        | store =>
          cases h
          exact ⟨⟨_, rfl, rfl, h3, fun _ => rfl, fun _ => rfl, nofun, .inr rfl⟩, fun q hq => by cases hq; rfl, by simp [monLeft, one]⟩
        | remove =>
          have := h5 rfl
          subst this
          cases h
          exact ⟨⟨_, rfl, rfl, h3, h4, nofun, nofun, .inr rfl⟩, fun q hq => by cases hq; rfl, by simp [monLeft, one]⟩
    | flush =>
      cases pe with
      | false => cases h
      | true =>
        cases h
        exact ⟨⟨_, rfl, rfl, h3, fun _ => rfl, fun _ => rfl, h6, .inr rfl⟩, fun q hq => by cases hq; rfl, by simp [monLeft, one]⟩
    | look =>
      simp only [Sys.next, Option.bind_some, lookStep] at h
      split at h
      · cases fl with
        | false => cases h; exact ⟨⟨_, rfl, rfl, h3, h4, h5, h6, h7⟩, fun q hq => by cases hq; rfl, by simp [monLeft, one]⟩
        | true => cases h; exact ⟨⟨_, rfl, rfl, nofun, h4, h5, h6, h7⟩, fun q hq => by cases hq; rfl, by simp [monLeft, one]⟩
      · cases h
    | unlink ok =>
      cases i <;> cases h
      exact absurd rfl h3
  have key : ∀ (es : List Ev) (s s' : Sys), Noticed s → (∀ q, s.proc = some q → q.enable = true) →
      (∀ e ∈ es, e ≠ .delete ∧ e ≠ .kill ∧ e ≠ .finish ∧ e ≠ .checkpointed) → s.after es = some s' →
      Noticed s' ∧ (∀ q, s'.proc = some q → q.enable = true) ∧ monLeft s' ≤ monLeft s - es.count .monitor := by
    intro es
    induction es with
    | nil => intro s s' hi hen _ h; cases h; exact ⟨hi, hen, by simp⟩
    | cons e es ih =>
      intro s s' hi hen ho h
      obtain ⟨t, h1, h2⟩ := after_cons h
      obtain ⟨h3, h4, h5⟩ := step s e t hi hen (ho e (by simp)) h1
      obtain ⟨h6, h7, h8⟩ := ih t s' h3 h4 (fun x hx => ho x (by simp [hx])) h2
      refine ⟨h6, h7, ?_⟩
      simp only [List.count_cons, one, beq_iff_eq] at *
      omega
  subst hm
  obtain ⟨⟨q, hq, ha, h3, h4, h5, h6, h7⟩, hen, hl⟩ := key es _ s' ⟨_, rfl, rfl, by decide, by decide, by decide, by decide, .inl rfl⟩
    (fun q hq => by cases hq; rfl) hn h
  have hp : q.pending = true := by
    have hl0 : monLeft s' = 0 := by
      have : monLeft ⟨true, some (Proc.fresh true true)⟩ = 2 := rfl
      omega
    unfold monLeft at hl0
    rw [hq] at hl0
    simp only at hl0
    split at hl0
    · assumption
    · split at hl0 <;> cases hl0
  refine ⟨q, hq, ⟨s'.file, some { q with flag := true }⟩, by simp [Sys.next, hq, hp], ?_⟩
  have he := hen q hq
  cases hi : q.int with
  | run =>
    refine ⟨⟨s'.file, some { q with flag := true, int := .stopping }⟩, .inl ?_, _, rfl, rfl⟩
    simp [Sys.next, lookStep, he, ha]
  | remove => exact absurd hi h3
  | stopping => exact ⟨_, .inr ⟨rfl, rfl⟩, _, rfl, rfl⟩

/-- the monitor is interrupted by looks and by a second request -/
example : ((Sys.mk true (some (Proc.fresh true true))).after [.look, .monitor, .create, .look, .monitor]).isSome = true := by decide

/-- C61, atomics build: once up, the flag stays up for the rest of the process, whatever happens to the file — this is the
assumption under which C32 bounds the time until the process stops (`trigger_bound_atomics`). -/
theorem flag_stays_up : ∀ {es : List Ev} {s s' : Sys} {p : Proc}, s.proc = some p → p.flag = true →
    (∀ e ∈ es, e ≠ .kill ∧ e ≠ .finish ∧ e ≠ .checkpointed) → s.after es = some s' → ∃ q, s'.proc = some q ∧ q.flag = true
  | [], s, s', p, hp, hf, _, h => by cases h; exact ⟨p, hp, hf⟩
  | e :: es, s, s', p, hp, hf, hn, h => by
    obtain ⟨t, h1, h2⟩ := after_cons h
    have ⟨q, hq, hqf⟩ : ∃ q, t.proc = some q ∧ q.flag = true := by
      have hne := hn e (by simp)
      cases e with
      | create => cases h1; exact ⟨p, hp, hf⟩
      | delete => cases h1; exact ⟨p, hp, hf⟩
      | start a en => simp [Sys.next, hp] at h1
      | monitor =>
        simp only [Sys.next, hp, Option.bind_some, monitorStep] at h1
        split at h1
        · cases h1
        · cases hfile : s.file <;> (simp [hfile] at h1; subst h1; exact ⟨_, rfl, hf⟩)
        · cases h1; exact ⟨_, rfl, hf⟩
        · cases h1; exact ⟨_, rfl, hf⟩
      | flush =>
        simp only [Sys.next, hp, Option.bind_some] at h1
        split at h1 <;> cases h1
        exact ⟨_, rfl, rfl⟩
      | look =>
        simp only [Sys.next, hp, Option.bind_some, lookStep] at h1
        split at h1
        · cases h1
          refine ⟨_, rfl, ?_⟩
          cases p.atomics <;> cases s.file <;> simp [hf]
        · cases h1
      | unlink ok =>
        simp only [Sys.next, hp, Option.bind_some] at h1
        split at h1 <;> cases h1
        exact ⟨_, rfl, hf⟩
      | checkpointed => exact absurd rfl hne.2.2
      | finish => exact absurd rfl hne.2.1
      | kill => exact absurd rfl hne.1
    exact flag_stays_up hq hqf (fun x hx => hn x (by simp [hx])) h2

example : ((Sys.mk true (some { Proc.fresh true true with flag := true, pending := true, mon := some .remove })).after
    [.monitor, .create, .delete, .look]).isSome = true := by decide

/-- C61 is false of the atomics build: a single request may be answered any number of times, because the process may be gone
before its monitor thread has removed the file; then the next process — the restored one — stops, too. -/
theorem request_answered_repeatedly_violated (n : Nat) : ∃ es s, (Sys.mk false none).after es = some s ∧
    es.count .create = 1 ∧ es.count .checkpointed = n ∧ .kill ∉ es := by
  let cycle : List Ev := [.start true true, .monitor, .monitor, .flush, .look, .checkpointed]
  have hc : (Sys.mk true none).after cycle = some ⟨true, none⟩ := by decide
  have hr : ∀ n, (Sys.mk true none).after (List.replicate n cycle).flatten = some ⟨true, none⟩ := by
    intro n
    induction n with
    | zero => rfl
    | succ n ih => rw [List.replicate_succ, List.flatten_cons, after_append, hc]; exact ih
  have hcount : ∀ n (e : Ev), (List.replicate n cycle).flatten.count e = n * cycle.count e := by
    intro n e
    induction n with
    | zero => simp
    | succ n ih => rw [List.replicate_succ, List.flatten_cons, List.count_append, ih, Nat.succ_mul, Nat.add_comm]
  have e1 : cycle.count Ev.create = 0 := by decide
  have e2 : cycle.count Ev.checkpointed = 1 := by decide
  have e3 : cycle.count Ev.kill = 0 := by decide
  refine ⟨.create :: (List.replicate n cycle).flatten, ⟨true, none⟩, by rw [Sys.after]; exact hr n, ?_, ?_, ?_⟩
  · rw [List.count_cons, hcount, e1]; simp
  · rw [List.count_cons, hcount, e2]; simp
  · rw [List.mem_cons, ← List.count_pos_iff, hcount, e3]; simp

/-- C61 is false of the atomics build: a request may vanish unanswered, although it is not withdrawn and nothing crashes — the
monitor thread has removed the file when the program comes to its end. -/
theorem request_lost_violated : ∃ es, (Sys.mk false none).after es = some ⟨false, none⟩ ∧ es.count .create = 1 ∧
    .checkpointed ∉ es ∧ .delete ∉ es ∧ .kill ∉ es :=
  ⟨[.start true true, .create, .monitor, .monitor, .monitor, .finish], by decide⟩

end Verif.Props
