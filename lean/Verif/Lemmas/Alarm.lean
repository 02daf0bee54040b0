import Verif.Spec.Asks
/-
A host that ends the process when it is asked one given question (C65).
-/
namespace Verif.Lemmas
open Verif.Model Verif.Spec

open Classical in
/-- like `S`, but ends the process with code `c` when asked `q`, and at no other time -/
@[reducible] noncomputable def alarm (S : Wasi) (q : Ask S.W) (c : BitVec 32) : Wasi where
  W := S.W
  call id ps m w := if (⟨id, ps, m, w⟩ : Ask S.W) = q then .trap (.processExit c) else
    match S.call id ps m w with
    | .trap (.processExit _) => .panic
    | r => r

variable {S : Wasi} {Q : SProg} {M : MInfo} {q : Ask S.W} {c : BitVec 32}

theorem alarm_rings (q : Ask S.W) (c : BitVec 32) : (alarm S q c).call q.id q.args q.mem q.world = .trap (.processExit c) := if_pos rfl

theorem alarm_else {id : Nat} {ps : List Val} {m : Mem} {w : S.W} (h : (⟨id, ps, m, w⟩ : Ask S.W) ≠ q) :
    (alarm S q c).call id ps m w = match S.call id ps m w with
      | .trap (.processExit _) => .panic
      | r => r := if_neg h

theorem alarm_ok {id : Nat} {ps : List Val} {m : Mem} {w : S.W} {r} :
    (alarm S q c).call id ps m w = .ok r ↔ (⟨id, ps, m, w⟩ : Ask S.W) ≠ q ∧ S.call id ps m w = .ok r := by
  by_cases h : (⟨id, ps, m, w⟩ : Ask S.W) = q
  · subst h
    rw [alarm_rings (q := ⟨id, ps, m, w⟩)]
    exact ⟨nofun, fun h => (h.1 rfl).elim⟩
  · rw [alarm_else h]
    refine ⟨fun k => ⟨h, ?_⟩, fun k => by rw [k.2]⟩
    split at k
    · cases k
    · exact k

theorem alarm_exit {id : Nat} {ps : List Val} {m : Mem} {w : S.W} {c' : BitVec 32}
    (h : (alarm S q c).call id ps m w = .trap (.processExit c')) : c' = c ∧ q = ⟨id, ps, m, w⟩ := by
  by_cases hq : (⟨id, ps, m, w⟩ : Ask S.W) = q
  · subst hq
    rw [alarm_rings (q := ⟨id, ps, m, w⟩)] at h
    cases h
    exact ⟨rfl, rfl⟩
  · rw [alarm_else hq] at h
    split at h
    · cases h
    · rename_i hne; exact (hne _ h).elim

theorem alarm_ub {id : Nat} {ps : List Val} {m : Mem} {w : S.W} (h : (alarm S q c).call id ps m w = .ub) : S.call id ps m w = .ub := by
  by_cases hq : (⟨id, ps, m, w⟩ : Ask S.W) = q
  · subst hq
    rw [alarm_rings (q := ⟨id, ps, m, w⟩)] at h
    cases h
  · rw [alarm_else hq] at h
    split at h
    · cases h
    · exact h

theorem ex2 {α β : Type} {P R : α → β → Prop} (f : ∀ a b, P a b → R a b) : (∃ a b, P a b) → ∃ a b, R a b
  | ⟨a, b, h⟩ => ⟨a, b, f a b h⟩

/-- without the exits -/
def muffle {W : Type} : WOut W → WOut W
  | .exit _ st w => .trap st w
  | o => o

def muffleC {W : Type} : CallOut W → CallOut W
  | .exit _ st w => .trap st w
  | o => o

def muffleX {W : Type} : WOut W ⊕ (List Val × SSt W) → WOut W ⊕ (List Val × SSt W)
  | .inl o => .inl (muffle o)
  | .inr p => .inr p

theorem leaves_muffle {W : Type} {n : Nat} {rest : List Val} {o : WOut W} {x} (h : Spec.Leaves n rest o x) :
    Spec.Leaves n rest (muffle o) (muffleX x) := by
  cases h <;> constructor

theorem returns_muffle {W : Type} {locals rest : List Val} {o : CallOut W} {x} (h : Returns locals rest o x) :
    Returns locals rest (muffleC o) (muffleX x) := by
  cases h <;> constructor

/-- a host function called with the alarm on -/
theorem host_alarm {t : FuncType} {id : Nat} {args : List Val} {st : Store} {w : S.W} {o : CallOut S.W} (h : Call S Q M (.wasi t id) args st w o) :
    (∃ st' w', Call (alarm S q c) Q M (.wasi t id) args st w (.exit c st' w')) ∨ Call (alarm S q c) Q M (.wasi t id) args st w (muffleC o) := by
  cases h with
  | @host _ _ _ _ m v m' w' _ hm h hv =>
    by_cases hq : (⟨id, args, m, w⟩ : Ask S.W) = q
    · subst hq; exact .inl ⟨_, _, .hostExits hm (alarm_rings (q := ⟨id, args, m, w⟩) c)⟩
    · exact .inr (.host hm (alarm_ok.mpr ⟨hq, h⟩) hv)
  | @hostExits _ _ _ _ m c' _ hm h =>
    by_cases hq : (⟨id, args, m, w⟩ : Ask S.W) = q
    · subst hq; exact .inl ⟨_, _, .hostExits hm (alarm_rings (q := ⟨id, args, m, w⟩) c)⟩
    · exact .inr (.hostRefuses hm (.inr (by rw [alarm_else hq, h])))
  | @hostFails _ _ _ _ m m' w' _ hm h =>
    by_cases hq : (⟨id, args, m, w⟩ : Ask S.W) = q
    · subst hq; exact .inl ⟨_, _, .hostExits hm (alarm_rings (q := ⟨id, args, m, w⟩) c)⟩
    · exact .inr (.hostFails hm (alarm_ok.mpr ⟨hq, h⟩))
  | @hostRefuses _ _ _ _ m _ hm h =>
    by_cases hq : (⟨id, args, m, w⟩ : Ask S.W) = q
    · subst hq; exact .inl ⟨_, _, .hostExits hm (alarm_rings (q := ⟨id, args, m, w⟩) c)⟩
    · refine .inr (.hostRefuses hm ?_)
      rcases h with ⟨e, h, hne⟩ | h
      · refine .inl ⟨e, ?_, hne⟩
        rw [alarm_else hq, h]
        split
        · rename_i he; cases he; exact (hne _ rfl).elim
        · rfl
      · exact .inr (by rw [alarm_else hq, h])
  | hostOdd h =>
    by_cases hq : ∃ m, st.mem = some m ∧ (⟨id, args, m, w⟩ : Ask S.W) = q
    · obtain ⟨m, hm, hq⟩ := hq
      subst hq; exact .inl ⟨_, _, .hostExits hm (alarm_rings (q := ⟨id, args, m, w⟩) c)⟩
    · refine .inr (.hostOdd fun m hm => ?_)
      rw [alarm_else fun e => hq ⟨m, hm, e⟩, h m hm]

/-- what happens with the host `S` happens with the alarm, unless it rings -/
theorem ev_alarm {w : WSeq} {stk : List Val} {s : SSt S.W} {out : WOut S.W} (h : Ev S Q M w stk s out) :
    (∃ st' w', Ev (alarm S q c) Q M w stk s (.exit c st' w')) ∨ Ev (alarm S q c) Q M w stk s (muffle out) := by
  induction h using Ev.rec (S := S)
    (motive_2 := fun k x out _ => (∃ st' w', After (alarm S q c) Q M k (muffleX x) (.exit c st' w')) ∨ After (alarm S q c) Q M k (muffleX x) (muffle out))
    (motive_3 := fun F args st w o _ => (∃ st' w', Call (alarm S q c) Q M F args st w (.exit c st' w')) ∨ Call (alarm S q c) Q M F args st w (muffleC o)) with
  | done => exact .inr .done
  | next h hk ih => exact ih.imp (ex2 fun _ _ => .next h) (.next h)
  | trap h => exact .inr (.trap h)
  | odd h => exact .inr (.odd h)
  | br => exact .inr .br
  | brIf h => exact .inr (.brIf h)
  | brIf0 hk ih => exact ih.imp (ex2 fun _ _ => .brIf0) .brIf0
  | brTable h => exact .inr (.brTable h)
  | brTableD h => exact .inr (.brTableD h)
  | ret => exact .inr .ret
  | call hf ha hc hr hx ihc ihx =>
    rcases ihc with ⟨_, _, h⟩ | h
    · exact .inl ⟨_, _, .call hf ha h .exit .stop⟩
    · exact ihx.imp (ex2 fun _ _ => .call hf ha h (returns_muffle hr)) (.call hf ha h (returns_muffle hr))
  | callIndirect ht he hf hty ha hc hr hx ihc ihx =>
    rcases ihc with ⟨_, _, h⟩ | h
    · exact .inl ⟨_, _, .callIndirect ht he hf hty ha h .exit .stop⟩
    · exact ihx.imp (ex2 fun _ _ => .callIndirect ht he hf hty ha h (returns_muffle hr)) (.callIndirect ht he hf hty ha h (returns_muffle hr))
  | callOutside ht he => exact .inr (.callOutside ht he)
  | callNull ht he hr => exact .inr (.callNull ht he hr)
  | callHost ht he hf => exact .inr (.callHost ht he hf)
  | callNoTable h => exact .inr (.callNoTable h)
  | block hp hb hl hx ihb ihx =>
    rcases ihb with ⟨_, _, h⟩ | h
    · exact .inl ⟨_, _, .block hp h .exit .stop⟩
    · exact ihx.imp (ex2 fun _ _ => .block hp h (leaves_muffle hl)) (.block hp h (leaves_muffle hl))
  | @loop bt b k stk s o x out ps hp hb h0 hl hx ihb ihx =>
    rcases ihb with ⟨_, _, h⟩ | h
    · exact .inl ⟨_, _, .loop hp h (by intro _ _ h; cases h) .exit .stop⟩
    · have h0 : ∀ vs s', muffle o ≠ .br 0 vs s' := by
        cases o <;> first | exact h0 | (intro _ _ h; cases h; done)
      exact ihx.imp (ex2 fun _ _ => .loop hp h h0 (leaves_muffle hl)) (.loop hp h h0 (leaves_muffle hl))
  | again hp hb hx ihb ihx =>
    rcases ihb with ⟨_, _, h⟩ | h
    · exact .inl ⟨_, _, .loop hp h (by intro _ _ h; cases h) .exit .stop⟩
    · exact ihx.imp (ex2 fun _ _ => .again hp h) (.again hp h)
  | ite hc hp hb hl hx ihb ihx =>
    rcases ihb with ⟨_, _, h⟩ | h
    · exact .inl ⟨_, _, .ite hc hp h .exit .stop⟩
    · exact ihx.imp (ex2 fun _ _ => .ite hc hp h (leaves_muffle hl)) (.ite hc hp h (leaves_muffle hl))
  | ite0 hp hx ih => exact ih.imp (ex2 fun _ _ => .ite0 hp) (.ite0 hp)
  | itee hc hp hb hl hx ihb ihx =>
    rcases ihb with ⟨_, _, h⟩ | h
    · exact .inl ⟨_, _, .itee hc hp h .exit .stop⟩
    · exact ihx.imp (ex2 fun _ _ => .itee hc hp h (leaves_muffle hl)) (.itee hc hp h (leaves_muffle hl))
  | itee0 hp hb hl hx ihb ihx =>
    rcases ihb with ⟨_, _, h⟩ | h
    · exact .inl ⟨_, _, .itee0 hp h .exit .stop⟩
    · exact ihx.imp (ex2 fun _ _ => .itee0 hp h (leaves_muffle hl)) (.itee0 hp h (leaves_muffle hl))
  | stop => exact .inr .stop
  | go hk ih => exact ih.imp (ex2 fun _ _ => .go) .go
  | norm h ih => exact ih.imp (ex2 fun _ _ => .exitOut) .norm
  | brOut h ih => exact ih.imp (ex2 fun _ _ => .exitOut) .brOut
  | retOut h ih => exact ih.imp (ex2 fun _ _ => .exitOut) .retOut
  | trapOut h ih => exact ih.imp (ex2 fun _ _ => .exitOut) .trapOut
  | exitOut h ih => exact ih.imp (ex2 fun _ _ => .exitOut) .trapOut
  | oddOut h ih => exact ih.imp (ex2 fun _ _ => .exitOut) .oddOut
  | host hm h hv => exact host_alarm (.host hm h hv)
  | hostExits hm h => exact host_alarm (.hostExits hm h)
  | hostFails hm h => exact host_alarm (.hostFails hm h)
  | hostRefuses hm h => exact host_alarm (.hostRefuses hm h)
  | hostOdd h => exact host_alarm (.hostOdd h)

/-- the same of calls -/
theorem call_alarm {F : SFunc} {args : List Val} {st : Store} {w : S.W} {o : CallOut S.W} (h : Call S Q M F args st w o) :
    (∃ st' w', Call (alarm S q c) Q M F args st w (.exit c st' w')) ∨ Call (alarm S q c) Q M F args st w (muffleC o) := by
  cases h with
  | norm h => exact (ev_alarm h).imp (ex2 fun _ _ => .exitOut) .norm
  | brOut h => exact (ev_alarm h).imp (ex2 fun _ _ => .exitOut) .brOut
  | retOut h => exact (ev_alarm h).imp (ex2 fun _ _ => .exitOut) .retOut
  | trapOut h => exact (ev_alarm h).imp (ex2 fun _ _ => .exitOut) .trapOut
  | exitOut h => exact (ev_alarm h).imp (ex2 fun _ _ => .exitOut) .trapOut
  | oddOut h => exact (ev_alarm h).imp (ex2 fun _ _ => .exitOut) .oddOut
  | host hm h hv => exact host_alarm (.host hm h hv)
  | hostExits hm h => exact host_alarm (.hostExits hm h)
  | hostFails hm h => exact host_alarm (.hostFails hm h)
  | hostRefuses hm h => exact host_alarm (.hostRefuses hm h)
  | hostOdd h => exact host_alarm (.hostOdd h)

/-- after a block or call that did not ring -/
theorem block_alarm {n : Nat} {rest : List Val} {o : WOut S.W} {stk : List Val} {s : SSt S.W} (h : Spec.Leaves n rest o (.inr (stk, s))) :
    muffle o = o := by
  cases h <;> rfl

theorem return_alarm {locals rest : List Val} {o : CallOut S.W} {stk : List Val} {s : SSt S.W} (h : Returns locals rest o (.inr (stk, s))) :
    muffleC o = o := by
  cases h; rfl

/-- what is asked rings the alarm -/
theorem asks_alarm {w : WSeq} {stk : List Val} {s : SSt S.W} (h : Asks S Q M w stk s q) : (∃ st' w', Ev (alarm S q c) Q M w stk s (.exit c st' w')) := by
  induction h using Asks.rec (S := S) (motive_2 := fun F args st w q _ => (∃ st' w', Call (alarm S q c) Q M F args st w (.exit c st' w'))) with
  | next h hk ih => obtain ⟨_, _, ih⟩ := ih; exact ⟨_, _, .next h ih⟩
  | brIf0 hk ih => obtain ⟨_, _, ih⟩ := ih; exact ⟨_, _, .brIf0 ih⟩
  | inCall hf ha hc ih => obtain ⟨_, _, ih⟩ := ih; exact ⟨_, _, .call hf ha ih .exit .stop⟩
  | afterCall hf ha hc hr hk ih =>
    obtain ⟨_, _, ih⟩ := ih
    rcases call_alarm hc with ⟨_, _, h⟩ | h
    · exact ⟨_, _, .call hf ha h .exit .stop⟩
    · rw [return_alarm hr] at h; exact ⟨_, _, .call hf ha h hr (.go ih)⟩
  | inIndirect ht he hf hty ha hc ih => obtain ⟨_, _, ih⟩ := ih; exact ⟨_, _, .callIndirect ht he hf hty ha ih .exit .stop⟩
  | afterIndirect ht he hf hty ha hc hr hk ih =>
    obtain ⟨_, _, ih⟩ := ih
    rcases call_alarm hc with ⟨_, _, h⟩ | h
    · exact ⟨_, _, .callIndirect ht he hf hty ha h .exit .stop⟩
    · rw [return_alarm hr] at h; exact ⟨_, _, .callIndirect ht he hf hty ha h hr (.go ih)⟩
  | inBlock hp hb ih => obtain ⟨_, _, ih⟩ := ih; exact ⟨_, _, .block hp ih .exit .stop⟩
  | afterBlock hp hb hl hk ih =>
    obtain ⟨_, _, ih⟩ := ih
    rcases ev_alarm hb with ⟨_, _, h⟩ | h
    · exact ⟨_, _, .block hp h .exit .stop⟩
    · rw [block_alarm hl] at h; exact ⟨_, _, .block hp h hl (.go ih)⟩
  | inLoop hp hb ih => obtain ⟨_, _, ih⟩ := ih; exact ⟨_, _, .loop hp ih (by intro _ _ h; cases h) .exit .stop⟩
  | afterLoop hp hb h0 hl hk ih =>
    obtain ⟨_, _, ih⟩ := ih
    rcases ev_alarm hb with ⟨_, _, h⟩ | h
    · exact ⟨_, _, .loop hp h (by intro _ _ h; cases h) .exit .stop⟩
    · rw [block_alarm hl] at h; exact ⟨_, _, .loop hp h h0 hl (.go ih)⟩
  | again hp hb hx ih =>
    obtain ⟨_, _, ih⟩ := ih
    rcases ev_alarm hb with ⟨_, _, h⟩ | h
    · exact ⟨_, _, .loop hp h (by intro _ _ h; cases h) .exit .stop⟩
    · exact ⟨_, _, .again hp h ih⟩
  | inIte hc hp hb ih => obtain ⟨_, _, ih⟩ := ih; exact ⟨_, _, .ite hc hp ih .exit .stop⟩
  | afterIte hc hp hb hl hk ih =>
    obtain ⟨_, _, ih⟩ := ih
    rcases ev_alarm hb with ⟨_, _, h⟩ | h
    · exact ⟨_, _, .ite hc hp h .exit .stop⟩
    · rw [block_alarm hl] at h; exact ⟨_, _, .ite hc hp h hl (.go ih)⟩
  | ite0 hp hx ih => obtain ⟨_, _, ih⟩ := ih; exact ⟨_, _, .ite0 hp ih⟩
  | inThen hc hp hb ih => obtain ⟨_, _, ih⟩ := ih; exact ⟨_, _, .itee hc hp ih .exit .stop⟩
  | afterThen hc hp hb hl hk ih =>
    obtain ⟨_, _, ih⟩ := ih
    rcases ev_alarm hb with ⟨_, _, h⟩ | h
    · exact ⟨_, _, .itee hc hp h .exit .stop⟩
    · rw [block_alarm hl] at h; exact ⟨_, _, .itee hc hp h hl (.go ih)⟩
  | inElse hp hb ih => obtain ⟨_, _, ih⟩ := ih; exact ⟨_, _, .itee0 hp ih .exit .stop⟩
  | afterElse hp hb hl hk ih =>
    obtain ⟨_, _, ih⟩ := ih
    rcases ev_alarm hb with ⟨_, _, h⟩ | h
    · exact ⟨_, _, .itee0 hp h .exit .stop⟩
    · rw [block_alarm hl] at h; exact ⟨_, _, .itee0 hp h hl (.go ih)⟩
  | body h ih => obtain ⟨_, _, ih⟩ := ih; exact ⟨_, _, .exitOut ih⟩
  | @host t id st w m args hm => exact ⟨_, _, .hostExits hm (alarm_rings (q := ⟨id, args, m, w⟩) c)⟩

theorem callAsks_alarm {F : SFunc} {args : List Val} {st : Store} {w : S.W} (h : CallAsks S Q M F args st w q) :
    (∃ st' w', Call (alarm S q c) Q M F args st w (.exit c st' w')) := by
  cases h with
  | body h => obtain ⟨_, _, h⟩ := asks_alarm (c := c) h; exact ⟨_, _, .exitOut h⟩
  | @host t id _ _ m _ hm => exact ⟨_, _, .hostExits hm (alarm_rings (q := ⟨id, args, m, w⟩) c)⟩

/-! ### and nothing else does -/

/-- what an end with the alarm on says about `S` -/
def Real (S : Wasi) (Q : SProg) (M : MInfo) (q : Ask S.W) (c : BitVec 32) (w : WSeq) (stk : List Val) (s : SSt S.W) : WOut S.W → Prop
  | .exit c' _ _ => c' = c ∧ Asks S Q M w stk s q
  | .trap _ _ => True
  | o => Ev S Q M w stk s o

def RealC (S : Wasi) (Q : SProg) (M : MInfo) (q : Ask S.W) (c : BitVec 32) (F : SFunc) (args : List Val) (st : Store) (w : S.W) :
    CallOut S.W → Prop
  | .exit c' _ _ => c' = c ∧ CallAsks S Q M F args st w q
  | .trap _ _ => True
  | o => Call S Q M F args st w o

def RealX (S : Wasi) (Q : SProg) (M : MInfo) (q : Ask S.W) (c : BitVec 32) (k : WSeq) : WOut S.W ⊕ (List Val × SSt S.W) → WOut S.W → Prop
  | .inl o, out => out = o
  | .inr (stk, s), out => Real S Q M q c k stk s out

/-- the rest of a sequence -/
theorem Real.up {w w' : WSeq} {stk stk' : List Val} {s s' : SSt S.W} {out : WOut S.W} (h : Real S Q M q c w' stk' s' out)
    (f : ∀ o, Ev S Q M w' stk' s' o → Ev S Q M w stk s o) (g : Asks S Q M w' stk' s' q → Asks S Q M w stk s q) :
    Real S Q M q c w stk s out := by
  cases out with
  | exit => exact ⟨h.1, g h.2⟩
  | trap => trivial
  | norm => exact f _ h
  | br => exact f _ h
  | ret => exact f _ h
  | odd => exact f _ h

theorem Real.ends {w w' : WSeq} {stk stk' : List Val} {s s' : SSt S.W} {o : WOut S.W} (h : Real S Q M q c w' stk' s' o)
    (f : Ev S Q M w' stk' s' o → Ev S Q M w stk s o) (g : Asks S Q M w' stk' s' q → Asks S Q M w stk s q) :
    Real S Q M q c w stk s o := by
  cases o with
  | exit => exact ⟨h.1, g h.2⟩
  | trap => trivial
  | norm => exact f h
  | br => exact f h
  | ret => exact f h
  | odd => exact f h

/-- a block and what follows it -/
theorem Real.block {w b k : WSeq} {stk stk' rest : List Val} {s s' : SSt S.W} {n : Nat} {o out : WOut S.W} {x : WOut S.W ⊕ (List Val × SSt S.W)}
    (hb : Real S Q M q c b stk' s' o) (hl : Spec.Leaves n rest o x) (hx : RealX S Q M q c k x out)
    (f : Ev S Q M b stk' s' o → ∀ out, After S Q M k x out → Ev S Q M w stk s out)
    (g : Asks S Q M b stk' s' q → Asks S Q M w stk s q)
    (g' : Ev S Q M b stk' s' o → ∀ stk1 s1, x = .inr (stk1, s1) → Asks S Q M k stk1 s1 q → Asks S Q M w stk s q) :
    Real S Q M q c w stk s out := by
  cases hl with
  | norm => exact Real.up hx (fun o h => f hb _ (.go h)) (g' hb _ _ rfl)
  | leave => exact Real.up hx (fun o h => f hb _ (.go h)) (g' hb _ _ rfl)
  | outer => cases hx; exact f hb _ .stop
  | ret => cases hx; exact f hb _ .stop
  | trap => cases hx; trivial
  | exit => cases hx; exact ⟨hb.1, g hb.2⟩
  | odd => cases hx; exact f hb _ .stop

/-- a call and what follows it -/
theorem Real.call {w k : WSeq} {F : SFunc} {args stk locals rest : List Val} {s : SSt S.W} {st : Store} {wd : S.W} {o : CallOut S.W}
    {out : WOut S.W} {x : WOut S.W ⊕ (List Val × SSt S.W)}
    (hc : RealC S Q M q c F args st wd o) (hr : Returns locals rest o x) (hx : RealX S Q M q c k x out)
    (f : Call S Q M F args st wd o → ∀ out, After S Q M k x out → Ev S Q M w stk s out)
    (g : CallAsks S Q M F args st wd q → Asks S Q M w stk s q)
    (g' : Call S Q M F args st wd o → ∀ stk1 s1, x = .inr (stk1, s1) → Asks S Q M k stk1 s1 q → Asks S Q M w stk s q) :
    Real S Q M q c w stk s out := by
  cases hr with
  | ok => exact Real.up hx (fun o h => f hc _ (.go h)) (g' hc _ _ rfl)
  | trap => cases hx; trivial
  | exit => cases hx; exact ⟨hc.1, g hc.2⟩
  | odd => cases hx; exact f hc _ .stop

theorem host_real {t : FuncType} {id : Nat} {args : List Val} {st : Store} {w : (alarm S q c).W} {o : CallOut (alarm S q c).W}
    (h : Call (alarm S q c) Q M (.wasi t id) args st w o) : RealC S Q M q c (.wasi t id) args st w o := by
  cases h with
  | host hm h hv => exact .host hm (alarm_ok.mp h).2 hv
  | hostExits hm h =>
    obtain ⟨h1, h2⟩ := alarm_exit h
    exact ⟨h1, by rw [h2]; exact .host hm⟩
  | hostFails hm h => trivial
  | hostRefuses hm h => trivial
  | hostOdd h => exact .hostOdd fun m hm => alarm_ub (h m hm)

theorem ev_real {w : WSeq} {stk : List Val} {s : SSt S.W} {out : WOut S.W} (h : Ev (alarm S q c) Q M w stk s out) :
    Real S Q M q c w stk s out := by
  induction h using Ev.rec (S := alarm S q c) (motive_2 := fun k x out _ => RealX S Q M q c k x out)
    (motive_3 := fun F args st w o _ => RealC S Q M q c F args st w o) with
  | done => exact .done
  | next h hk ih => exact ih.up (fun _ => .next h) (.next h)
  | trap h => trivial
  | odd h => exact .odd h
  | br => exact .br
  | brIf h => exact .brIf h
  | brIf0 hk ih => exact ih.up (fun _ => .brIf0) .brIf0
  | brTable h => exact .brTable h
  | brTableD h => exact .brTableD h
  | ret => exact .ret
  | call hf ha hc hr hx ihc ihx =>
    exact Real.call ihc hr ihx (fun h _ => .call hf ha h hr) (.inCall hf ha) (fun h _ _ e => .afterCall hf ha h (e ▸ hr))
  | callIndirect ht he hf hty ha hc hr hx ihc ihx =>
    exact Real.call ihc hr ihx (fun h _ => .callIndirect ht he hf hty ha h hr) (.inIndirect ht he hf hty ha)
      (fun h _ _ e => .afterIndirect ht he hf hty ha h (e ▸ hr))
  | callOutside ht he => trivial
  | callNull ht he hr => trivial
  | callHost ht he hf => exact .callHost ht he hf
  | callNoTable h => exact .callNoTable h
  | block hp hb hl hx ihb ihx =>
    exact ihb.block hl ihx (fun h _ => .block hp h hl) (.inBlock hp) (fun h _ _ e => .afterBlock hp h (e ▸ hl))
  | loop hp hb h0 hl hx ihb ihx =>
    exact ihb.block hl ihx (fun h _ => .loop hp h h0 hl) (.inLoop hp) (fun h _ _ e => .afterLoop hp h h0 (e ▸ hl))
  | again hp hb hx ihb ihx => exact ihx.up (fun _ => .again hp ihb) (.again hp ihb)
  | ite hc hp hb hl hx ihb ihx =>
    exact ihb.block hl ihx (fun h _ => .ite hc hp h hl) (.inIte hc hp) (fun h _ _ e => .afterIte hc hp h (e ▸ hl))
  | ite0 hp hx ih => exact ih.up (fun _ => .ite0 hp) (.ite0 hp)
  | itee hc hp hb hl hx ihb ihx =>
    exact ihb.block hl ihx (fun h _ => .itee hc hp h hl) (.inThen hc hp) (fun h _ _ e => .afterThen hc hp h (e ▸ hl))
  | itee0 hp hb hl hx ihb ihx =>
    exact ihb.block hl ihx (fun h _ => .itee0 hp h hl) (.inElse hp) (fun h _ _ e => .afterElse hp h (e ▸ hl))
  | stop => rfl
  | go hk ih => exact ih
  | norm h ih => exact .norm ih
  | brOut h ih => exact .brOut ih
  | retOut h ih => exact .retOut ih
  | trapOut h ih => trivial
  | exitOut h ih => exact ⟨ih.1, .body ih.2⟩
  | oddOut h ih => exact .oddOut ih
  | host hm h hv => exact host_real (.host hm h hv)
  | hostExits hm h => exact host_real (.hostExits hm h)
  | hostFails hm h => trivial
  | hostRefuses hm h => trivial
  | hostOdd h => exact host_real (.hostOdd h)

theorem call_real {F : SFunc} {args : List Val} {st : Store} {w : (alarm S q c).W} {o : CallOut (alarm S q c).W} (h : Call (alarm S q c) Q M F args st w o) :
    RealC S Q M q c F args st w o := by
  cases h with
  | norm h => exact .norm (ev_real h)
  | brOut h => exact .brOut (ev_real h)
  | retOut h => exact .retOut (ev_real h)
  | trapOut h => trivial
  | exitOut h => exact ⟨(ev_real h).1, .body (ev_real h).2⟩
  | oddOut h => exact .oddOut (ev_real h)
  | host hm h hv => exact host_real (.host hm h hv)
  | hostExits hm h => exact host_real (.hostExits hm h)
  | hostFails hm h => trivial
  | hostRefuses hm h => trivial
  | hostOdd h => exact host_real (.hostOdd h)

/-- the alarm rings exactly if the question is asked -/
theorem rings_iff {F : SFunc} {args : List Val} {st : Store} {w : S.W} :
    (∃ st' w', Call (alarm S q c) Q M F args st w (.exit c st' w')) ↔ CallAsks S Q M F args st w q :=
  ⟨fun ⟨_, _, h⟩ => (call_real h).2, callAsks_alarm⟩

end Verif.Lemmas
