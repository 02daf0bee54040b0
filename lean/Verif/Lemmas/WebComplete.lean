import Verif.Lemmas.WebOpDet
import Verif.Lemmas.WebRun
/-
Fuel of the source-level semantics, and completeness for the rules of `Spec.WebAssembly`.
-/
namespace Verif.Lemmas
open Verif.Model Verif.Spec Verif.Props

/-! ### More fuel changes nothing once the outcome is known -/

/-- `a` is out of fuel, or the same outcome -/
def Upto {W : Type} (a b : SOut W) : Prop := a = .timeout ∨ a = b
/-- the same for calls -/
def CUpto {W : Type} (a b : COut W) : Prop := a = .timeout ∨ a = b

variable {S : Wasi} {Q : SProg} {M : MInfo}

theorem Upto.refl {W : Type} (a : SOut W) : Upto a a := .inr rfl

theorem Upto.land {W : Type} {a b : SOut W} {n : Nat} {r : List Val} {k k' : List Val → SSt W → SOut W} (h : Upto a b)
    (hk : ∀ stk s, Upto (k stk s) (k' stk s)) : Upto (a.land n r k) (b.land n r k') := by
  rcases h with rfl | rfl
  · exact .inl rfl
  · cases a with
    | norm => exact hk _ _
    | br d vs s => cases d <;> first | exact hk _ _ | exact .inr rfl
    | _ => exact .inr rfl

theorem Upto.turn {W : Type} {a b : SOut W} {n : Nat} {r : List Val} {k k' g g' : List Val → SSt W → SOut W} (h : Upto a b)
    (hk : ∀ stk s, Upto (k stk s) (k' stk s)) (hg : ∀ stk s, Upto (g stk s) (g' stk s)) :
    Upto (a.turn n r k g) (b.turn n r k' g') := by
  rcases h with rfl | rfl
  · exact .inl rfl
  · cases a with
    | norm => exact hk _ _
    | br d vs s => cases d <;> first | exact hg _ _ | exact .inr rfl
    | _ => exact .inr rfl

theorem CUpto.cont {W : Type} {a b : COut W} {l r : List Val} {k k' : List Val → SSt W → SOut W} (h : CUpto a b)
    (hk : ∀ stk s, Upto (k stk s) (k' stk s)) : Upto (a.cont l r k) (b.cont l r k') := by
  rcases h with rfl | rfl
  · exact .inl rfl
  · cases a with
    | ok => exact hk _ _
    | _ => exact .inr rfl

theorem cont_upto {W : Type} {s0 : SSt W} (x : Option (Res (List Val × SSt W))) {k k' : List Val → SSt W → SOut W}
    (hk : ∀ stk s, Upto (k stk s) (k' stk s)) : Upto (SOut.cont s0 x k) (SOut.cont s0 x k') := by
  rcases x with _ | (⟨vs, s⟩ | e | _ | _)
  · exact .inr rfl
  · exact hk _ _
  · exact .inr rfl
  · exact .inr rfl
  · exact .inr rfl

/-- operators that neither branch nor call -/
def Plain : WOp → Prop
  | .br _ | .brIf _ | .brTable _ _ | .ret | .call _ | .callIndirect _ _ => False
  | _ => True

theorem ev_plain {W : Type} {again : WSeq → List Val → SSt W → SOut W} {call : SFunc → List Val → Store → W → COut W}
    {o : WOp} (h : Plain o) (k : WSeq) (stk : List Val) (s : SSt W) :
    ev Q M again call (.op o k) stk s = SOut.cont s (opSem Q.H o stk s) (ev Q M again call k) := by
  cases o <;> first | exact h.elim | simp only [ev]

theorem ev_upto {W : Type} {again again' : WSeq → List Val → SSt W → SOut W}
    {call call' : SFunc → List Val → Store → W → COut W} (ha : ∀ w stk s, Upto (again w stk s) (again' w stk s))
    (hc : ∀ F args st w, CUpto (call F args st w) (call' F args st w)) :
    ∀ (w : WSeq) (stk : List Val) (s : SSt W), Upto (ev Q M again call w stk s) (ev Q M again' call' w stk s) := by
  intro w
  induction w with
  | done => intro stk s; exact .inr rfl
  | op o k ih =>
    intro stk s
    cases o
    case br d => exact .inr rfl
    case brIf d =>
      simp only [ev]
      split
      · exact .inr rfl
      · split
        · exact ih _ _
        · exact .inr rfl
    case brTable ds d => exact .inr rfl
    case ret => exact .inr rfl
    case call f =>
      simp only [ev, callTo]
      split
      · exact .inr rfl
      · split
        · exact .inr rfl
        · exact (hc _ _ _ _).cont ih
    case callIndirect ty t =>
      simp only [ev, callThrough]
      split
      · exact .inr rfl
      · split
        · exact .inr rfl
        · split
          · split
            · split
              · split
                · exact .inr rfl
                · exact .inr rfl
                · exact (hc _ _ _ _).cont ih
              · exact .inr rfl
            · exact .inr rfl
          · exact .inr rfl
    all_goals
      rw [ev_plain (by trivial), ev_plain (by trivial)]
      exact cont_upto _ ih
  | block bt b k ihb ihk =>
    intro stk s
    simp only [ev]
    split
    · exact .inr rfl
    · exact (ihb _ _).land ihk
  | loop bt b k ihb ihk =>
    intro stk s
    simp only [ev]
    split
    · exact .inr rfl
    · exact (ihb _ _).turn ihk (fun _ _ => ha _ _ _)
  | ite bt t k iht ihk =>
    intro stk s
    simp only [ev]
    split
    · exact .inr rfl
    · split
      · exact .inr rfl
      · refine Upto.land ?_ ihk
        split
        · exact iht _ _
        · exact .inr rfl
  | itee bt t e k iht ihe ihk =>
    intro stk s
    simp only [ev]
    split
    · exact .inr rfl
    · split
      · exact .inr rfl
      · refine Upto.land ?_ ihk
        split
        · exact iht _ _
        · exact ihe _ _

theorem callWith_upto {r r' : WSeq → List Val → SSt S.W → SOut S.W} (h : ∀ w stk s, Upto (r w stk s) (r' w stk s)) (F : SFunc)
    (args : List Val) (st : Store) (w : S.W) : CUpto (callWith S r F args st w) (callWith S r' F args st w) := by
  cases F with
  | wasm t ls b =>
    rcases h b [] ⟨args ++ declLocals ls, st, w⟩ with h | h
    · left; simp only [callWith, h]; rfl
    · right; simp only [callWith, h]
  | wasi t id => exact .inr rfl

theorem run_upto : ∀ (n : Nat) (w : WSeq) (stk : List Val) (s : SSt S.W), Upto (run S Q M n w stk s) (run S Q M (n + 1) w stk s) := by
  intro n
  induction n with
  | zero => intro w stk s; exact .inl rfl
  | succ n ih => exact ev_upto ih (callWith_upto ih)

theorem run_le {n n' : Nat} (hn : n ≤ n') (w : WSeq) (stk : List Val) (s : SSt S.W) :
    Upto (run S Q M n w stk s) (run S Q M n' w stk s) := by
  induction hn with
  | refl => exact .inr rfl
  | step _ ih =>
    rcases ih with ih | ih
    · exact .inl ih
    · rw [ih]; exact run_upto _ _ _ _

/-! ### Completeness -/

/-- the outcome of the source-level semantics that corresponds to an end under the rules -/
def Is {W : Type} (out : WOut W) : SOut W → Prop
  | .norm vs s => out = .norm vs s
  | .br d vs s => out = .br d vs s
  | .ret vs s => out = .ret vs s
  | .fail .ub _ _ => False
  | .fail f st w => out = Fail.out st w f
  | .stuck | .timeout | .gap => False

/-- the same for calls -/
def CIs {W : Type} (out : CallOut W) : COut W → Prop
  | .ok vs st w => out = .ok vs st w
  | .fail .ub _ _ => False
  | .fail f st w => out = Fail.callOut st w f
  | .stuck | .timeout | .gap => False

/-- only traps and the program's own exits come from failing runs -/
theorem Is.failed {W : Type} {out : WOut W} {f : Fail} {st : Store} {w : W} (h : Is out (.fail f st w)) :
    out = .trap st w ∨ ∃ c, out = .exit c st w := by
  cases f with
  | ub => exact h.elim
  | panic => exact .inl h
  | trap e =>
    have h : out = Fail.out st w (.trap e) := h
    unfold Fail.out at h
    split at h
    · exact .inr ⟨_, h⟩
    · exact .inl h

theorem CIs.failed {W : Type} {out : CallOut W} {f : Fail} {st : Store} {w : W} (h : CIs out (.fail f st w)) :
    out = .trap st w ∨ ∃ c, out = .exit c st w := by
  cases f with
  | ub => exact h.elim
  | panic => exact .inl h
  | trap e =>
    have h : out = Fail.callOut st w (.trap e) := h
    unfold Fail.callOut at h
    split at h
    · exact .inr ⟨_, h⟩
    · exact .inl h

/-- a body and its function fail in the same way -/
theorem is_trap_iff {W : Type} {f : Fail} {st st' : Store} {w w' : W} :
    Is (.trap st' w') (.fail f st w) ↔ CIs (.trap st' w') (.fail f st w) := by
  cases f with
  | ub => exact Iff.rfl
  | panic => exact ⟨fun h => (by cases h; rfl), fun h => (by cases h; rfl)⟩
  | trap e =>
    show WOut.trap st' w' = Fail.out st w (.trap e) ↔ CallOut.trap st' w' = Fail.callOut st w (.trap e)
    unfold Fail.out Fail.callOut
    split
    · exact ⟨fun h => (by cases h), fun h => (by cases h)⟩
    · exact ⟨fun h => (by cases h; rfl), fun h => (by cases h; rfl)⟩

theorem is_exit_iff {W : Type} {f : Fail} {c : BitVec 32} {st st' : Store} {w w' : W} :
    Is (.exit c st' w') (.fail f st w) ↔ CIs (.exit c st' w') (.fail f st w) := by
  cases f with
  | ub => exact Iff.rfl
  | panic => exact ⟨fun h => (by cases h), fun h => (by cases h)⟩
  | trap e =>
    show WOut.exit c st' w' = Fail.out st w (.trap e) ↔ CallOut.exit c st' w' = Fail.callOut st w (.trap e)
    unfold Fail.out Fail.callOut
    split
    · exact ⟨fun h => by cases h; rfl, fun h => by cases h; rfl⟩
    · exact ⟨fun h => (by cases h), fun h => (by cases h)⟩

theorem Is.ne_timeout {W : Type} {out : WOut W} {o : SOut W} (h : Is out o) : o ≠ .timeout := by
  rintro rfl; exact h

theorem CIs.ne_timeout {W : Type} {out : CallOut W} {o : COut W} (h : CIs out o) : o ≠ .timeout := by
  rintro rfl; exact h

/-- with enough fuel the run ends as `out` says -/
def Ends (S : Wasi) (Q : SProg) (M : MInfo) (w : WSeq) (stk : List Val) (s : SSt S.W) (out : WOut S.W) : Prop :=
  ∃ n, Is out (run S Q M n w stk s)

/-- the same for calls -/
def CEnds (S : Wasi) (Q : SProg) (M : MInfo) (F : SFunc) (args : List Val) (st : Store) (w : S.W) (out : CallOut S.W) : Prop :=
  ∃ n, CIs out (invoke S Q M n F args st w)

theorem Is.up {out : WOut S.W} {n n' : Nat} {w : WSeq} {stk : List Val} {s : SSt S.W} (h : Is out (run S Q M n w stk s))
    (hn : n ≤ n') : run S Q M n' w stk s = run S Q M n w stk s := by
  rcases run_le hn w stk s with k | k
  · exact (h.ne_timeout k).elim
  · exact k.symm

theorem invoke_le {n n' : Nat} (hn : n ≤ n') (F : SFunc) (args : List Val) (st : Store) (w : S.W) :
    CUpto (invoke S Q M n F args st w) (invoke S Q M n' F args st w) :=
  callWith_upto (run_le hn) F args st w

theorem CIs.up {out : CallOut S.W} {n n' : Nat} {F : SFunc} {args : List Val} {st : Store} {w : S.W}
    (h : CIs out (invoke S Q M n F args st w)) (hn : n ≤ n') :
    invoke S Q M n' F args st w = invoke S Q M n F args st w := by
  rcases invoke_le hn F args st w with k | k
  · exact (h.ne_timeout k).elim
  · exact k.symm

/-- what the induction shows of the continuation of a block or call -/
def AfterOk (S : Wasi) (Q : SProg) (M : MInfo) (k : WSeq) (x : WOut S.W ⊕ (List Val × SSt S.W)) (out : WOut S.W) : Prop :=
  match x with
  | .inl o => out = o
  | .inr (stk, s) => s.st.Good → (∃ y, Ev S Q M k stk s (.odd y)) ∨ Ends S Q M k stk s out

/-- A block's end and what follows it.  Either something odd happens after it, or for large fuel `land` gives `out`. -/
theorem land_ends (hS : WasiKeepsSize S) {b k : WSeq} {stk rest : List Val} {s : SSt S.W} {o out : WOut S.W} {n : Nat}
    {x : WOut S.W ⊕ (List Val × SSt S.W)} (g : s.st.Good) (hb : (∃ y, Ev S Q M b stk s (.odd y)) ∨ Ends S Q M b stk s o)
    (hl : Leaves n rest o x) (hx : AfterOk S Q M k x out) :
    (∃ y, Ev S Q M b stk s (.odd y)) ∨ (∃ y, out = .odd y) ∨ (∃ stk' s', x = .inr (stk', s') ∧ (∃ y, Ev S Q M k stk' s' (.odd y))) ∨
      ∃ m, Is o (run S Q M (m + 1) b stk s) ∧ Is out ((run S Q M (m + 1) b stk s).land n rest (run S Q M (m + 1) k)) := by
  rcases hb with hb | ⟨m, hm⟩
  · exact .inl hb
  rcases run_sound (Q := Q) (M := M) hS m b stk s g with hr | hr
  · exact .inl hr
  refine .inr ?_

  have hgo : ∀ (o' : SOut S.W) stk' s', run S Q M m b stk s = o' →
      (∀ kf : List Val → SSt S.W → SOut S.W, o'.land n rest kf = kf stk' s') → s'.st.Good →
      (s'.st.Good → (∃ y, Ev S Q M k stk' s' (.odd y)) ∨ Ends S Q M k stk' s' out) → x = .inr (stk', s') →
      (∃ stk' s', x = .inr (stk', s') ∧ (∃ y, Ev S Q M k stk' s' (.odd y))) ∨
      ∃ m, Is o (run S Q M (m + 1) b stk s) ∧ Is out ((run S Q M (m + 1) b stk s).land n rest (run S Q M (m + 1) k)) := by
    intro o' stk' s' e hk g' hx e'
    rcases hx g' with hx | ⟨m', hm'⟩
    · exact .inl ⟨_, _, e', hx⟩
    · refine .inr ⟨max m m', by rw [hm.up (by omega)]; exact hm, ?_⟩
      rw [hm.up (by omega), e, hk, hm'.up (by omega)]
      exact hm'
  cases hl with
  | norm =>
    cases e : run S Q M m b stk s with
    | norm vs' s' =>
      rw [e] at hm hr
      cases hm
      exact .inr (hgo _ _ _ e (fun _ => rfl) hr.2 hx rfl)
    | gap => rw [e] at hm; cases hm
    | fail e' => rw [e] at hm; rcases Is.failed hm with h | ⟨_, h⟩ <;> cases h
    | br d vs' s' => rw [e] at hm; cases hm
    | ret vs' s' => rw [e] at hm; cases hm
    | stuck => rw [e] at hm; cases hm
    | timeout => rw [e] at hm; cases hm
  | leave =>
    cases e : run S Q M m b stk s with
    | br d vs' s' =>
      rw [e] at hm hr
      cases hm
      exact .inr (hgo _ _ _ e (fun _ => rfl) hr.2 hx rfl)
    | gap => rw [e] at hm; cases hm
    | fail e' => rw [e] at hm; rcases Is.failed hm with h | ⟨_, h⟩ <;> cases h
    | norm vs' s' => rw [e] at hm; cases hm
    | ret vs' s' => rw [e] at hm; cases hm
    | stuck => rw [e] at hm; cases hm
    | timeout => rw [e] at hm; cases hm
  | outer =>
    cases hx
    cases e : run S Q M m b stk s with
    | br d vs' s' =>
      have hu := hm.up (Nat.le_succ m)
      rw [e] at hm
      cases hm
      exact .inr (.inr ⟨m, by rw [hu, e]; rfl, by rw [hu, e]; rfl⟩)
    | gap => rw [e] at hm; cases hm
    | fail e' => rw [e] at hm; rcases Is.failed hm with h | ⟨_, h⟩ <;> cases h
    | norm vs' s' => rw [e] at hm; cases hm
    | ret vs' s' => rw [e] at hm; cases hm
    | stuck => rw [e] at hm; cases hm
    | timeout => rw [e] at hm; cases hm
  | ret =>
    cases hx
    cases e : run S Q M m b stk s with
    | ret vs' s' =>
      have hu := hm.up (Nat.le_succ m)
      rw [e] at hm
      cases hm
      exact .inr (.inr ⟨m, by rw [hu, e]; rfl, by rw [hu, e]; rfl⟩)
    | gap => rw [e] at hm; cases hm
    | fail e' => rw [e] at hm; rcases Is.failed hm with h | ⟨_, h⟩ <;> cases h
    | norm vs' s' => rw [e] at hm; cases hm
    | br d vs' s' => rw [e] at hm; cases hm
    | stuck => rw [e] at hm; cases hm
    | timeout => rw [e] at hm; cases hm
  | trap =>
    cases hx
    cases e : run S Q M m b stk s with
    | fail e' =>
      have hu := hm.up (Nat.le_succ m)
      rw [e] at hm
      exact .inr (.inr ⟨m, by rw [hu, e]; exact hm, by rw [hu, e]; exact hm⟩)
    | gap => rw [e] at hm; cases hm
    | ret vs' s' => rw [e] at hm; cases hm
    | norm vs' s' => rw [e] at hm; cases hm
    | br d vs' s' => rw [e] at hm; cases hm
    | stuck => rw [e] at hm; cases hm
    | timeout => rw [e] at hm; cases hm
  | exit =>
    cases hx
    cases e : run S Q M m b stk s with
    | fail e' =>
      have hu := hm.up (Nat.le_succ m)
      rw [e] at hm
      exact .inr (.inr ⟨m, by rw [hu, e]; exact hm, by rw [hu, e]; exact hm⟩)
    | gap => rw [e] at hm; cases hm
    | ret vs' s' => rw [e] at hm; cases hm
    | norm vs' s' => rw [e] at hm; cases hm
    | br d vs' s' => rw [e] at hm; cases hm
    | stuck => rw [e] at hm; cases hm
    | timeout => rw [e] at hm; cases hm
  | odd => cases hx; exact .inl ⟨_, rfl⟩

/-- a call and what follows it -/
theorem cont_ends (hS : WasiKeepsSize S) {F : SFunc} {args : List Val} {k : WSeq} {locals rest : List Val} {st : Store} {w : S.W}
    {c : CallOut S.W} {out : WOut S.W} {x : WOut S.W ⊕ (List Val × SSt S.W)} (g : st.Good)
    (hb : (∃ y, Call S Q M F args st w (.odd y)) ∨ CEnds S Q M F args st w c)
    (hl : Returns locals rest c x) (hx : AfterOk S Q M k x out) :
    (∃ y, Call S Q M F args st w (.odd y)) ∨ (∃ y, out = .odd y) ∨ (∃ stk' s', x = .inr (stk', s') ∧ (∃ y, Ev S Q M k stk' s' (.odd y))) ∨
      ∃ m, Is out ((invoke S Q M m F args st w).cont locals rest (run S Q M (m + 1) k)) := by
  rcases hb with hb | ⟨m, hm⟩
  · exact .inl hb
  have hr : CAgr _ (invoke S Q M m F args st w) := call_sound (Q := Q) (M := M) hS (run_sound hS m) F args st w g
  rcases hr with hr | hr
  · exact .inl hr
  refine .inr ?_

  cases hl with
  | ok =>
    cases e : invoke S Q M m F args st w with
    | ok vs' st' w' =>
      have hu := fun n' (h : m ≤ n') => hm.up h
      rw [e] at hm hr
      cases hm
      rcases hx hr.2 with hx | ⟨m', hm'⟩
      · exact .inr (.inl ⟨_, _, rfl, hx⟩)
      · refine .inr (.inr ⟨max m m', ?_⟩)
        rw [hu _ (by omega), e]
        simp only [COut.cont]
        rw [hm'.up (by omega)]
        exact hm'
    | gap => rw [e] at hm; cases hm
    | fail e' => rw [e] at hm; rcases CIs.failed hm with h | ⟨_, h⟩ <;> cases h
    | stuck => rw [e] at hm; cases hm
    | timeout => rw [e] at hm; cases hm
  | trap =>
    cases hx
    cases e : invoke S Q M m F args st w with
    | fail e' =>
      have hm' := hm
      rw [e] at hm'
      exact .inr (.inr ⟨m, by rw [e]; exact is_trap_iff.2 hm'⟩)
    | gap => rw [e] at hm; cases hm
    | ok vs' st' w' => rw [e] at hm; cases hm
    | stuck => rw [e] at hm; cases hm
    | timeout => rw [e] at hm; cases hm
  | exit =>
    cases hx
    cases e : invoke S Q M m F args st w with
    | fail e' =>
      have hm' := hm
      rw [e] at hm'
      exact .inr (.inr ⟨m, by rw [e]; exact is_exit_iff.2 hm'⟩)
    | gap => rw [e] at hm; cases hm
    | ok vs' st' w' => rw [e] at hm; cases hm
    | stuck => rw [e] at hm; cases hm
    | timeout => rw [e] at hm; cases hm
  | odd => cases hx; exact .inl ⟨_, rfl⟩

theorem popVs_app {ts : List Cls} {ps r : List Val} (h : ps.map (·.cls) = ts) : popVs ts (ps.reverse ++ r) = some (ps, r) := by
  subst h
  unfold popVs
  have h1 : (ps.map (·.cls)).length = ps.reverse.length := by simp
  rw [h1, List.take_left, List.drop_left]
  simp

theorem popV_i32 (c : BitVec 32) (r : List Val) : popV .i32 (i32 c :: r) = some (c, r) := by
  simp [popV]

/-- one step of fuel -/
theorem run_succ (n : Nat) (w : WSeq) (stk : List Val) (s : SSt S.W) :
    run S Q M (n + 1) w stk s = ev Q M (run S Q M n) (invoke S Q M n) w stk s := rfl

theorem Op.plain {H : FloatHost} {W : Type} {o : WOp} {stk : List Val} {s : SSt W} {x : OpOut W} (h : Op H o stk s x) : Plain o := by
  cases h <;> trivial

theorem body_ends {t : FuncType} {ls : List (Nat × Cls)} {b : WSeq} {args : List Val} {st : Store} {w : S.W} {o : WOut S.W}
    (h : (∃ y, Ev S Q M b [] ⟨initialLocals args ls, st, w⟩ (.odd y)) ∨ Ends S Q M b [] ⟨initialLocals args ls, st, w⟩ o) :
    (∃ y, Ev S Q M b [] ⟨initialLocals args ls, st, w⟩ (.odd y)) ∨ ∃ n,
      invoke S Q M n (.wasm t ls b) args st w = finishCall t.results.length (run S Q M n b [] ⟨initialLocals args ls, st, w⟩) ∧
      Is o (run S Q M n b [] ⟨initialLocals args ls, st, w⟩) := by
  rcases h with h | ⟨n, h⟩
  · exact .inl h
  · exact .inr ⟨n, by rw [initialLocals_eq]; rfl, h⟩

/-- Whatever the rules say happens, happens, unless something odd does. -/
theorem ev_complete (hS : WasiKeepsSize S) {w : WSeq} {stk : List Val} {s : SSt S.W} {out : WOut S.W} (h : Ev S Q M w stk s out) :
    s.st.Good → (∃ y, Ev S Q M w stk s (.odd y)) ∨ Ends S Q M w stk s out := by
  induction h using Ev.rec (motive_2 := fun k x out _ => AfterOk S Q M k x out)
    (motive_3 := fun F args st w c _ => st.Good → (∃ y, Call S Q M F args st w (.odd y)) ∨ CEnds S Q M F args st w c) with
  | done => exact fun _ => .inr ⟨1, rfl⟩
  | next h hk ih =>
    intro g
    rcases op_complete g h with ⟨y, k⟩ | ⟨y, hy, his⟩
    · exact .inl ⟨_, .odd k⟩
    · cases y with
      | ok r =>
        obtain ⟨stk', s'⟩ := r
        cases his
        rcases op_sound Q.H g hy with ⟨y, k⟩ | k
        · exact .inl ⟨_, .odd k⟩
        · rcases ih k.2 with ⟨y, ih⟩ | ⟨n, hn⟩
          · exact .inl ⟨_, .next h ih⟩
          · refine .inr ⟨n + 1, ?_⟩
            rw [run_succ, ev_plain (Op.plain h), hy]
            simp only [SOut.cont]
            rw [← run_succ, hn.up (Nat.le_succ n)]
            exact hn
      | trap e => cases his
      | panic => cases his
      | ub => cases his
  | trap h =>
    intro g
    rcases op_complete g h with ⟨y, k⟩ | ⟨y, hy, his⟩
    · exact .inl ⟨_, .odd k⟩
    · refine .inr ⟨1, ?_⟩
      rw [run_succ, ev_plain (Op.plain h), hy]
      cases y with
      | ok r => cases his
      | trap e => exact (Fail.out_trap (opSem_stays hy)).symm
      | panic => rfl
      | ub => exact his.elim
  | odd h => exact fun _ => .inl ⟨_, .odd h⟩
  | br => exact fun _ => .inr ⟨1, rfl⟩
  | brIf h =>
    refine fun _ => .inr ⟨1, ?_⟩
    rw [run_succ]
    simp only [ev, popV_i32]
    rw [if_neg (by rintro rfl; exact h rfl)]
    rfl
  | brIf0 hk ih =>
    intro g
    rcases ih g with ⟨y, ih⟩ | ⟨n, hn⟩
    · exact .inl ⟨_, .brIf0 ih⟩
    · refine .inr ⟨n + 1, ?_⟩
      rw [run_succ]
      simp only [ev, popV_i32, if_true]
      rw [← run_succ, hn.up (Nat.le_succ n)]
      exact hn
  | brTable h =>
    refine fun _ => .inr ⟨1, ?_⟩
    rw [run_succ]
    simp only [ev, popV_i32, pick, h]
    rfl
  | brTableD h =>
    refine fun _ => .inr ⟨1, ?_⟩
    rw [run_succ]
    simp only [ev, popV_i32, pick, List.getElem?_eq_none h]
    rfl
  | ret => exact fun _ => .inr ⟨1, rfl⟩
  | call hf ha hc hr hx ihc ihx =>
    intro g
    rcases cont_ends hS g (ihc g) hr ihx with ⟨y, h⟩ | ⟨y, h⟩ | ⟨stk', s', rfl, y, h⟩ | ⟨m, h⟩
    · exact .inl ⟨_, .call hf ha h .odd .stop⟩
    · subst h; exact .inl ⟨_, .call hf ha hc hr hx⟩
    · exact .inl ⟨_, .call hf ha hc hr (.go h)⟩
    · refine .inr ⟨m + 1, ?_⟩
      rw [run_succ]
      simp only [ev, callTo, hf, popVs_app ha]
      exact h
  | callHost ht he hf => exact fun _ => .inl ⟨_, .callHost ht he hf⟩
  | @callIndirect ty t k i tb f F stk s c x out args ht he hf hty ha hc hr hx ihc ihx =>
    intro g
    by_cases hne : ∃ t' id, F = .wasi t' id
    · obtain ⟨t', id, rfl⟩ := hne
      exact .inl ⟨_, .callHost ht he hf⟩
    have hne : ∀ t' id, F ≠ .wasi t' id := fun t' id e => hne ⟨t', id, e⟩
    rcases cont_ends hS g (ihc g) hr ihx with ⟨y, h⟩ | ⟨y, h⟩ | ⟨stk', s', rfl, y, h⟩ | ⟨m, h⟩
    · exact .inl ⟨_, .callIndirect ht he hf hty ha h .odd .stop⟩
    · subst h; exact .inl ⟨_, .callIndirect ht he hf hty ha hc hr hx⟩
    · exact .inl ⟨_, .callIndirect ht he hf hty ha hc hr (.go h)⟩
    · refine .inr ⟨m + 1, ?_⟩
      rw [run_succ]
      simp only [ev, callThrough, popV_i32, ht, he, hf, hty, if_true]
      split
      · exact (hne _ _ rfl).elim
      · rename_i hp; rw [popVs_app ha] at hp; cases hp
      · rename_i hp; rw [popVs_app ha] at hp; cases hp; exact h
  | callOutside ht he =>
    refine fun _ => .inr ⟨1, ?_⟩
    rw [run_succ]
    simp only [ev, callThrough, popV_i32, ht, List.getElem?_eq_none he]
    rfl
  | callNull ht he hr =>
    refine fun _ => .inr ⟨1, ?_⟩
    rw [run_succ]
    simp only [ev, callThrough, popV_i32, ht, he]
    split
    · rename_i e
      cases e
      split
      · rename_i hF hT
        rw [if_neg]
        · rfl
        · intro e; exact hr _ _ rfl hF (by rw [hT, e])
      · rfl
    · rfl
  | callNoTable h => exact fun _ => .inl ⟨_, .callNoTable h⟩
  | block hp hb hl hx ihb ihx =>
    intro g
    rcases land_ends hS g (ihb g) hl ihx with ⟨y, h⟩ | ⟨y, h⟩ | ⟨stk', s', rfl, y, h⟩ | ⟨m, hm, h⟩
    · exact .inl ⟨_, .block hp h .odd .stop⟩
    · subst h; exact .inl ⟨_, .block hp hb hl hx⟩
    · exact .inl ⟨_, .block hp hb hl (.go h)⟩
    · refine .inr ⟨m + 1, ?_⟩
      rw [run_succ]
      simp only [ev, popVs_app hp]
      exact h
  | loop hp hb h0 hl hx ihb ihx =>
    intro g
    rcases land_ends hS g (ihb g) hl ihx with ⟨y, h⟩ | ⟨y, h⟩ | ⟨stk', s', rfl, y, h⟩ | ⟨m, hm, h⟩
    · exact .inl ⟨_, .loop hp h (by intro _ _ h; cases h) .odd .stop⟩
    · subst h; exact .inl ⟨_, .loop hp hb h0 hl hx⟩
    · exact .inl ⟨_, .loop hp hb h0 hl (.go h)⟩
    · refine .inr ⟨m + 1, ?_⟩
      rw [run_succ]
      simp only [ev, popVs_app hp]
      rw [← run_succ]
      revert hm h
      cases run S Q M (m + 1) _ _ _ with
      | br d vs' s' =>
        cases d with
        | zero => intro hm; cases hm; exact (h0 _ _ rfl).elim
        | succ d => intro _ h; exact h
      | _ => intro _ h; exact h
  | again hp hb hx ihb ihx =>
    intro g
    rcases ihb g with ⟨y, h⟩ | ⟨m, hm⟩
    · exact .inl ⟨_, .loop hp h (by intro _ _ h; cases h) .odd .stop⟩
    · rcases run_sound (Q := Q) (M := M) hS m _ _ _ g with ⟨y, hr⟩ | hr
      · exact .inl ⟨_, .loop hp hr (by intro _ _ h; cases h) .odd .stop⟩
      · have hu := fun n' (h : m ≤ n') => hm.up h
        revert hm hr hu
        cases run S Q M m _ _ _ with
        | fail f => intro k; rcases Is.failed k with h | ⟨_, h⟩ <;> cases h
        | br _ _ _ =>
          intro k hr hu
          cases k
          rcases ihx hr.2 with ⟨y, h⟩ | ⟨m', hm'⟩
          · exact .inl ⟨_, .again hp hb h⟩
          · refine .inr ⟨max m m' + 1, ?_⟩
            rw [run_succ]
            simp only [ev, popVs_app hp]
            rw [← run_succ, hu _ (by omega)]
            simp only [SOut.turn]
            rw [hm'.up (by omega)]
            exact hm'
        | _ => intro k; cases k
  | ite hc hp hb hl hx ihb ihx =>
    intro g
    rcases land_ends hS g (ihb g) hl ihx with ⟨y, h⟩ | ⟨y, h⟩ | ⟨stk', s', rfl, y, h⟩ | ⟨m, hm, h⟩
    · exact .inl ⟨_, .ite hc hp h .odd .stop⟩
    · subst h; exact .inl ⟨_, .ite hc hp hb hl hx⟩
    · exact .inl ⟨_, .ite hc hp hb hl (.go h)⟩
    · refine .inr ⟨m + 1, ?_⟩
      rw [run_succ]
      simp only [ev, popV_i32, popVs_app hp]
      rw [if_pos (by rintro rfl; exact hc rfl)]
      exact h
  | ite0 hp hx ih =>
    intro g
    rcases ih g with ⟨y, ih⟩ | ⟨n, hn⟩
    · exact .inl ⟨_, .ite0 hp ih⟩
    · refine .inr ⟨n + 1, ?_⟩
      rw [run_succ]
      simp only [ev, popV_i32, popVs_app hp]
      rw [if_neg (by intro h; exact h rfl)]
      simp only [SOut.land]
      rw [← run_succ, hn.up (Nat.le_succ n)]
      exact hn
  | itee hc hp hb hl hx ihb ihx =>
    intro g
    rcases land_ends hS g (ihb g) hl ihx with ⟨y, h⟩ | ⟨y, h⟩ | ⟨stk', s', rfl, y, h⟩ | ⟨m, hm, h⟩
    · exact .inl ⟨_, .itee hc hp h .odd .stop⟩
    · subst h; exact .inl ⟨_, .itee hc hp hb hl hx⟩
    · exact .inl ⟨_, .itee hc hp hb hl (.go h)⟩
    · refine .inr ⟨m + 1, ?_⟩
      rw [run_succ]
      simp only [ev, popV_i32, popVs_app hp]
      rw [if_pos (by rintro rfl; exact hc rfl)]
      exact h
  | itee0 hp hb hl hx ihb ihx =>
    intro g
    rcases land_ends hS g (ihb g) hl ihx with ⟨y, h⟩ | ⟨y, h⟩ | ⟨stk', s', rfl, y, h⟩ | ⟨m, hm, h⟩
    · exact .inl ⟨_, .itee0 hp h .odd .stop⟩
    · subst h; exact .inl ⟨_, .itee0 hp hb hl hx⟩
    · exact .inl ⟨_, .itee0 hp hb hl (.go h)⟩
    · refine .inr ⟨m + 1, ?_⟩
      rw [run_succ]
      simp only [ev, popV_i32, popVs_app hp]
      rw [if_neg (by intro h; exact h rfl)]
      exact h
  | stop => exact rfl
  | go hk ih => exact ih
  | norm h ih =>
    rename_i g
    rcases body_ends (ih g) with ⟨y, k⟩ | ⟨n, e, k⟩
    · exact .inl ⟨_, .oddOut k⟩
    · exact .inr ⟨n, by rw [e]; revert k; cases run S Q M n _ _ _ with
        | fail f => intro k; rcases Is.failed k with h | ⟨_, h⟩ <;> cases h
        | norm _ _ => intro k; cases k; rfl
        | _ => intro k; cases k⟩
  | brOut h ih =>
    rename_i g
    rcases body_ends (ih g) with ⟨y, k⟩ | ⟨n, e, k⟩
    · exact .inl ⟨_, .oddOut k⟩
    · exact .inr ⟨n, by rw [e]; revert k; cases run S Q M n _ _ _ with
        | fail f => intro k; rcases Is.failed k with h | ⟨_, h⟩ <;> cases h
        | br _ _ _ => intro k; cases k; rfl
        | _ => intro k; cases k⟩
  | retOut h ih =>
    rename_i g
    rcases body_ends (ih g) with ⟨y, k⟩ | ⟨n, e, k⟩
    · exact .inl ⟨_, .oddOut k⟩
    · exact .inr ⟨n, by rw [e]; revert k; cases run S Q M n _ _ _ with
        | fail f => intro k; rcases Is.failed k with h | ⟨_, h⟩ <;> cases h
        | ret _ _ => intro k; cases k; rfl
        | _ => intro k; cases k⟩
  | trapOut h ih =>
    rename_i g
    rcases body_ends (ih g) with ⟨y, k⟩ | ⟨n, e, k⟩
    · exact .inl ⟨_, .oddOut k⟩
    · exact .inr ⟨n, by rw [e]; revert k; cases run S Q M n _ _ _ with
        | fail f => exact is_trap_iff.1
        | _ => intro k; cases k⟩
  | exitOut h ih =>
    rename_i g
    rcases body_ends (ih g) with ⟨y, k⟩ | ⟨n, e, k⟩
    · exact .inl ⟨_, .oddOut k⟩
    · exact .inr ⟨n, by rw [e]; revert k; cases run S Q M n _ _ _ with
        | fail f => exact is_exit_iff.1
        | _ => intro k; cases k⟩
  | oddOut h ih => exact .inl ⟨_, .oddOut h⟩
  | @host t id st w m v m' w' args hm h hv =>
    refine .inr ⟨0, ?_⟩
    simp only [invoke, callWith, hm, h]
    cases v with
    | none => simp only [hostResult]; rw [if_pos (by simpa using hv.symm)]; rfl
    | some v => simp only [hostResult]; rw [if_pos (by simpa using hv)]; rfl
  | hostFails hm h =>
    refine .inr ⟨0, ?_⟩
    simp only [invoke, callWith, hm]
    rw [h]; rfl
  | hostRefuses hm h =>
    refine .inr ⟨0, ?_⟩
    simp only [invoke, callWith, hm]
    rcases h with ⟨e, h, hne⟩ | h <;> rw [h]
    · exact (Fail.callOut_trap hne).symm
    · rfl
  | hostExits hm h =>
    refine .inr ⟨0, ?_⟩
    simp only [invoke, callWith, hm, h]
    rfl
  | hostOdd h => exact .inl ⟨_, .hostOdd h⟩

theorem call_complete (hS : WasiKeepsSize S) {F : SFunc} {args : List Val} {st : Store} {w : S.W} {c : CallOut S.W}
    (h : Call S Q M F args st w c) (g : st.Good) : (∃ y, Call S Q M F args st w (.odd y)) ∨ CEnds S Q M F args st w c := by
  cases h with
  | norm h =>
    rcases body_ends (ev_complete hS h g) with ⟨y, k⟩ | ⟨n, e, k⟩
    · exact .inl ⟨_, .oddOut k⟩
    · exact .inr ⟨n, by rw [e]; revert k; cases run S Q M n _ _ _ with
        | fail f => intro k; rcases Is.failed k with h | ⟨_, h⟩ <;> cases h
        | norm _ _ => intro k; cases k; rfl
        | _ => intro k; cases k⟩
  | brOut h =>
    rcases body_ends (ev_complete hS h g) with ⟨y, k⟩ | ⟨n, e, k⟩
    · exact .inl ⟨_, .oddOut k⟩
    · exact .inr ⟨n, by rw [e]; revert k; cases run S Q M n _ _ _ with
        | fail f => intro k; rcases Is.failed k with h | ⟨_, h⟩ <;> cases h
        | br _ _ _ => intro k; cases k; rfl
        | _ => intro k; cases k⟩
  | retOut h =>
    rcases body_ends (ev_complete hS h g) with ⟨y, k⟩ | ⟨n, e, k⟩
    · exact .inl ⟨_, .oddOut k⟩
    · exact .inr ⟨n, by rw [e]; revert k; cases run S Q M n _ _ _ with
        | fail f => intro k; rcases Is.failed k with h | ⟨_, h⟩ <;> cases h
        | ret _ _ => intro k; cases k; rfl
        | _ => intro k; cases k⟩
  | trapOut h =>
    rcases body_ends (ev_complete hS h g) with ⟨y, k⟩ | ⟨n, e, k⟩
    · exact .inl ⟨_, .oddOut k⟩
    · exact .inr ⟨n, by rw [e]; revert k; cases run S Q M n _ _ _ with
        | fail f => exact is_trap_iff.1
        | _ => intro k; cases k⟩
  | exitOut h =>
    rcases body_ends (ev_complete hS h g) with ⟨y, k⟩ | ⟨n, e, k⟩
    · exact .inl ⟨_, .oddOut k⟩
    · exact .inr ⟨n, by rw [e]; revert k; cases run S Q M n _ _ _ with
        | fail f => exact is_exit_iff.1
        | _ => intro k; cases k⟩
  | oddOut h => exact .inl ⟨_, .oddOut h⟩
  | @host t id st w m v m' w' args hm h hv =>
    refine .inr ⟨0, ?_⟩
    simp only [invoke, callWith, hm, h]
    cases v with
    | none => simp only [hostResult]; rw [if_pos (by simpa using hv.symm)]; rfl
    | some v => simp only [hostResult]; rw [if_pos (by simpa using hv)]; rfl
  | hostFails hm h =>
    refine .inr ⟨0, ?_⟩
    simp only [invoke, callWith, hm]
    rw [h]; rfl
  | hostRefuses hm h =>
    refine .inr ⟨0, ?_⟩
    simp only [invoke, callWith, hm]
    rcases h with ⟨e, h, hne⟩ | h <;> rw [h]
    · exact (Fail.callOut_trap hne).symm
    · rfl
  | hostExits hm h =>
    refine .inr ⟨0, ?_⟩
    simp only [invoke, callWith, hm, h]
    rfl
  | hostOdd h => exact .inl ⟨_, .hostOdd h⟩

end Verif.Lemmas
