import Verif.Lemmas.Alarm
/-
The machine with the alarm on (C65).
-/
namespace Verif.Lemmas
open Verif.Model Verif.Spec

variable {S : Wasi} {q : Ask S.W}

/-- the same machine with the alarm on -/
@[reducible] noncomputable def ring (q : Ask S.W) (c : BitVec 32) (m : Machine S) : Machine (alarm S q c) := ⟨m.rf, m.frames, m.inst, m.world, m.looks⟩

noncomputable def ringR (q : Ask S.W) (c : BitVec 32) : Round S → Round (alarm S q c)
  | .running m => .running (ring q c m)
  | .done vs m => .done vs (ring q c m)
  | .ckpt m => .ckpt (ring q c m)

noncomputable def ringE (q : Ask S.W) (c : BitVec 32) : End S → End (alarm S q c)
  | .done vs m => .done vs (ring q c m)
  | .ckpt m => .ckpt (ring q c m)

/-- the same outcome -/
def Res.to {α β : Type} (f : α → β) : Res α → Res β
  | .ok a => .ok (f a)
  | .trap e => .trap e
  | .panic => .panic
  | .ub => .ub

/-- `y` is what happens whatever the alarm's code, and comes to nothing else without it -/
structure Alike {α : Type} {β : BitVec 32 → Type} (f : ∀ c, α → β c) (x : Option (Res α)) (z : ∀ c, Option (Res (β c))) (y : Option (Res α)) : Prop where
  same : ∀ c, z c = y.map (Res.to (f c))
  ok : ∀ a, y = some (.ok a) ↔ x = some (.ok a)
  pending : y = none ↔ x = none
  ub : y = some .ub ↔ x = some .ub
  err : ∀ e, y = some (.trap e) → x = some (.trap e)

theorem Alike.refl {α : Type} {β : BitVec 32 → Type} (f : ∀ c, α → β c) (x : Option (Res α)) {z : ∀ c, Option (Res (β c))}
    (h : ∀ c, z c = x.map (Res.to (f c))) : Alike f x z x := ⟨h, fun _ => Iff.rfl, Iff.rfl, Iff.rfl, fun _ h => h⟩

theorem doReturn_ring (m : Machine S) (c : BitVec 32) : (ring q c m).doReturn = Res.to (ringR q c) m.doReturn := by
  unfold Machine.doReturn
  cases hf : m.frames with
  | nil => rfl
  | cons f rest =>
    cases rest with
    | nil =>
      dsimp only
      cases m.rf.getVals (f.retRegs.take f.n) <;> rfl
    | cons g rest =>
      dsimp only
      cases m.rf.getVals f.retRegs with
      | ok vs =>
        simp only [Res.bind_ok]
        cases m.rf.restoreOffsets.setVals g.resultRegs vs <;> rfl
      | _ => rfl

theorem doInvoke_ring (P : Prog) (en : Bool) (m : Machine S) (f : Nat) (ps : List Val) (rs : List Reg) (c : BitVec 32) :
    (ring q c m).doInvoke P en f ps rs = Res.to (ringR q c) (m.doInvoke P en f ps rs) := by
  unfold Machine.doInvoke
  split
  · rename_i t code _
    cases callLocals code.locals <;> rfl
  · rfl
  · rfl

/-- what becomes of the host's answer -/
def answer {S : Wasi} (m : Machine S) (result : Option Reg) (x : Res (Option (Option Val) × Mem × S.W)) : Res (Round S) := do
  let r ← x
  let m' : Machine S := { m with inst := { m.inst with mem := some r.2.1 }, world := r.2.2 }
  match r.1 with
  | none => .trap .executionFailed
  | some res =>
    match result, res with
    | some reg, some v => do
      let rf ← m'.rf.setVal reg v
      pure (.running { m' with rf := rf })
    | _, _ => pure (.running m')

theorem doWasi_answer {S : Wasi} {m : Machine S} {mem : Mem} (hm : m.inst.mem = some mem) (id : Nat) (ps : List Val) (r : Option Reg) :
    m.doWasi true id ps r = answer m r (S.call id ps mem m.world) := by
  unfold Machine.doWasi
  rw [hm]
  rfl

theorem doWasi_none {S : Wasi} {m : Machine S} {b : Bool} (h : b = false ∨ m.inst.mem = none) (id : Nat) (ps : List Val) (r : Option Reg) :
    m.doWasi b id ps r = .trap .executionFailed := by
  rcases h with rfl | h
  · rfl
  · unfold Machine.doWasi; rw [h]; cases b <;> rfl

theorem answer_ring (m : Machine S) (r : Option Reg) (c : BitVec 32) (x : Res (Option (Option Val) × Mem × S.W)) :
    answer (ring q c m) r x = Res.to (ringR q c) (answer m r x) := by
  cases x with
  | ok x =>
    obtain ⟨v, m', w'⟩ := x
    cases v with
    | none => rfl
    | some v =>
      cases r with
      | none => rfl
      | some r =>
        cases v with
        | none => rfl
        | some v =>
          simp only [answer, Res.bind_ok]
          cases m.rf.setVal r v <;> rfl
  | _ => rfl

/-- a host call that is not the one waited for -/
theorem doWasi_ring {b : Bool} {m : Machine S} {id : Nat} {ps : List Val} {r : Option Reg}
    (h : ∀ mem, b = true → m.inst.mem = some mem → (⟨id, ps, mem, m.world⟩ : Ask S.W) ≠ q) :
    ∃ y, Alike (ringR q) (some (m.doWasi b id ps r)) (fun c => some ((ring q c m).doWasi b id ps r)) (some y) := by
  by_cases hb : b = false ∨ m.inst.mem = none
  · refine ⟨.trap .executionFailed, ?_⟩
    rw [doWasi_none hb]
    refine .refl _ _ fun c => ?_
    rw [doWasi_none (m := ring q c m) hb]
    rfl
  · obtain ⟨rfl, mem, hm⟩ : b = true ∧ ∃ mem, m.inst.mem = some mem := by
      refine ⟨?_, ?_⟩
      · cases b with
        | true => rfl
        | false => exact (hb (.inl rfl)).elim
      · cases hm : m.inst.mem with
        | none => exact (hb (.inr hm)).elim
        | some mem => exact ⟨mem, rfl⟩
    have hne := h mem rfl hm
    rw [doWasi_answer hm]
    have e : ∀ c, (ring q c m).doWasi true id ps r = answer (ring q c m) r (match S.call id ps mem m.world with
      | .trap (.processExit _) => .panic
      | r => r) := fun c => (doWasi_answer (m := ring q c m) hm id ps r).trans (congrArg (answer (ring q c m) r) (alarm_else hne))
    by_cases hx : ∃ c', S.call id ps mem m.world = .trap (.processExit c')
    · obtain ⟨c', hx⟩ := hx
      refine ⟨.panic, ⟨fun c => ?_, ?_, ?_, ?_, ?_⟩⟩
      · rw [e, hx]; rfl
      all_goals simp [hx, answer, Bind.bind, Res.bind]
    · refine ⟨_, .refl _ _ fun c => ?_⟩
      rw [e, answer_ring]
      simp only [Option.map_some]
      split
      · rename_i hy; exact (hx ⟨_, hy⟩).elim
      · rfl

variable {E : Env} {D : Dispatcher} {en : Bool} {fuel : Nat}

theorem round_rings {m : Machine S} (h : m.AsksNow E D fuel q) (c : BitVec 32) :
    (ring q c m).round E D en fuel = some (.trap (.processExit c)) := by
  obtain ⟨f, fs, r, d, hf, hd, hw, hm, hq⟩ := h
  unfold Machine.round
  simp only [hf]
  have hd' : D fuel (E.P.body f.func) ((ring q c m).enter f) = some (.ok (.yield (.wasi q.id q.args r) d)) := hd
  rw [hd']
  simp only [Res.bind_ok, Machine.react, hw]
  have e := (doWasi_answer (m := (ring q c m).leave f d) hm q.id q.args r).trans
    (congrArg (answer ((ring q c m).leave f d) r) (show (alarm S q c).call q.id q.args q.mem ((ring q c m).leave f d).world = .trap (.processExit c) by
      rw [show ((ring q c m).leave f d).world = q.world from hq]; exact alarm_rings q c))
  exact congrArg some e

theorem round_else {m : Machine S} (h : ¬ m.AsksNow E D fuel q) :
    ∃ y, Alike (ringR q) (m.round E D en fuel) (fun c => (ring q c m).round E D en fuel) y := by
  unfold Machine.round
  cases hf : m.frames with
  | nil =>
    refine ⟨_, .refl _ _ fun c => ?_⟩
    simp only [hf]
    rfl
  | cons f fs =>
    have hd' : ∀ c, D fuel (E.P.body f.func) ((ring q c m).enter f) = D fuel (E.P.body f.func) (m.enter f) := fun _ => rfl
    cases hd : D fuel (E.P.body f.func) (m.enter f) with
    | none =>
      refine ⟨_, .refl _ _ fun c => ?_⟩
      simp only [hf, hd', hd]
      rfl
    | some r =>
      cases r with
      | ok x =>
        cases x with
        | ckpt d =>
          refine ⟨_, .refl _ _ fun c => ?_⟩
          simp only [hf, hd', hd]
          rfl
        | halt d =>
          refine ⟨_, .refl _ _ fun c => ?_⟩
          simp only [hf, hd', hd, Res.bind_ok, Machine.react, Option.map_some]
          exact congrArg some (doReturn_ring (m.leave f d) c)
        | yield u d =>
          cases u with
          | ret =>
            refine ⟨_, .refl _ _ fun c => ?_⟩
            simp only [hf, hd', hd, Res.bind_ok, Machine.react, Option.map_some]
            exact congrArg some (doReturn_ring (m.leave f d) c)
          | invoke g ps rs =>
            refine ⟨_, .refl _ _ fun c => ?_⟩
            simp only [hf, hd', hd, Res.bind_ok, Machine.react, Option.map_some]
            exact congrArg some (doInvoke_ring E.P en (m.leave f d) g ps rs c)
          | wasi id ps r =>
            obtain ⟨y, hy⟩ := doWasi_ring (q := q) (b := E.hasWasi) (m := m.leave f d) (id := id) (ps := ps) (r := r) (by
              intro mem hb hm e
              subst e
              exact h ⟨f, fs, r, d, hf, hd, hb, hm, rfl⟩)
            refine ⟨some y, ?_⟩
            simp only [hf, hd', hd, Res.bind_ok, Machine.react]
            exact hy
      | _ =>
        refine ⟨_, .refl _ _ fun c => ?_⟩
        simp only [hf, hd', hd]
        rfl

/-- if the question is asked the alarm rings -/
theorem run_rings (c : BitVec 32) : ∀ (k : Nat) (m : Machine S), m.AsksIn E D en fuel k q →
    (ring q c m).runLoop E D en fuel k = some (.trap (.processExit c))
  | 0, _, h => h.elim
  | k + 1, m, h => by
    by_cases hn : m.AsksNow E D fuel q
    · simp only [Machine.runLoop, round_rings hn]
    · rcases h with h | ⟨m', h, hk⟩
      · exact (hn h).elim
      · obtain ⟨y, hy⟩ := round_else (en := en) hn
        have e := (hy.ok _).mpr h
        have := hy.same c
        rw [e] at this
        simp only [Machine.runLoop, this, Option.map_some, Res.to, ringR]
        exact run_rings c k m' hk

/-- and if it is not, everything is as usual -/
theorem run_else : ∀ (k : Nat) (m : Machine S), ¬ m.AsksIn E D en fuel k q →
    ∃ y, Alike (ringE q) (m.runLoop E D en fuel k) (fun c => (ring q c m).runLoop E D en fuel k) y
  | 0, _, _ => ⟨none, .refl _ _ fun _ => rfl⟩
  | k + 1, m, h => by
    have hn : ¬ m.AsksNow E D fuel q := fun hn => h (.inl hn)
    obtain ⟨y, hy⟩ := round_else (en := en) hn
    cases y with
    | none =>
      have hx := hy.pending.mp rfl
      refine ⟨none, ?_⟩
      simp only [Machine.runLoop, hy.same, hx]
      exact .refl _ _ fun _ => rfl
    | some y =>
      cases y with
      | ok x =>
        have hx := (hy.ok x).mp rfl
        cases x with
        | running m' =>
          obtain ⟨z, hz⟩ := run_else k m' fun hk => h (.inr ⟨m', hx, hk⟩)
          refine ⟨z, ⟨fun c => ?_, fun a => ?_, ?_, ?_, ?_⟩⟩ <;> simp only [Machine.runLoop, hy.same, hx]
          · exact hz.same c
          · exact hz.ok a
          · exact hz.pending
          · exact hz.ub
          · exact hz.err
        | done vs m' =>
          refine ⟨some (.ok (.done vs m')), ?_⟩
          simp only [Machine.runLoop, hy.same, hx]
          exact .refl _ _ fun _ => rfl
        | ckpt m' =>
          refine ⟨some (.ok (.ckpt m')), ?_⟩
          simp only [Machine.runLoop, hy.same, hx]
          exact .refl _ _ fun _ => rfl
      | trap e =>
        have hx := hy.err e rfl
        refine ⟨some (.trap e), ?_⟩
        simp only [Machine.runLoop, hy.same, hx]
        exact .refl _ _ fun _ => rfl
      | ub =>
        have hx := hy.ub.mp rfl
        refine ⟨some .ub, ?_⟩
        simp only [Machine.runLoop, hy.same, hx]
        exact .refl _ _ fun _ => rfl
      | panic =>
        refine ⟨some .panic, ⟨fun c => ?_, fun a => ?_, ?_, ?_, nofun⟩⟩
        · simp only [Machine.runLoop, hy.same]; rfl
        all_goals
          simp only [Machine.runLoop]
          have h1 := hy.ok
          have h2 := hy.pending
          have h3 := hy.ub
          revert h1 h2 h3
          cases m.round E D en fuel with
          | none => intro _ h2; simp at h2
          | some x =>
            cases x with
            | ok a => intro h1; have := h1 a; simp at this
            | ub => intro _ _ h3; simp at h3
            | _ => intros; simp

/-- the alarm rings exactly if the question is asked -/
theorem run_rings_iff {k : Nat} {m : Machine S} :
    m.AsksIn E D en fuel k q ↔ ∀ c, (ring q c m).runLoop E D en fuel k = some (.trap (.processExit c)) := by
  refine ⟨fun h c => run_rings c k m h, fun h => Classical.byContradiction fun hn => ?_⟩
  obtain ⟨y, hy⟩ := run_else k m hn
  have h0 := (hy.same 0).symm.trans (h 0)
  have h1 := (hy.same 1).symm.trans (h 1)
  cases y with
  | none => cases h0
  | some y =>
    cases y with
    | trap e =>
      simp only [Option.map_some, Res.to, Option.some.injEq, Res.trap.injEq] at h0 h1
      rw [h0] at h1
      simp at h1
    | _ => simp [Res.to] at h0

end Verif.Lemmas
