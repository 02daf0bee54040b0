import Verif.Props.ReachRun
/-
C80: how far a program has come determines what it has done.
-/
namespace Verif.Props
open Verif.Model Verif.Spec Verif.Lemmas

section
variable {S : Wasi} {lz : Lz} {T : FloatText} {H : FloatHost} {file : WFile} {L : Loaded}

/-- where a process that stops is, from the machine it starts with -/
theorem executes_stops (hin : InsideP L.prog) {o : Options} {world : S.W} {m mc : Machine S} (hb : Begins T lz file o world L m)
    (hl : Labelled m) {p : Process} {l : List (Nat × Nat)} (h : p.Executes T lz H file o world l)
    (hr : m.run (envOf H p.atomics p.trig L.prog L.hasWasi) (p.D (envOf H p.atomics p.trig L.prog L.hasWasi)) p.cr p.fuel =
      some (.ok (.ckpt mc))) :
    (∀ j X, StM H L.prog L.hasWasi j mc X → StM H L.prog L.hasWasi (l ++ j) m X) ∧
    StM H L.prog L.hasWasi l m (mc.inst.data, mc.world) := by
  obtain ⟨tr, ht, ⟨L', m', hb', rfl⟩ | ⟨hn, _⟩⟩ := h
  · obtain ⟨rfl, rfl⟩ := begins_unique hb hb'
    exact process_stops hin (ht.isDT _) hl hr
  · exact absurd hb (hn _ _)

/-- where a session stands -/
structure ReachStands (T : FloatText) (lz : Lz) (H : FloatHost) (file : WFile) (L : Loaded) (lv : Nat → Nat → Nat) (m₀ : Machine S)
    (o' : Options) (w' : S.W) (l : List (Nat × Nat)) (m : Machine S) : Prop where
  begins : Begins T lz file o' w' L m
  sized : SizedM L.prog lv m
  ready : Sound3 L.inst m
  trace : ∀ b j, TrM H L.prog L.hasWasi b j m → TrM H L.prog L.hasWasi b (l ++ j) m₀
  rest : ∀ j X, StM H L.prog L.hasWasi j m X → StM H L.prog L.hasWasi (l ++ j) m₀ X

theorem reach_stands (hS : WasiKeepsSize S) (hload : loadFile file = .ok L) {lv : Nat → Nat → Nat} (hl : Bounds L.prog lv)
    {o : Options} (ho : o.restore = none) {world : S.W} {o' : Options} {w' : S.W} {l : List (Nat × Nat)}
    (h : CleanExecuted T lz H file o world o' w' l) :
    (∃ m₀ m, Begins T lz file o world L m₀ ∧ ReachStands T lz H file L lv m₀ o' w' l m) ∨
    ((∀ L' m, ¬ Begins T lz file o world L' m) ∧ o' = o ∧ w' = world) := by
  induction h with
  | start =>
    rcases starts_or (T := T) (lz := lz) hload ho world with ⟨m, hb, f, ps, -, -, hM⟩ | ⟨hn, _⟩
    · have h1 := new_sized hl.shaped hl.types hM
      exact .inl ⟨m, m, hb, hb, h1, new_sound3 hM, fun b j k => k, fun j X k => k⟩
    · exact .inr ⟨hn, rfl, rfl⟩
  | @move o' w' l j before p x b i w h hrep hb hs hlen hcl he ih =>
    rcases ih with ⟨m₀, m, h0, st⟩ | ⟨hn, rfl, rfl⟩
    · rw [begins_run st.begins] at h
      obtain ⟨s, i', mc, k1, k2, k3, k4, k5, -, -⟩ := clean_moves hS (E := envOf H p.atomics never L.prog L.hasWasi) hl p.trig (p.built.isD _) st.sized st.ready h hrep hb hs (hcl L hload) hlen
      have hnotes := executes_notes hl.inside st.begins st.ready.labelled he
      have k4' : m.run (envOf H p.atomics p.trig L.prog L.hasWasi) (p.D (envOf H p.atomics p.trig L.prog L.hasWasi)) p.cr p.fuel = some (.ok (.ckpt mc)) := k4
      obtain ⟨q, -⟩ := executes_stops hl.inside st.begins st.ready.labelled he k4'
      rw [k4'] at hnotes
      refine .inl ⟨m₀, s.resume i' w, h0, .resumed hload rfl k1, k2, k3, fun b k hk => ?_, fun k X hk => ?_⟩
      · rw [List.append_assoc]
        exact st.trace _ _ (hnotes b k (hk.sim hl.inside k5.symm))
      · rw [List.append_assoc]
        exact st.rest _ _ (q k X (hk.sim hl.inside k5.symm))
    · rcases starts_or (S := S) (T := T) (lz := lz) hload ho w' with ⟨m, hb', _⟩ | ⟨_, hno⟩
      · exact (hn _ _ hb').elim
      · exact (hno H p x h hrep).elim

/-- where a session has stopped -/
theorem reach_stop (hS : WasiKeepsSize S) (hload : loadFile file = .ok L) {lv : Nat → Nat → Nat} (hl : Bounds L.prog lv)
    {o : Options} (ho : o.restore = none) {world : S.W} {o' : Options} {w' : S.W} {l : List (Nat × Nat)}
    (h : CleanExecuted T lz H file o world o' w' l) {p : Process} {x : Left S} {i : Inst} {w : S.W} {j : List (Nat × Nat)}
    (hr : p.run T lz H file o' w' = some (.ok x)) (hrep : x.report = .checkpointed) (hs : x.state = some (i, w))
    (he : p.Executes T lz H file o' w' j) :
    ∃ m₀, Begins T lz file o world L m₀ ∧ StM H L.prog L.hasWasi (l ++ j) m₀ (i.data, w) ∧
      ∃ b, TrM H L.prog L.hasWasi b (l ++ j) m₀ := by
  rcases reach_stands hS hload hl ho h with ⟨m₀, m, h0, st⟩ | ⟨hn, rfl, rfl⟩
  · rw [begins_run st.begins] at hr
    obtain ⟨mc, hrun, -, hst⟩ := process_ckpt hr hrep
    rw [hs] at hst
    cases hst
    obtain ⟨-, q⟩ := executes_stops hl.inside st.begins st.ready.labelled he hrun
    obtain ⟨b, tb⟩ := (executes_notes hl.inside st.begins st.ready.labelled he).some_of
    exact ⟨m₀, h0, st.rest _ _ q, b, st.trace _ _ tb⟩
  · rcases starts_or (S := S) (T := T) (lz := lz) hload ho w' with ⟨m, hb', _⟩ | ⟨_, hno⟩
    · exact (hn _ _ hb').elim
    · exact (hno H p x hr hrep).elim

end

/-- **C80** Two sessions of the same program started the same way — their processes built for whatever platforms and dispatchers,
moved as often and wherever their triggers are found raised — have each just stopped for a checkpoint.  The processes of the one have
executed the instructions `l₁ ++ j₁`, those of the other `l₂ ++ j₂`.  If these are equally many, they are the same ones in the same
order, and memory, globals, tables, data segments and outside world are the same: how far a program has come determines what it has
done, however it got there. -/
theorem progress_determines_state_partial {S : Wasi} (hS : WasiKeepsSize S) {T : FloatText} {lz : Lz} {A : SMod} {H : FloatHost}
    (h : A.WellFormed S H) {P : Prog} (hc : (A.source H).compile A.globalTypes = some P) (hm : Small (A.source H)) {o : Options}
    (ho : o.restore = none) {world : S.W}
    {o₁ : Options} {w₁ : S.W} {l₁ : List (Nat × Nat)} (s₁ : CleanExecuted T lz H (some A.file) o world o₁ w₁ l₁)
    {p₁ : Process} {x₁ : Left S} {i₁ : Inst} {v₁ : S.W} {j₁ : List (Nat × Nat)} (r₁ : p₁.run T lz H (some A.file) o₁ w₁ = some (.ok x₁))
    (c₁ : x₁.report = .checkpointed) (e₁ : x₁.state = some (i₁, v₁)) (k₁ : p₁.Executes T lz H (some A.file) o₁ w₁ j₁)
    {o₂ : Options} {w₂ : S.W} {l₂ : List (Nat × Nat)} (s₂ : CleanExecuted T lz H (some A.file) o world o₂ w₂ l₂)
    {p₂ : Process} {x₂ : Left S} {i₂ : Inst} {v₂ : S.W} {j₂ : List (Nat × Nat)} (r₂ : p₂.run T lz H (some A.file) o₂ w₂ = some (.ok x₂))
    (c₂ : x₂.report = .checkpointed) (e₂ : x₂.state = some (i₂, v₂)) (k₂ : p₂.Executes T lz H (some A.file) o₂ w₂ j₂)
    (hlen : (l₁ ++ j₁).length = (l₂ ++ j₂).length) :
    l₁ ++ j₁ = l₂ ++ j₂ ∧ storeOf i₁ = storeOf i₂ ∧ v₁ = v₂ := by
  obtain ⟨fs, L, _, _, hload, rfl, _, _⟩ := load_ok h hc
  obtain ⟨lv, hl⟩ := small_bounds hc hm
  obtain ⟨m, b1, q1, c, t1⟩ := reach_stop hS hload hl ho s₁ r₁ c₁ e₁ k₁
  obtain ⟨m', b2, q2, c', t2⟩ := reach_stop hS hload hl ho s₂ r₂ c₂ e₂ k₂
  obtain ⟨-, rfl⟩ := begins_unique b1 b2
  have e : l₁ ++ j₁ = l₂ ++ j₂ := by
    rcases t1.comparable t2 with ⟨_, h⟩ | ⟨_, h⟩ | h
    · exact h.eq_of_length hlen
    · exact (h.eq_of_length hlen.symm).symm
    · exact h
  have := q1.det hl.inside q2 e
  obtain ⟨d, rfl⟩ := Prod.mk.inj this
  obtain ⟨a1, a2, a3, a4⟩ := Inst.data_eq d
  exact ⟨e, by simp only [storeOf, a1, a2, a3, a4], rfl⟩

theorem advanced_executed {S : Wasi} {T : FloatText} {lz : Lz} {H : FloatHost} {file : WFile} {o : Options} {world : S.W} {n : Nat}
    {o' : Options} {w' : S.W} (h : Advanced T lz H file o world n o' w') :
    ∃ l, CleanExecuted T lz H file o world o' w' l ∧ n ≤ l.length := by
  induction h with
  | start => exact ⟨[], .start, Nat.le_refl _⟩
  | @move n o' w' j before p x b i w h hl hb hs hlen hc he ih =>
    obtain ⟨l, h1, h2⟩ := ih
    refine ⟨l ++ j, .move h1 p h hl hb hs hlen hc he, ?_⟩
    rw [List.length_append]
    split
    · omega
    · rename_i hj
      have := List.length_pos_iff.mpr hj
      omega

/-- **C78**, with the number: of the processes between which a program is moved, no more can execute anything before they are stopped than
the program executes instructions when it is left alone until it ends. -/
theorem working_moves_le_partial {S : Wasi} (hS : WasiKeepsSize S) {T : FloatText} {lz : Lz} {A : SMod} {H : FloatHost}
    (h : A.WellFormed S H) {P : Prog} (hc : (A.source H).compile A.globalTypes = some P) (hm : Small (A.source H)) {o : Options}
    (ho : o.restore = none) {world : S.W} {n : Nat} {o' : Options} {w' : S.W} (hs : Advanced T lz H (some A.file) o world n o' w')
    {u : Process} {k : List (Nat × Nat)} (hu : u.undisturbed.Executes T lz H (some A.file) o world k) {r : Res (Left S)}
    (hr : u.undisturbed.run T lz H (some A.file) o world = some r) : n ≤ k.length := by
  obtain ⟨l, h1, h2⟩ := advanced_executed hs
  obtain ⟨j, hj⟩ := executes_total (T := T) (lz := lz) (H := H) (file := some A.file) u o' w'
  have h3 := ((session_executes_partial hS h hc hm ho h1 hj hu).2.2.1 r hr).length_le
  rw [List.length_append] at h3
  omega

end Verif.Props
