import Verif.Spec.Executed
import Verif.Props.ExecutedRun
/-
C79: being moved repeats no instruction and skips none.
-/
namespace Verif.Props
open Verif.Model Verif.Spec Verif.Lemmas

section
variable {S : Wasi} {H : FloatHost} {P : Prog} {w a : Bool} {t : Nat → Bool}

theorem NotesM.sim (hin : InsideP P) {l : List (Nat × Nat)} {m m' : Machine S} {r : Option (Res (End S))} (h : NotesM H P w l m r)
    (hs : MSim m m') : NotesM H P w l m' r := by
  unfold NotesM at h ⊢
  split at h
  · exact h.sim hin hs
  · exact fun b j k => (h b j k).sim hin hs
  · exact h.sim hin hs

theorem process_notes (hin : InsideP P) {D : Dispatcher} {T : Tracer} (hD : IsDT (envOf H a t P w) D T) {en : Bool} {n : Nat} {m : Machine S}
    (hl : Labelled m) : NotesM H P w (m.runPcs (envOf H a t P w) D T en n) m (m.run (envOf H a t P w) D en n) :=
  (run_notes hin hD n _ (setFirst_labelled en hl)).sim hin (setFirst_msim m en).symm

/-- whatever becomes of the run, nothing else than what comes next is executed -/
theorem NotesM.some_of {l : List (Nat × Nat)} {m : Machine S} {r : Option (Res (End S))} (h : NotesM H P w l m r) :
    ∃ b, TrM H P w b l m := by
  unfold NotesM at h
  split at h
  · exact ⟨_, h⟩
  · have := h false [] (.cut _)
    rw [List.append_nil] at this
    exact ⟨_, this⟩
  · exact ⟨_, h⟩

theorem NotesM.whole {l : List (Nat × Nat)} {m : Machine S} {x : Res (End S)} (h : NotesM H P w l m (some x)) (hne : ∀ mc, x ≠ .ok (.ckpt mc)) :
    TrM H P w true l m := by
  unfold NotesM at h
  split at h
  · rename_i e; cases e
  · rename_i e; cases e; exact absurd rfl (hne _)
  · exact h

/-- a process that comes to an end did not stop for a checkpoint -/
theorem finished_whole {E : Env} {lz : Lz} {lv : Nat → Nat → Nat} (hl : Bounds E.P lv) {D : Dispatcher} (hD : IsD E D) {en : Bool} {fuel : Nat}
    {old : Option (List Byte)} {io : Io} {m : Machine S} (hm : SizedM E.P lv m) {r : Res (Left S)}
    (h : m.process lz E D en fuel old io = some r) (hr : Finished r) :
    ∃ x, m.run E D en fuel = some x ∧ ∀ mc, x ≠ .ok (.ckpt mc) := by
  unfold Machine.process at h
  cases hx : m.run E D en fuel with
  | none => rw [hx] at h; cases h
  | some x =>
    refine ⟨x, rfl, ?_⟩
    rintro mc rfl
    rw [hx] at h
    simp only at h
    have hmc : SizedM E.P lv mc := run_inv (SizedM E.P lv)
      (fun m r n hm hr => sized_round hl.shaped hl.types hl.regs hD hr hm) fuel _ mc (hm.setFirst en) hx
    obtain ⟨s, hs⟩ := snapshot_total (lz := lz) hl.shaped hmc
    simp only [Machine.checkpoint, hs, saveFile] at h
    cases hb : encode s with
    | none => rw [hb] at h; cases h; exact (hr _ rfl).2.1 rfl
    | some b =>
      rw [hb] at h
      cases io with
      | fine => cases h; exact (hr _ rfl).1 rfl
      | createFails => cases h; exact (hr _ rfl).2.2 rfl
      | stopsAfter k => cases h; exact (hr _ rfl).2.2 rfl

end

theorem _root_.Verif.Spec.Traced.isDT {D : Env → Dispatcher} {tr : Env → Tracer} (h : Traced D tr) (E : Env) : IsDT E (D E) (tr E) := by
  cases h
  · exact .loop
  · exact .tco

section
variable {S : Wasi} {lz : Lz} {T : FloatText} {H : FloatHost} {file : WFile} {L : Loaded}

/-- every process executes something, be it nothing -/
theorem executes_total (p : Process) (o : Options) (world : S.W) : ∃ l, p.Executes T lz H file o world l := by
  have htr : ∃ tr, Traced p.D tr := by
    cases p with
    | mk _ _ D built _ _ _ _ =>
      cases built
      · exact ⟨_, .loop⟩
      · exact ⟨_, .tco⟩
  obtain ⟨tr, ht⟩ := htr
  by_cases h : ∃ L m, Begins (S := S) T lz file o world L m
  · obtain ⟨L, m, hb⟩ := h
    exact ⟨_, tr, ht, .inl ⟨L, m, hb, rfl⟩⟩
  · exact ⟨[], tr, ht, .inr ⟨fun L m hb => h ⟨L, m, hb⟩, rfl⟩⟩

theorem executes_notes (hin : InsideP L.prog) {o : Options} {world : S.W} {m : Machine S} (hb : Begins T lz file o world L m)
    (hl : Labelled m) {p : Process} {l : List (Nat × Nat)} (h : p.Executes T lz H file o world l) :
    NotesM H L.prog L.hasWasi l m (m.run (envOf H p.atomics p.trig L.prog L.hasWasi) (p.D (envOf H p.atomics p.trig L.prog L.hasWasi)) p.cr p.fuel) := by
  obtain ⟨tr, ht, ⟨L', m', hb', rfl⟩ | ⟨hn, _⟩⟩ := h
  · obtain ⟨rfl, rfl⟩ := begins_unique hb hb'
    exact process_notes hin (ht.isDT _) hl
  · exact absurd hb (hn _ _)

theorem executes_nothing {o : Options} {world : S.W} (hn : ∀ L m, ¬ Begins (S := S) T lz file o world L m) {p : Process} {l : List (Nat × Nat)}
    (h : p.Executes T lz H file o world l) : l = [] := by
  obtain ⟨tr, ht, ⟨L', m', hb', rfl⟩ | ⟨_, rfl⟩⟩ := h
  · exact absurd hb' (hn _ _)
  · rfl

/-- where a session stands -/
structure ExecStands (T : FloatText) (lz : Lz) (H : FloatHost) (file : WFile) (L : Loaded) (lv : Nat → Nat → Nat) (m₀ : Machine S)
    (o' : Options) (w' : S.W) (l : List (Nat × Nat)) (m : Machine S) : Prop where
  begins : Begins T lz file o' w' L m
  sized : SizedM L.prog lv m
  ready : Sound3 L.inst m
  rest : ∀ b j, TrM H L.prog L.hasWasi b j m → TrM H L.prog L.hasWasi b (l ++ j) m₀

theorem exec_stands (hS : WasiKeepsSize S) (hload : loadFile file = .ok L) {lv : Nat → Nat → Nat} (hl : Bounds L.prog lv)
    {o : Options} (ho : o.restore = none) {world : S.W} {o' : Options} {w' : S.W} {l : List (Nat × Nat)}
    (h : CleanExecuted T lz H file o world o' w' l) :
    (∃ m₀ m, Begins T lz file o world L m₀ ∧ SizedM L.prog lv m₀ ∧ Sound3 L.inst m₀ ∧ ExecStands T lz H file L lv m₀ o' w' l m) ∨
    ((∀ L' m, ¬ Begins T lz file o world L' m) ∧ o' = o ∧ w' = world ∧ l = []) := by
  induction h with
  | start =>
    rcases starts_or (T := T) (lz := lz) hload ho world with ⟨m, hb, f, ps, -, -, hM⟩ | ⟨hn, _⟩
    · have h1 := new_sized hl.shaped hl.types hM
      exact .inl ⟨m, m, hb, h1, new_sound3 hM, hb, h1, new_sound3 hM, fun b j k => k⟩
    · exact .inr ⟨hn, rfl, rfl, rfl⟩
  | @move o' w' l j before p x b i w h hrep hb hs hlen hcl he ih =>
    rcases ih with ⟨m₀, m, h0, z0, s0, st⟩ | ⟨hn, rfl, rfl, _⟩
    · rw [begins_run st.begins] at h
      obtain ⟨s, i', mc, k1, k2, k3, k4, k5, -, -⟩ := clean_moves hS (E := envOf H p.atomics never L.prog L.hasWasi) hl p.trig (p.built.isD _) st.sized st.ready h hrep hb hs (hcl L hload) hlen
      have hnotes := executes_notes hl.inside st.begins st.ready.labelled he
      have k4' : m.run (envOf H p.atomics p.trig L.prog L.hasWasi) (p.D (envOf H p.atomics p.trig L.prog L.hasWasi)) p.cr p.fuel = some (.ok (.ckpt mc)) := k4
      rw [k4'] at hnotes
      refine .inl ⟨m₀, s.resume i' w, h0, z0, s0, .resumed hload rfl k1, k2, k3, fun b k hk => ?_⟩
      rw [List.append_assoc]
      exact st.rest _ _ (hnotes b k (hk.sim hl.inside k5.symm))
    · rcases starts_or (S := S) (T := T) (lz := lz) hload ho w' with ⟨m, hb', _⟩ | ⟨_, hno⟩
      · exact (hn _ _ hb').elim
      · exact (hno H p x h hrep).elim

theorem exec_any (hS : WasiKeepsSize S) (hload : loadFile file = .ok L) {lv : Nat → Nat → Nat} (hl : Bounds L.prog lv)
    {o : Options} (ho : o.restore = none) {world : S.W} {o' : Options} {w' : S.W} {l : List (Nat × Nat)}
    (h : CleanExecuted T lz H file o world o' w' l) {p u : Process} {j k : List (Nat × Nat)} (hp : p.Executes T lz H file o' w' j)
    (hu : u.undisturbed.Executes T lz H file o world k) :
    (l ++ j <+: k ∨ k <+: l ++ j) ∧
    (∀ r, p.run T lz H file o' w' = some r → Finished r → k <+: l ++ j) ∧
    (∀ r, u.undisturbed.run T lz H file o world = some r → l ++ j <+: k) := by
  rcases exec_stands hS hload hl ho h with ⟨m₀, m, h0, z0, s0, st⟩ | ⟨hn, rfl, rfl, rfl⟩
  · have n1 := executes_notes hl.inside st.begins st.ready.labelled hp
    have n2 := executes_notes hl.inside h0 s0.labelled hu
    obtain ⟨b, t1⟩ := n1.some_of
    obtain ⟨c, t2⟩ := n2.some_of
    have t1' := st.rest _ _ t1
    refine ⟨?_, ?_, ?_⟩
    · rcases t1'.comparable t2 with ⟨_, h⟩ | ⟨_, h⟩ | h
      · exact .inl h
      · exact .inr h
      · rw [h]; exact .inl (List.prefix_refl _)
    · intro r hr hf
      rw [begins_run st.begins] at hr
      obtain ⟨x, hx, hne⟩ := finished_whole (E := envOf H p.atomics p.trig L.prog L.hasWasi) hl (p.built.isD _) st.sized hr hf
      rw [hx] at n1
      rcases (st.rest _ _ (n1.whole hne)).comparable t2 with ⟨h, _⟩ | ⟨_, h⟩ | h
      · cases h
      · exact h
      · rw [h]; exact List.prefix_refl _
    · intro r hr
      rw [begins_run h0] at hr
      have hx : ∃ x, m₀.run (envOf H u.undisturbed.atomics u.undisturbed.trig L.prog L.hasWasi)
          (u.undisturbed.D (envOf H u.undisturbed.atomics u.undisturbed.trig L.prog L.hasWasi)) u.undisturbed.cr u.undisturbed.fuel = some x := by
        cases hx : m₀.run (envOf H u.undisturbed.atomics u.undisturbed.trig L.prog L.hasWasi)
          (u.undisturbed.D (envOf H u.undisturbed.atomics u.undisturbed.trig L.prog L.hasWasi)) u.undisturbed.cr u.undisturbed.fuel with
        | none => unfold Machine.process at hr; rw [hx] at hr; cases hr
        | some x => exact ⟨x, rfl⟩
      obtain ⟨x, hx⟩ := hx
      have hne : ∀ mc, x ≠ .ok (.ckpt mc) := by
        rintro mc rfl
        exact quiet_no_ckpt (quietD (E := envOf H u.atomics never L.prog L.hasWasi) (u.built.isD _)) _ _ _ hx
      rw [hx] at n2
      rcases t1'.comparable (n2.whole hne) with ⟨_, h⟩ | ⟨h, _⟩ | h
      · exact h
      · cases h
      · rw [h]; exact List.prefix_refl _
  · rw [executes_nothing hn hp, executes_nothing hn hu]
    exact ⟨.inl (List.prefix_refl _), fun _ _ _ => List.prefix_refl _, fun _ _ => List.prefix_refl _⟩

theorem executed_before {o : Options} {world : S.W} {o' : Options} {w' : S.W} {l : List (Nat × Nat)}
    (h : CleanExecuted T lz H file o world o' w' l) {r : Res (Left S)} : CleanSession T lz H file o' w' r → CleanSession T lz H file o world r := by
  induction h with
  | start => exact id
  | move before p h hl hb hs hlen hcl he ih => exact fun k => ih (.move p h hl hb hs hlen hcl k)

end

/-- **C79** The processes of a session — each built for either platform and dispatcher, stopped whenever its trigger is found raised, and
continued by the next from the checkpoint file it left, with tables and data segments as loaded — have executed the instructions `l`,
and the process that is running now executes `j` as long as it is watched.  A process on which no trigger is ever raised, of whatever
build, executes `k` as long as that is watched.  Then one of `l ++ j` and `k` is the beginning of the other: no instruction is ever
repeated, skipped or exchanged because the program was moved.  When the last process of the session came to an end, the single one has
executed no more than the session; when the single one has come to an end, the session has executed no more than it; when both have,
they have executed the same instructions in the same order. -/
theorem session_executes_partial {S : Wasi} (hS : WasiKeepsSize S) {T : FloatText} {lz : Lz} {A : SMod} {H : FloatHost}
    (h : A.WellFormed S H) {P : Prog} (hc : (A.source H).compile A.globalTypes = some P) (hm : Small (A.source H)) {o : Options}
    (ho : o.restore = none) {world : S.W} {o' : Options} {w' : S.W} {l : List (Nat × Nat)}
    (hs : CleanExecuted T lz H (some A.file) o world o' w' l) {p u : Process} {j k : List (Nat × Nat)}
    (hp : p.Executes T lz H (some A.file) o' w' j) (hu : u.undisturbed.Executes T lz H (some A.file) o world k) :
    (l ++ j <+: k ∨ k <+: l ++ j) ∧
    (∀ r, p.run T lz H (some A.file) o' w' = some r → Finished r → k <+: l ++ j) ∧
    (∀ r, u.undisturbed.run T lz H (some A.file) o world = some r → l ++ j <+: k) ∧
    (∀ r r', p.run T lz H (some A.file) o' w' = some r → Finished r → u.undisturbed.run T lz H (some A.file) o world = some r' →
      l ++ j = k) := by
  obtain ⟨fs, L, _, _, hload, rfl, _, _⟩ := load_ok h hc
  obtain ⟨lv, hl⟩ := small_bounds hc hm
  obtain ⟨h1, h2, h3⟩ := exec_any hS hload hl ho hs hp hu
  refine ⟨h1, h2, h3, fun r r' hr hf hr' => ?_⟩
  exact (h3 r' hr').eq_of_length_le (h2 r hr hf).length_le

/-- **C79**, for a session that came to an end: any undisturbed process, watched long enough, comes to the same end and has executed
exactly the instructions the processes of the session have executed one after the other. -/
theorem ended_session_executes_partial {S : Wasi} (hS : WasiKeepsSize S) {T : FloatText} {lz : Lz} {A : SMod} {H : FloatHost}
    (h : A.WellFormed S H) {P : Prog} (hc : (A.source H).compile A.globalTypes = some P) (hm : Small (A.source H)) {o : Options}
    (ho : o.restore = none) {world : S.W} {o' : Options} {w' : S.W} {l : List (Nat × Nat)}
    (hs : CleanExecuted T lz H (some A.file) o world o' w' l) {p : Process} {j : List (Nat × Nat)}
    (hp : p.Executes T lz H (some A.file) o' w' j) {r : Res (Left S)} (hr : p.run T lz H (some A.file) o' w' = some r) (hf : Finished r)
    (u : Process) :
    ∃ fuel r', ({ u.undisturbed with fuel := fuel }).run T lz H (some A.file) o world = some r' ∧ seen r' = seen r ∧
      ∀ k, ({ u.undisturbed with fuel := fuel }).Executes T lz H (some A.file) o world k ↔ k = l ++ j := by
  obtain ⟨⟨fuel, r', h1, h2⟩, -⟩ := clean_session_transparent hS h hc hm ho (executed_before hs (.last p hr hf)) u
  refine ⟨fuel, r', h1, h2, fun k => ?_⟩
  have key : ∀ k, ({ u.undisturbed with fuel := fuel }).Executes T lz H (some A.file) o world k → k = l ++ j := fun k hk =>
    ((session_executes_partial hS h hc hm ho hs hp (u := { u with fuel := fuel }) hk).2.2.2 r r' hr hf h1).symm
  constructor
  · exact key k
  · rintro rfl
    obtain ⟨k, hk⟩ := executes_total (T := T) (lz := lz) (H := H) (file := some A.file) ({ u.undisturbed with fuel := fuel }) o world
    rwa [← key k hk]

end Verif.Props
