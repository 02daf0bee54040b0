import Verif.Spec.UntouchedMore
import Verif.Props.Untouched
import Verif.Props.Steady
/-
C65 for programs with any instructions, stopped only when tables and data segments are as loaded.
-/
namespace Verif.Props
open Verif.Model Verif.Spec Verif.Lemmas

section
variable {S : Wasi} {lz : Lz} {q : Ask S.W} {D : Dispatcher} {en : Bool} {fuel : Nat} {old : Option (List Byte)} {io : Io}
variable {H : FloatHost} {P : Prog} {w a : Bool} {trig : Nat → Bool} {lv : Nat → Nat → Nat} {m : Machine S}

theorem sound_ring {i : Inst} (c : BitVec 32) (h : Sound3 i m) : Sound3 i (ring q c m) := ⟨h.1, h.2, h.3⟩

/-- what a process asks, an undisturbed one would ask -/
theorem process_ever_b (lz : Lz) (hl : Bounds P lv) (hD : IsD (envOf H a trig P w) D) (hz : SizedM P lv m)
    (h : m.Asks (envOf H a trig P w) D en fuel q) : Ever H P w m q := by
  refine (ever_iff_runs (a := a) (en := false) hl.inside .loop).mpr fun c => ?_
  obtain ⟨o, h1, h2⟩ := process_end (E := envOf H a trig P w) (D' := loopD (envOf H a never P w)) (en' := false) hl.shaped hl.inside
    hl.types hl.regs hD .loop (sized_ring c hz)
    (process_asks (lz := lz) (old := none) (io := .fine) h c) (by intro l e; cases e; exact ⟨nofun, nofun, nofun⟩)
  have : o = .trap (.processExit c) := by
    cases o with
    | trap e => cases e <;> simp [seen, seenRun, failureReport] at h2 ⊢; exact h2.symm
    | _ => simp [seen, seenRun] at h2
  rw [this] at h1
  exact h1

/-- a process that comes to an end has asked everything an undisturbed one would ask -/
theorem process_all_b (hl : Bounds P lv) (hD : IsD (envOf H a trig P w) D) (hz : SizedM P lv m) {r : Res (Left S)}
    (h : m.process lz (envOf H a trig P w) D en fuel old io = some r) (hr : Finished r) (he : Ever H P w m q) :
    m.Asks (envOf H a trig P w) D en fuel q := by
  refine Classical.byContradiction fun hn => ?_
  obtain ⟨y, hy, h1, _, _⟩ := process_else (lz := lz) (old := old) (io := io) hn
  have hf : ∃ x, y = some x ∧ Finished x := by
    rcases h1 with rfl | h1
    · exact ⟨_, rfl, nofun⟩
    · rw [h] at h1; exact ⟨r, h1, hr⟩
  obtain ⟨x, rfl, hx⟩ := hf
  have key : ∀ c, seen (Res.to (ringL q c) x) = .ok (.exited c, none) := by
    intro c
    obtain ⟨o, k1, k2⟩ := process_end (E := envOf H a trig P w) (D' := loopD (envOf H a never P w)) (en' := false) hl.shaped hl.inside
      hl.types hl.regs hD .loop (sized_ring c hz) (hy c) (by
        intro l e
        cases x with
        | ok l' => cases e; exact hx l' rfl
        | _ => cases e)
    have e := runs_unique (quietD (E := envOf H a never P w) .loop) k1 ((ever_iff_runs (a := a) (en := false) hl.inside .loop).mp he c)
    rw [k2, e]
    rfl
  have k0 := key 0
  have k1 := key 1
  cases x with
  | ok l =>
    simp only [Res.to, seen, ringL, Res.ok.injEq, Prod.mk.injEq] at k0 k1
    have e := k0.1.symm.trans k1.1
    simp at e
  | _ => cases k0

/-- what is asked from a machine on is what the process asks that stops for a checkpoint, and what is asked after it was restored -/
theorem process_splits_b (hS : WasiKeepsSize S) (hl : Bounds P lv) (hD : IsD (envOf H a trig P w) D) (hz : SizedM P lv m) {i : Inst}
    (hrd : Sound3 i m) {l : Left S} (h : m.process lz (envOf H a trig P w) D en fuel old io = some (.ok l))
    (hrep : l.report = .checkpointed) {b : List Byte} (hb : l.ckpt = some b) {i' : Inst} {wd : S.W} (hs : l.state = some (i', wd))
    (hcl : i'.tables = i.tables ∧ i'.datas = i.datas) (hlen : b.length < 2 ^ 32) :
    ∃ st j, restore lz P i (some b) = (.ok st, j) ∧ SizedM P lv (st.resume (S := S) j wd) ∧ Sound3 i (st.resume (S := S) j wd) ∧
      ∀ q, Ever H P w m q ↔ m.Asks (envOf H a trig P w) D en fuel q ∨ Ever H P w (st.resume (S := S) j wd) q := by
  obtain ⟨st, j, _, k1, k2, k3, -, -, -, -⟩ := clean_moves hS (E := envOf H a never P w) hl trig hD hz hrd h hrep hb hs hcl hlen
  refine ⟨st, j, k1, k2, k3, fun q => ?_⟩
  by_cases hq : m.Asks (envOf H a trig P w) D en fuel q
  · exact ⟨fun _ => .inl hq, fun _ => process_ever_b lz hl hD hz hq⟩
  · obtain ⟨y, hy, _, hy', _⟩ := process_else (lz := lz) (old := old) (io := io) hq
    cases hy' l h hrep
    have e : Ever H P w m q ↔ Ever H P w (st.resume (S := S) j wd) q := by
      rw [ever_iff_runs (a := a) (en := false) hl.inside .loop, ever_iff_runs (a := a) (en := false) hl.inside .loop]
      refine forall_congr' fun c => ?_
      obtain ⟨st', j', _, k1', -, -, -, -, -, k4⟩ := clean_moves (alarm_keeps hS c) (E := envOf H a never P w) hl trig hD (sized_ring c hz)
        (sound_ring c hrd) (hy c) hrep hb hs hcl hlen
      have e : st' = st ∧ j' = j := by
        have := k1'.symm.trans k1
        simp only [Prod.mk.injEq, Res.ok.injEq] at this
        exact this
      obtain ⟨rfl, rfl⟩ := e
      exact k4 _ _ false false _ .loop .loop
    rw [e]
    exact ⟨.inr, fun h => h.resolve_left hq⟩

end

section
variable {S : Wasi} {lz : Lz} {q : Ask S.W} {T : FloatText} {H : FloatHost} {file : WFile} {L : Loaded}

/-- where a session stands -/
structure CleanStands (T : FloatText) (lz : Lz) (H : FloatHost) (file : WFile) (L : Loaded) (lv : Nat → Nat → Nat) (m₀ : Machine S)
    (o' : Options) (w' : S.W) (A : Ask S.W → Prop) (m : Machine S) : Prop where
  begins : Begins T lz file o' w' L m
  sized : SizedM L.prog lv m
  ready : Sound3 L.inst m
  asks : ∀ q, Ever H L.prog L.hasWasi m₀ q ↔ A q ∨ Ever H L.prog L.hasWasi m q

theorem clean_stands (hS : WasiKeepsSize S) (hload : loadFile file = .ok L) {lv : Nat → Nat → Nat} (hl : Bounds L.prog lv)
    {o : Options} (ho : o.restore = none) {world : S.W} {o' : Options} {w' : S.W} {A : Ask S.W → Prop}
    (h : CleanAsked T lz H file o world o' w' A) :
    (∃ m₀ m, Begins T lz file o world L m₀ ∧ CleanStands T lz H file L lv m₀ o' w' A m) ∨
    ((∀ L' m, ¬ Begins T lz file o world L' m) ∧ o' = o ∧ w' = world ∧ ∀ q, ¬ A q) := by
  induction h with
  | start =>
    rcases starts_or (T := T) (lz := lz) hload ho world with ⟨m, hb, f, ps, -, -, hM⟩ | ⟨hn, _⟩
    · exact .inl ⟨m, m, hb, hb, new_sized hl.shaped hl.types hM, new_sound3 hM, fun q => ⟨.inr, fun h => h.resolve_left id⟩⟩
    · exact .inr ⟨hn, rfl, rfl, fun _ => id⟩
  | @move o' w' A before p l b i w h hrep hb hs hlen hcl ih =>
    rcases ih with ⟨m₀, m, h0, st⟩ | ⟨hn, rfl, rfl, _⟩
    · rw [begins_run st.begins] at h
      obtain ⟨s, j, k1, k2, k3, k4⟩ := process_splits_b hS hl (p.built.isD _) st.sized st.ready h hrep hb hs (hcl L hload) hlen
      refine .inl ⟨m₀, s.resume j w, h0, .resumed hload rfl k1, k2, k3, fun q => ?_⟩
      rw [st.asks q, k4 q, or_assoc]
      rw [asks_begins st.begins]
    · rcases starts_or (S := S) (T := T) (lz := lz) hload ho w' with ⟨m, hb', _⟩ | ⟨_, hno⟩
      · exact (hn _ _ hb').elim
      · exact (hno H p l h hrep).elim

/-- Sessions: `CleanAsked`, with one more process `p` now. -/
theorem clean_asks_any (hS : WasiKeepsSize S) (hload : loadFile file = .ok L) {lv : Nat → Nat → Nat} (hl : Bounds L.prog lv)
    {o : Options} (ho : o.restore = none) {world : S.W} {o' : Options} {w' : S.W} {A : Ask S.W → Prop}
    (h : CleanAsked T lz H file o world o' w' A) (p q' : Process) (q : Ask S.W) :
    (A q ∨ p.Asks T lz H file o' w' q → ∃ fuel, ({ q'.undisturbed with fuel := fuel }).Asks T lz H file o world q) ∧
    ((∃ fuel, ({ q'.undisturbed with fuel := fuel }).Asks T lz H file o world q) →
      A q ∨ ∃ fuel, ({ q'.undisturbed with fuel := fuel }).Asks T lz H file o' w' q) ∧
    (∀ r, p.run T lz H file o' w' = some r → Finished r →
      (∃ fuel, ({ q'.undisturbed with fuel := fuel }).Asks T lz H file o world q) → A q ∨ p.Asks T lz H file o' w' q) := by
  rcases clean_stands hS hload hl ho h with ⟨m₀, m, h0, st⟩ | ⟨hn, rfl, rfl, hA⟩
  · rw [undisturbed_begins hl.inside h0, undisturbed_begins hl.inside st.begins, asks_begins st.begins, st.asks]
    refine ⟨?_, id, ?_⟩
    · rintro (h | h)
      · exact .inl h
      · exact .inr (process_ever_b lz hl (p.built.isD _) st.sized h)
    · rintro r hr hf (h | h)
      · exact .inl h
      · rw [begins_run st.begins] at hr
        exact .inr (process_all_b hl (p.built.isD _) st.sized hr hf h)
  · have no : ∀ p : Process, ¬ p.Asks T lz H file o' w' q := fun p ⟨L', m, hb, _⟩ => hn L' m hb
    exact ⟨fun h => (h.elim (hA q) (no p)).elim, fun ⟨_, h⟩ => (no _ h).elim, fun _ _ _ ⟨_, h⟩ => (no _ h).elim⟩
end

/-- **C65** (`session_asks`) for programs with any instructions, stopped only when tables and data segments are as loaded: what the host
is asked in a session is what a single undisturbed process asks. -/
theorem clean_asks {S : Wasi} (hS : WasiKeepsSize S) {T : FloatText} {lz : Lz} {A : SMod} {H : FloatHost}
    (h : A.WellFormed S H) {P : Prog} (hc : (A.source H).compile A.globalTypes = some P) (hm : Small (A.source H)) {o : Options}
    (ho : o.restore = none) {world : S.W} {o' : Options} {w' : S.W} {asked : Ask S.W → Prop}
    (hs : CleanAsked T lz H (some A.file) o world o' w' asked) (p u : Process) (q : Ask S.W) :
    (asked q ∨ p.Asks T lz H (some A.file) o' w' q →
      ∃ fuel, ({ u.undisturbed with fuel := fuel }).Asks T lz H (some A.file) o world q) ∧
    ((∃ fuel, ({ u.undisturbed with fuel := fuel }).Asks T lz H (some A.file) o world q) →
      asked q ∨ ∃ fuel, ({ u.undisturbed with fuel := fuel }).Asks T lz H (some A.file) o' w' q) ∧
    (∀ r, p.run T lz H (some A.file) o' w' = some r → Finished r →
      (asked q ∨ p.Asks T lz H (some A.file) o' w' q ↔
        ∃ fuel, ({ u.undisturbed with fuel := fuel }).Asks T lz H (some A.file) o world q)) := by
  obtain ⟨fs, L, _, _, hload, rfl, _, _⟩ := load_ok h hc
  obtain ⟨lv, hl⟩ := small_bounds hc hm
  obtain ⟨h1, h2, h3⟩ := clean_asks_any hS hload hl ho hs p u q
  exact ⟨h1, h2, fun r hr hf => ⟨h1, h3 r hr hf⟩⟩

/-- **C65**, put together, for programs with any instructions: a session that comes to an end has asked the host exactly what the WebAssembly rules prescribe. -/
theorem clean_asks_webassembly {S : Wasi} (hS : WasiKeepsSize S) {T : FloatText} {lz : Lz} {A : SMod} {H : FloatHost}
    (h : A.WellFormed S H) (hx : MaxPages A) (hN : A.Named H) {P : Prog} (hc : (A.source H).compile A.globalTypes = some P)
    (hm : Small (A.source H)) (hn : (A.exports.map (·.1)).Nodup) {o : Options} (ho : o.restore = none) {f : Nat}
    (he : (o.invoke, .func f) ∈ A.exports) {t : FuncType} {ls : List (Nat × Cls)} {b : WSeq}
    (hf : (A.source H).funcs[f]? = some (.wasm t ls b)) {args : List Val} (hP : parseParams T o.params = .ok args)
    (hargs : args.map (·.cls) = t.params) {world : S.W} {st : Store} (hst : InitialStore A st)
    (hodd : ¬ Call S (A.source H) ((A.source H).info A.globalTypes) (.wasm t ls b) args st world (.odd .deviates))
    {o' : Options} {w' : S.W} {asked : Ask S.W → Prop} (hs : CleanAsked T lz H (some A.file) o world o' w' asked) (p : Process)
    (q : Ask S.W) :
    (asked q ∨ p.Asks T lz H (some A.file) o' w' q →
      CallAsks S (A.source H) ((A.source H).info A.globalTypes) (.wasm t ls b) args st world q) ∧
    (∀ r, p.run T lz H (some A.file) o' w' = some r → Finished r →
      (asked q ∨ p.Asks T lz H (some A.file) o' w' q ↔
        CallAsks S (A.source H) ((A.source H).info A.globalTypes) (.wasm t ls b) args st world q)) := by
  obtain ⟨h1, _, h3⟩ := clean_asks hS h hc hm ho hs p p q
  have e := asks_webassembly (lz := lz) hS h hx hN hc hn ho he hf hP hargs hst hodd p q
  exact ⟨fun k => e.mp (h1 k), fun r hr hf => (h3 r hr hf).trans e⟩

/-- **C54, C65** (`steady_session`) for modules of steady functions, with any instructions. -/
theorem clean_steady_session {S : Wasi} (hS : WasiKeepsSize S) (hD : Defined S) {T : FloatText} {lz : Lz} {A : SMod} {H : FloatHost}
    (h : A.WellFormed S H) (hx : MaxPages A) (hN : A.Named H) (hA : A.Steady H) {P : Prog}
    (hc : (A.source H).compile A.globalTypes = some P)
    (hm : Small (A.source H)) (hn : (A.exports.map (·.1)).Nodup) {o : Options} (ho : o.restore = none) {f : Nat}
    (he : (o.invoke, .func f) ∈ A.exports) {t : FuncType} {ls : List (Nat × Cls)} {b : WSeq}
    (hf : (A.source H).funcs[f]? = some (.wasm t ls b)) {args : List Val} (hP : parseParams T o.params = .ok args)
    (hargs : args.map (·.cls) = t.params) {world : S.W} {st : Store} (hst : InitialStore A st)
    {o' : Options} {w' : S.W} {asked : Ask S.W → Prop} (hs : CleanAsked T lz H (some A.file) o world o' w' asked) (p : Process)
    {r : Res (Left S)} (hr : p.run T lz H (some A.file) o' w' = some r) (hfin : Finished r) :
    ((∃ vs st' w', Call S (A.source H) ((A.source H).info A.globalTypes) (.wasm t ls b) args st world (.ok vs st' w') ∧
      seen r = .ok (.result vs.getLast?, some (st', w'))) ∨
    (∃ c, (∃ st' w', Call S (A.source H) ((A.source H).info A.globalTypes) (.wasm t ls b) args st world (.exit c st' w')) ∧
      seen r = .ok (.exited c, none)) ∨
    ((∃ st' w', Call S (A.source H) ((A.source H).info A.globalTypes) (.wasm t ls b) args st world (.trap st' w')) ∧
      (seen r = .panic ∨ ∃ e, (∀ c, e ≠ .processExit c) ∧ seen r = .ok (.runFailed e, none)))) ∧
    ∀ q, asked q ∨ p.Asks T lz H (some A.file) o' w' q ↔
      CallAsks S (A.source H) ((A.source H).info A.globalTypes) (.wasm t ls b) args st world q := by
  have hodd := never_deviates (M := (A.source H).info A.globalTypes) (args := args) (w := world) hA hD (List.mem_of_getElem? hf) hst
  have hsess : CleanSession T lz H (some A.file) o world r := by
    have : ∀ {o' : Options} {w' : S.W} {asked : Ask S.W → Prop}, CleanAsked T lz H (some A.file) o world o' w' asked →
        CleanSession T lz H (some A.file) o' w' r → CleanSession T lz H (some A.file) o world r := by
      intro o' w' asked hs
      induction hs with
      | start => exact id
      | move before p h hl hb hs hlen hcl ih => exact fun k => ih (.move p h hl hb hs hlen hcl k)
    exact this hs (.last p hr hfin)
  exact ⟨clean_session_is_webassembly hS h hx hN hc hm hn ho he hf hP hargs hst hodd hsess, fun q =>
    (clean_asks_webassembly hS h hx hN hc hm hn ho he hf hP hargs hst hodd hs p q).2 r hr hfin⟩

end Verif.Props
