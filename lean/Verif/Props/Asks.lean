import Verif.Lemmas.AskRun
import Verif.Props.WebAssembly
/-
C65: what the host is asked.
-/
namespace Verif.Props
open Verif.Model Verif.Spec Verif.Lemmas

theorem wellFormed_alarm {S : Wasi} {A : SMod} {H : FloatHost} (h : A.WellFormed S H) (q : Ask S.W) (c : BitVec 32) :
    A.WellFormed (alarm S q c) H where
  imports := h.imports
  tables := h.tables
  mems := h.mems
  decls := h.decls
  globals := h.globals
  exports := h.exports
  dataLen := h.dataLen
  accepted := ⟨h.accepted.faithful, h.accepted.fits,
    fun t id hf args m w r m' w' ha hc => h.accepted.host t id hf args m w r m' w' ha (alarm_ok.mp hc).2, h.accepted.one⟩

/-- **C65** (for well-formed modules in the faithfully translated part of WebAssembly whose functions the preprocessor accepts, as
long as the rules do not lead to one of the places where the code deviates).  Watched long enough, an undisturbed process — however
it was built — calls exactly the host functions the WebAssembly rules say it calls, with these arguments, with the memory in this
state, in this outside world; whether or not the program ever comes to an end. -/
theorem asks_webassembly {S : Wasi} (hS : WasiKeepsSize S) {T : FloatText} {lz : Lz} {A : SMod} {H : FloatHost}
    (h : A.WellFormed S H) (hx : MaxPages A) (hN : A.Named H) {P : Prog} (hc : (A.source H).compile A.globalTypes = some P)
    (hn : (A.exports.map (·.1)).Nodup) {o : Options} (ho : o.restore = none) {f : Nat}
    (he : (o.invoke, .func f) ∈ A.exports) {t : FuncType} {ls : List (Nat × Cls)} {b : WSeq}
    (hf : (A.source H).funcs[f]? = some (.wasm t ls b)) {args : List Val} (hP : parseParams T o.params = .ok args)
    (hargs : args.map (·.cls) = t.params) {world : S.W} {st : Store} (hst : InitialStore A st)
    (hodd : ¬ Call S (A.source H) ((A.source H).info A.globalTypes) (.wasm t ls b) args st world (.odd .deviates))
    (p : Process) (q : Ask S.W) :
    (∃ fuel, ({ p.undisturbed with fuel := fuel }).Asks T lz H (some A.file) o world q) ↔
      CallAsks S (A.source H) ((A.source H).info A.globalTypes) (.wasm t ls b) args st world q := by
  obtain ⟨fs, L, _, hL, hload, hprog, _, _⟩ := load_ok h hc
  have hin : InsideP L.prog := by
    obtain ⟨lv, hlv⟩ := (compile_preprocessed hc).shaped
    rw [hprog]
    exact fun f => (hlv f).inside
  have hE : L.exportFunc o.invoke = .ok f := (export_resolves hL hn o.invoke f).mpr he
  have hlen : args.length = t.params.length := by rw [← hargs]; simp
  obtain ⟨m, hM⟩ := new_ok (S := S) hc hf hlen L.inst world
  rw [← hprog] at hM
  have hb : Begins T lz (some A.file) o world L m := .fresh hload ho hE hP hM
  rw [undisturbed_begins hin hb, ever_iff_runs (a := p.atomics) (en := p.cr) hin (p.built.isD _)]
  have key : ∀ c, Runs (envOf H p.atomics never L.prog L.hasWasi) (p.D (envOf H p.atomics never L.prog L.hasWasi)) p.cr (ring q c m)
      (.trap (.processExit c)) ↔
      CallAsks S (A.source H) ((A.source H).info A.globalTypes) (.wasm t ls b) args st world q := by
    intro c
    have hM' : Machine.new (S := alarm S q c) L.prog L.inst world f args = .ok (ring q c m) := by
      unfold Machine.new at hM ⊢
      split at hM
      · split at hM
        · cases hM
        · rename_i hne
          simp only [hne, if_false]
          cases hM; rfl
      · cases hM
    obtain ⟨_, w, _⟩ := main_is_webassembly (alarm_keeps hS c) (wellFormed_alarm h q c) hx hN hc hn he hf hargs p.atomics p.built p.cr world hst
      (fun k => hodd (call_real k))
    rw [← rings_iff (c := c), ← w c]
    have hmr : ∀ n, mainRun (S := alarm S q c) (envOf H p.atomics never) p.D p.cr n (some A.file) o.invoke args world =
        (ring q c m).run (envOf H p.atomics never L.prog L.hasWasi) (p.D (envOf H p.atomics never L.prog L.hasWasi)) p.cr n := by
      intro n
      unfold mainRun
      simp only [hload, hE, hM']
    constructor
    · rintro ⟨n, r, h1, h2⟩
      refine ⟨n, r, (hmr n).trans h1, ?_⟩
      cases r with
      | ok x => cases x <;> cases h2
      | trap e => cases h2; rfl
      | panic => cases h2
      | ub => cases h2
    · rintro ⟨n, r, h1, h2⟩
      refine ⟨n, r, (hmr n).symm.trans h1, ?_⟩
      cases r with
      | ok x => cases x <;> cases h2
      | trap e => cases h2; rfl
      | panic => cases h2
      | ub => cases h2
  exact ⟨fun h => (key 0).mp (h 0), fun h c => (key c).mpr h⟩

/-- **C65** for sessions.  Begin a session on the file of a module whose functions write neither tables nor data segments
(`Movable`), let it be checkpointed any number of times, at any moments, each time
continued by a process that restores the checkpoint; and watch one more process, for any time.  What the host has been asked so far
is asked by a single undisturbed process too; what that process asks has been asked already, or will be by the next process if it is
left alone; and if the session comes to an end, exactly the same has been asked. -/
theorem session_asks {S : Wasi} (hS : WasiKeepsSize S) {T : FloatText} {lz : Lz} {A : SMod} {H : FloatHost}
    (h : A.WellFormed S H) {P : Prog} (hc : (A.source H).compile A.globalTypes = some P) (hm : Movable (A.source H)) {o : Options}
    (ho : o.restore = none) {world : S.W} {o' : Options} {w' : S.W} {asked : Ask S.W → Prop}
    (hs : SoFar T lz H (some A.file) o world o' w' asked) (p u : Process) (q : Ask S.W) :
    (asked q ∨ p.Asks T lz H (some A.file) o' w' q →
      ∃ fuel, ({ u.undisturbed with fuel := fuel }).Asks T lz H (some A.file) o world q) ∧
    ((∃ fuel, ({ u.undisturbed with fuel := fuel }).Asks T lz H (some A.file) o world q) →
      asked q ∨ ∃ fuel, ({ u.undisturbed with fuel := fuel }).Asks T lz H (some A.file) o' w' q) ∧
    (∀ r, p.run T lz H (some A.file) o' w' = some r → Finished r →
      (asked q ∨ p.Asks T lz H (some A.file) o' w' q ↔
        ∃ fuel, ({ u.undisturbed with fuel := fuel }).Asks T lz H (some A.file) o world q)) := by
  obtain ⟨fs, L, _, _, hload, rfl, _, _⟩ := load_ok h hc
  obtain ⟨lv, hl⟩ := limits hc hm
  obtain ⟨h1, h2, h3⟩ := session_asks_any hS hload hl ho hs p u q
  exact ⟨h1, h2, fun r hr hf => ⟨h1, h3 r hr hf⟩⟩

/-- **C65**, put together: a session that comes to an end has asked the host exactly what the WebAssembly rules prescribe. -/
theorem session_asks_webassembly {S : Wasi} (hS : WasiKeepsSize S) {T : FloatText} {lz : Lz} {A : SMod} {H : FloatHost}
    (h : A.WellFormed S H) (hx : MaxPages A) (hN : A.Named H) {P : Prog} (hc : (A.source H).compile A.globalTypes = some P)
    (hm : Movable (A.source H)) (hn : (A.exports.map (·.1)).Nodup) {o : Options} (ho : o.restore = none) {f : Nat}
    (he : (o.invoke, .func f) ∈ A.exports) {t : FuncType} {ls : List (Nat × Cls)} {b : WSeq}
    (hf : (A.source H).funcs[f]? = some (.wasm t ls b)) {args : List Val} (hP : parseParams T o.params = .ok args)
    (hargs : args.map (·.cls) = t.params) {world : S.W} {st : Store} (hst : InitialStore A st)
    (hodd : ¬ Call S (A.source H) ((A.source H).info A.globalTypes) (.wasm t ls b) args st world (.odd .deviates))
    {o' : Options} {w' : S.W} {asked : Ask S.W → Prop} (hs : SoFar T lz H (some A.file) o world o' w' asked) (p : Process)
    (q : Ask S.W) :
    (asked q ∨ p.Asks T lz H (some A.file) o' w' q →
      CallAsks S (A.source H) ((A.source H).info A.globalTypes) (.wasm t ls b) args st world q) ∧
    (∀ r, p.run T lz H (some A.file) o' w' = some r → Finished r →
      (asked q ∨ p.Asks T lz H (some A.file) o' w' q ↔
        CallAsks S (A.source H) ((A.source H).info A.globalTypes) (.wasm t ls b) args st world q)) := by
  obtain ⟨h1, _, h3⟩ := session_asks hS h hc hm ho hs p p q
  have e := asks_webassembly (lz := lz) hS h hx hN hc hn ho he hf hP hargs hst hodd p q
  exact ⟨fun k => e.mp (h1 k), fun r hr hf => (h3 r hr hf).trans e⟩

end Verif.Props
