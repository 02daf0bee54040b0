import Verif.Props.Session
/-
C54: sessions over module files.
-/
namespace Verif.Props
open Verif.Model Verif.Spec Verif.Lemmas

/-! ### A loaded module is within the limits -/

theorem compile_code {Q : SProg} {globals : List Cls} {P : Prog} (h : Q.compile globals = some P) {f : Nat} {t : FuncType} {code : Code}
    (hf : P.funcs[f]? = some (.runtime t code)) :
    ∃ ls b, SFunc.wasm t ls b ∈ Q.funcs ∧ compileFn (fnCtx (Q.info globals) t ls) b.body = some code := by
  simp only [SProg.compile, Option.map_eq_some_iff] at h
  obtain ⟨Gs, hG, rfl⟩ := h
  have h1 := (compileAll_get hG f).1
  simp only at hf
  rw [hf] at h1
  cases hF : Q.funcs[f]? with
  | none => rw [hF] at h1; cases h1
  | some F =>
    rw [hF] at h1
    simp only [Option.bind_some] at h1
    cases F with
    | wasi t' id => simp [compileFunc] at h1
    | wasm t' ls b =>
      simp only [compileFunc] at h1
      cases hc : compileFn (fnCtx (Q.info globals) t' ls) b.body with
      | none => rw [hc] at h1; cases h1
      | some c =>
        rw [hc] at h1
        simp only [Option.map_some, Option.some.injEq, FuncInst.runtime.injEq] at h1
        obtain ⟨rfl, rfl⟩ := h1
        exact ⟨ls, b, List.mem_of_getElem? hF, hc⟩

theorem compile_count {Q : SProg} {globals : List Cls} {P : Prog} (h : Q.compile globals = some P) : P.funcs.length ≤ Q.funcs.length := by
  simp only [SProg.compile, Option.map_eq_some_iff] at h
  obtain ⟨Gs, hG, rfl⟩ := h
  refine Nat.le_of_not_lt fun hl => ?_
  have h1 := (compileAll_get hG Q.funcs.length).1
  rw [List.getElem?_eq_none (Nat.le_refl _)] at h1
  have hl' : Q.funcs.length < Gs.length := hl
  rw [List.getElem?_eq_getElem hl'] at h1
  cases h1

theorem body_or {P : Prog} (f : Nat) : P.body f = [] ∨ ∃ t code, P.funcs[f]? = some (.runtime t code) ∧ P.body f = code.body := by
  unfold Prog.body
  split
  · rename_i t code hf; exact .inr ⟨t, code, hf, rfl⟩
  · exact .inl rfl

theorem limits {Q : SProg} {globals : List Cls} {P : Prog} (h : Q.compile globals = some P) (hm : Movable Q) : ∃ lv, Limits P lv := by
  obtain ⟨lv, hlv⟩ := (compile_preprocessed h).shaped
  refine ⟨lv, hlv, ?_, ?_, ?_, Nat.le_trans (compile_count h) hm.funcs, ?_⟩
  · intro f t code hf
    obtain ⟨ls, b, h1, _⟩ := compile_code h hf
    exact hm.results t ls b h1
  · intro f
    rcases body_or (P := P) f with e | ⟨t, code, hf, e⟩
    · rw [e]; nofun
    · obtain ⟨ls, b, _, h2⟩ := compile_code h hf
      rw [e]; exact (compile_came h2).1
  · intro f
    rcases body_or (P := P) f with e | ⟨t, code, hf, e⟩
    · rw [e]; decide
    · obtain ⟨ls, b, h1, h2⟩ := compile_code h hf
      rw [e]; exact Nat.lt_of_le_of_lt (compile_len h2) (hm.bodies t ls b h1)
  · intro f
    rcases body_or (P := P) f with e | ⟨t, code, hf, e⟩
    · rw [e]; nofun
    · obtain ⟨ls, b, h1, h2⟩ := compile_code h hf
      rw [e]; exact (compile_came h2).2 (hm.saved t ls b h1)

/-! ### An undisturbed process shows one thing -/

theorem runs_unique {S : Wasi} {E : Env} {D : Dispatcher} (q : QuietD E D) {en : Bool} {m : Machine S} {o o' : Res (List Val × Inst × S.W)}
    (h : Runs E D en m o) (h' : Runs E D en m o') : o = o' := by
  obtain ⟨n, r, h, rfl⟩ := h
  obtain ⟨n', r', h', rfl⟩ := h'
  have a := runLoop_mono q.faithful (Nat.le_max_left n n') (Nat.le_max_left n n') h
  have b := runLoop_mono q.faithful (Nat.le_max_right n n') (Nat.le_max_right n n') h'
  rw [a] at b
  cases b; rfl

theorem process_quiet {S : Wasi} {lz : Lz} {E : Env} {D : Dispatcher} (q : QuietD E D) {en : Bool} {fuel : Nat} {old : Option (List Byte)} {io : Io}
    {m : Machine S} {r : Res (Left S)} (h : m.process lz E D en fuel old io = some r) :
    ∃ o, Runs E D en m o ∧ seen r = seenRun o := by
  unfold Machine.process at h
  split at h
  · cases h
  · rename_i hx; cases h; exact ⟨_, ⟨_, _, hx, rfl⟩, rfl⟩
  · rename_i hx; exact absurd hx (quiet_no_ckpt q _ _ _)
  · rename_i hx; cases h; exact ⟨_, ⟨_, _, hx, rfl⟩, seen_failed _ _⟩
  · rename_i hx; cases h; exact ⟨_, ⟨_, _, hx, rfl⟩, rfl⟩
  · rename_i hx; cases h; exact ⟨_, ⟨_, _, hx, rfl⟩, rfl⟩

/-- two undisturbed processes, whatever they were built for, that both end, show the same -/
theorem undisturbed_unique {S : Wasi} {T : FloatText} {lz : Lz} {H : FloatHost} {file : WFile} {L : Loaded}
    (hload : loadFile file = .ok L) {lv : Nat → Nat → Nat} (hl : Limits L.prog lv) {o : Options} (ho : o.restore = none) {world : S.W}
    {p q : Process} {r r' : Res (Left S)} (hp : p.undisturbed.run T lz H file o world = some r)
    (hq : q.undisturbed.run T lz H file o world = some r') : seen r = seen r' := by
  rcases command_starts (T := T) (lz := lz) (H := H) hload ho world with ⟨m, -, hrun⟩ | ⟨x, hx, hrun⟩
  · rw [hrun] at hp hq
    obtain ⟨v, h1, h2⟩ := process_quiet (quietD (E := envOf H p.atomics never L.prog L.hasWasi) (p.built.isD _)) hp
    obtain ⟨v', h3, h4⟩ := process_quiet (quietD (E := envOf H q.atomics never L.prog L.hasWasi) (q.built.isD _)) hq
    have e := runs_unique (quietD (E := envOf H q.atomics never L.prog L.hasWasi) (q.built.isD _))
      (quiet_any (en' := q.cr) hl.inside (p.built.isD _) (q.built.isD (envOf H q.atomics never L.prog L.hasWasi)) h1) h3
    rw [h2, h4, e]
  · obtain ⟨r1, h1, h2⟩ := hrun p.undisturbed
    obtain ⟨r2, h3, h4⟩ := hrun q.undisturbed
    rw [hp] at h1; rw [hq] at h3
    cases h1; cases h3
    rw [h2, h4]

/-- **C54** (for modules that write neither tables nor data segments).  Start the command on a module file, let it be
checkpointed any number of times, at any moments, each time continued by a process — possibly built otherwise, with or
without `--cr` — that restores the file it left.  If that session comes to an end, then a single undisturbed process, however
built, comes to an end too, and shows the same: the same printed result or failure, and, if it ended with values, the same
memory, globals, tables and outside world.  And it can show nothing else.
Missing from the full claim: `table.set`, `table.fill` and `data.drop` (their effects are lost, `table_write_lost_violated`), sessions whose
checkpoint could not be written (the program is ended, `unsaved_violated`), and checkpoint files of 4 GiB or more. -/
theorem session_transparent_partial {S : Wasi} (hS : WasiKeepsSize S) {T : FloatText} {lz : Lz} {A : SMod} {H : FloatHost}
    (h : A.WellFormed S H) {P : Prog} (hc : (A.source H).compile A.globalTypes = some P) (hm : Movable (A.source H)) {o : Options}
    (ho : o.restore = none) {world : S.W} {r : Res (Left S)} (hs : Session T lz H (some A.file) o world r) (q : Process) :
    (∃ fuel r', ({ q.undisturbed with fuel := fuel }).run T lz H (some A.file) o world = some r' ∧ seen r' = seen r) ∧
    (∀ fuel r', ({ q.undisturbed with fuel := fuel }).run T lz H (some A.file) o world = some r' → seen r' = seen r) := by
  obtain ⟨fs, L, _, _, hload, rfl, _, _⟩ := load_ok h hc
  obtain ⟨lv, hl⟩ := limits hc hm
  obtain ⟨fuel, r', h1, h2⟩ := session_any hS hload hl ho hs q
  refine ⟨⟨fuel, r', h1, h2⟩, fun fuel' r'' h3 => ?_⟩
  rw [← h2]
  exact undisturbed_unique (p := { q with fuel := fuel' }) (q := { q with fuel := fuel }) hload hl ho h3 h1

/-! ### … and ends as WebAssembly says -/

/-- what the command shows of an outcome -/
def seenOf {S : Wasi} : Res (List Val × Store × S.W) → Res (Report × Option (Store × S.W))
  | .ok (vs, s, w) => .ok (.result vs.getLast?, some (s, w))
  | .trap e => .ok (failureReport e, none)
  | .panic => .panic
  | .ub => .ub

theorem failureReport_run {e : Err} (h : ∀ c, e ≠ .processExit c) : failureReport e = .runFailed e := by
  cases e <;> first | rfl | exact absurd rfl (h _)

theorem session_shows {S : Wasi} (hS : WasiKeepsSize S) {T : FloatText} {lz : Lz} {H : FloatHost} {file : WFile} {L : Loaded}
    (hload : loadFile file = .ok L) {lv : Nat → Nat → Nat} (hl : Limits L.prog lv) {o : Options} (ho : o.restore = none) {world : S.W}
    {r : Res (Left S)} (h : Session T lz H file o world r) {m : Machine S} {f : Nat} {args : List Val}
    (hE : L.exportFunc o.invoke = .ok f) (hP : parseParams T o.params = .ok args)
    (hM : Machine.new (S := S) L.prog L.inst world f args = .ok m) :
    ∃ v, MainShows (S := S) H false loopD false file o.invoke args world v ∧ seen r = seenOf v := by
  obtain ⟨fuel, r', h1, h2⟩ := session_any hS hload hl ho h ⟨false, never, loopD, .loop, false, none, .fine, 0⟩
  simp only [Process.run, command, hload, ho, Process.undisturbed, hE, hP, hM] at h1
  obtain ⟨v, ⟨n, x, hx, rfl⟩, h3⟩ := process_quiet (quietD (E := envOf H false never L.prog L.hasWasi) .loop) h1
  refine ⟨shown x, ⟨n, x, ?_, rfl⟩, ?_⟩
  · unfold mainRun
    simp only [hload, hE, hM]
    exact hx
  · rw [← h2, h3, ← strip_obs x]
    cases obsE x with
    | ok p => rfl
    | trap e => rfl
    | panic => rfl
    | ub => rfl

theorem new_ok {S : Wasi} {Q : SProg} {globals : List Cls} {P : Prog} (hc : Q.compile globals = some P) {f : Nat} {t : FuncType}
    {ls : List (Nat × Cls)} {b : WSeq} (hf : Q.funcs[f]? = some (.wasm t ls b)) {args : List Val}
    (hargs : args.length = t.params.length) (inst : Inst) (world : S.W) : ∃ m, Machine.new (S := S) P inst world f args = .ok m := by
  simp only [SProg.compile, Option.map_eq_some_iff] at hc
  obtain ⟨Gs, hG, rfl⟩ := hc
  have h1 := (compileAll_get hG f).1
  rw [hf] at h1
  simp only [Option.bind_some, compileFunc] at h1
  cases hcf : compileFn (fnCtx (Q.info globals) t ls) b.body with
  | none =>
    have h2 := (compileAll_get hG f).2
    simp_all
  | some c =>
    rw [hcf] at h1
    simp only [Option.map_some] at h1
    unfold Machine.new
    simp only [h1, hargs, ne_eq, not_true_eq_false, if_false]
    exact ⟨_, rfl⟩

/-- A session ends as the WebAssembly rules say the call ends. -/
theorem session_is_webassembly_partial {S : Wasi} (hS : WasiKeepsSize S) {T : FloatText} {lz : Lz} {A : SMod} {H : FloatHost}
    (h : A.WellFormed S H) (hx : MaxPages A) (hN : A.Named H) {P : Prog} (hc : (A.source H).compile A.globalTypes = some P) (hm : Movable (A.source H))
    (hn : (A.exports.map (·.1)).Nodup) {o : Options} (ho : o.restore = none) {f : Nat}
    (he : (o.invoke, .func f) ∈ A.exports) {t : FuncType} {ls : List (Nat × Cls)} {b : WSeq}
    (hf : (A.source H).funcs[f]? = some (.wasm t ls b)) {args : List Val} (hP : parseParams T o.params = .ok args)
    (hargs : args.map (·.cls) = t.params) {world : S.W} {st : Store} (hst : InitialStore A st)
    (hodd : ¬ Call S (A.source H) ((A.source H).info A.globalTypes) (.wasm t ls b) args st world (.odd .deviates))
    {r : Res (Left S)} (hs : Session T lz H (some A.file) o world r) :
    (∃ vs st' w', Call S (A.source H) ((A.source H).info A.globalTypes) (.wasm t ls b) args st world (.ok vs st' w') ∧
      seen r = .ok (.result vs.getLast?, some (st', w'))) ∨
    (∃ c, (∃ st' w', Call S (A.source H) ((A.source H).info A.globalTypes) (.wasm t ls b) args st world (.exit c st' w')) ∧
      seen r = .ok (.exited c, none)) ∨
    ((∃ st' w', Call S (A.source H) ((A.source H).info A.globalTypes) (.wasm t ls b) args st world (.trap st' w')) ∧
      (seen r = .panic ∨ ∃ e, (∀ c, e ≠ .processExit c) ∧ seen r = .ok (.runFailed e, none))) := by
  obtain ⟨fs, L, _, hL, hload, rfl, _, _⟩ := load_ok h hc
  obtain ⟨lv, hl⟩ := limits hc hm
  have hE : L.exportFunc o.invoke = .ok f := (export_resolves hL hn o.invoke f).mpr he
  obtain ⟨m, hM⟩ := new_ok hc hf (args := args) (by rw [← hargs, List.length_map]) L.inst world
  obtain ⟨v, h1, h2⟩ := session_shows hS hload hl ho hs hE hP hM
  obtain ⟨w1, w4, w2, w3⟩ := main_is_webassembly hS h hx hN hc hn he hf hargs false .loop false world hst hodd
  cases v with
  | ok v =>
    obtain ⟨vs, st', w'⟩ := v
    exact .inl ⟨vs, st', w', (w1 vs st' w').mp h1, h2⟩
  | trap e =>
    by_cases hx : ∃ c, e = .processExit c
    · obtain ⟨c, rfl⟩ := hx
      exact .inr (.inl ⟨c, (w4 c).mp h1, h2⟩)
    · have hx : ∀ c, e ≠ .processExit c := fun c h => hx ⟨c, h⟩
      have h2 : seen r = .ok (failureReport e, none) := h2
      rw [failureReport_run hx] at h2
      exact .inr (.inr ⟨w2.mp ⟨_, h1, .inr ⟨e, rfl, hx⟩⟩, .inr ⟨e, hx, h2⟩⟩)
  | panic => exact .inr (.inr ⟨w2.mp ⟨_, h1, .inl rfl⟩, .inl h2⟩)
  | ub => exact (w3 h1).elim

end Verif.Props
