import Verif.Props.SessionEx
/-
C55: what the command reports.
-/
namespace Verif.Props
open Verif.Model Verif.Spec Verif.Lemmas

theorem process_status {S : Wasi} {lz : Lz} {E : Env} {D : Dispatcher} {en : Bool} {fuel : Nat} {old : Option (List Byte)} {io : Io}
    {m : Machine S} {l : Left S} (h : m.process lz E D en fuel old io = some (.ok l)) :
    (∃ c, l.report = .exited c ∧ l.status = c.toNat) ∨
    (l.status = 0 ∧ (∀ c, l.report ≠ .exited c) ∧ l.report ≠ .noFunction ∧ ∀ e, l.report ≠ .restoreFailed e) := by
  unfold Machine.process at h
  split at h
  · cases h
  · cases h; exact .inr ⟨rfl, nofun, nofun, nofun⟩
  · split at h
    · cases h; exact .inr ⟨rfl, nofun, nofun, nofun⟩
    · cases h; exact .inr ⟨rfl, nofun, nofun, nofun⟩
    · cases h
    · cases h
  · cases h
    unfold Left.failed
    split
    · exact .inl ⟨_, rfl, rfl⟩
    · exact .inr ⟨rfl, nofun, nofun, nofun⟩
  · cases h
  · cases h

/-- A process that ends on its own exits with the guest's code exactly if the guest asked for it (`proc_exit`), with status 1
exactly if the function was not found or the checkpoint not restored, and otherwise with status 0 — also if the execution failed
(`failure_exits_zero_violated`). -/
theorem exit_status_partial {S : Wasi} {T : FloatText} {lz : Lz} {H : FloatHost} {file : WFile} {o : Options} {world : S.W} {p : Process}
    {l : Left S} (h : p.run T lz H file o world = some (.ok l)) :
    (∃ c, l.report = .exited c ∧ l.status = c.toNat) ∨
    (l.status = 1 ∧ (l.report = .noFunction ∨ ∃ e, l.report = .restoreFailed e)) ∨
    (l.status = 0 ∧ (∀ c, l.report ≠ .exited c) ∧ l.report ≠ .noFunction ∧ ∀ e, l.report ≠ .restoreFailed e) := by
  have key : (∃ c, l.report = .exited c ∧ l.status = c.toNat) ∨
      (l.status = 0 ∧ (∀ c, l.report ≠ .exited c) ∧ l.report ≠ .noFunction ∧ ∀ e, l.report ≠ .restoreFailed e) →
      (∃ c, l.report = .exited c ∧ l.status = c.toNat) ∨
      (l.status = 1 ∧ (l.report = .noFunction ∨ ∃ e, l.report = .restoreFailed e)) ∨
      (l.status = 0 ∧ (∀ c, l.report ≠ .exited c) ∧ l.report ≠ .noFunction ∧ ∀ e, l.report ≠ .restoreFailed e) := by
    rintro (h | h)
    · exact .inl h
    · exact .inr (.inr h)
  unfold Process.run command at h
  split at h
  · split at h
    · split at h
      · exact key (process_status h)
      · cases h; exact .inr (.inl ⟨rfl, .inr ⟨_, rfl⟩⟩)
      · cases h
      · cases h
    · split at h
      · split at h
        · split at h
          · exact key (process_status h)
          · cases h; exact .inr (.inr ⟨rfl, nofun, nofun, nofun⟩)
          · cases h
          · cases h
        · cases h
      · cases h; exact .inr (.inl ⟨rfl, .inl rfl⟩)
      · cases h
      · cases h
  · cases h

/-- The command reports a missing export, and nothing else happens: the checkpoint file stays, no function is run. -/
theorem missing_export_reported {S : Wasi} {T : FloatText} {lz : Lz} {A : SMod} {H : FloatHost} (h : A.WellFormed S H) {P : Prog}
    (hc : (A.source H).compile A.globalTypes = some P) {o : Options} (ho : o.restore = none) {world : S.W}
    (hn : (A.exports.map (·.1)).Nodup) (hx : ∀ f, (o.invoke, .func f) ∉ A.exports) (p : Process) :
    p.run (S := S) T lz H (some A.file) o world = some (.ok ⟨1, .noFunction, p.old, none⟩) := by
  obtain ⟨fs, L, _, hL, hload, rfl, _, _⟩ := load_ok h hc
  have hE : ∃ e, L.exportFunc o.invoke = .trap e := by
    cases hE : L.exportFunc o.invoke with
    | ok f => exact absurd ((export_resolves hL hn o.invoke f).mp hE) (hx f)
    | trap e => exact ⟨e, rfl⟩
    | panic => exact absurd hE (by unfold Loaded.exportFunc; (repeat' split) <;> simp)
    | ub => exact absurd hE (by unfold Loaded.exportFunc; (repeat' split) <;> simp)
  obtain ⟨e, hE⟩ := hE
  simp only [Process.run, command, hload, ho, hE]

/-- What an undisturbed process reports is what happened: the last result (if there is one) if the function returned, the error
if it failed. -/
theorem report_tells_partial {S : Wasi} {T : FloatText} {lz : Lz} {A : SMod} {H : FloatHost} (h : A.WellFormed S H) {P : Prog}
    (hc : (A.source H).compile A.globalTypes = some P) (hn : (A.exports.map (·.1)).Nodup) {o : Options} (ho : o.restore = none) {f : Nat}
    (he : (o.invoke, .func f) ∈ A.exports) {t : FuncType} {ls : List (Nat × Cls)} {b : WSeq}
    (hf : (A.source H).funcs[f]? = some (.wasm t ls b)) {args : List Val} (hP : parseParams T o.params = .ok args)
    (hargs : args.length = t.params.length) (world : S.W) (p : Process) (x : Res (Report × Option (Store × S.W))) :
    (∃ fuel r, ({ p.undisturbed with fuel := fuel }).run (S := S) T lz H (some A.file) o world = some r ∧ seen r = x) ↔
    ∃ v, MainShows (S := S) H p.atomics p.D p.cr (some A.file) o.invoke args world v ∧ x = seenOf v := by
  obtain ⟨fs, L, _, hL, hload, rfl, _, _⟩ := load_ok h hc
  have hE : L.exportFunc o.invoke = .ok f := (export_resolves hL hn o.invoke f).mpr he
  obtain ⟨m, hM⟩ := new_ok hc hf hargs L.inst world
  have e : ∀ x : Res (End S), seenRun (obsE x) = seenOf (shown x) := by
    intro x
    rw [← strip_obs x]
    cases obsE x <;> rfl
  have hmr : ∀ n, mainRun (S := S) (envOf H p.atomics never) p.D p.cr n (some A.file) o.invoke args world =
      m.run (envOf H p.atomics never L.prog L.hasWasi) (p.D (envOf H p.atomics never L.prog L.hasWasi)) p.cr n := by
    intro n
    unfold mainRun
    simp only [hload, hE, hM]
  have hpr : ∀ fuel, ({ p.undisturbed with fuel := fuel } : Process).run (S := S) T lz H (some A.file) o world =
      m.process lz (envOf H p.atomics never L.prog L.hasWasi) (p.D (envOf H p.atomics never L.prog L.hasWasi)) p.cr fuel p.old p.io := by
    intro fuel
    simp only [Process.run, command, hload, ho, Process.undisturbed, hE, hP, hM]
  have q := quietD (E := envOf H p.atomics never L.prog L.hasWasi) (p.built.isD _)
  constructor
  · rintro ⟨fuel, r, h1, rfl⟩
    rw [hpr] at h1
    obtain ⟨v, ⟨n, y, hy, rfl⟩, h3⟩ := process_quiet q h1
    exact ⟨shown y, ⟨n, y, by rw [show (fun _ => false) = never from rfl, hmr]; exact hy, rfl⟩, by rw [h3, e]⟩
  · rintro ⟨v, ⟨n, y, hy, rfl⟩, rfl⟩
    rw [show (fun _ => false) = never from rfl, hmr] at hy
    obtain ⟨fuel, r, h1, h2⟩ := process_runs (lz := lz) (old := p.old) (io := p.io) q ⟨n, y, hy, rfl⟩
    exact ⟨fuel, r, by rw [hpr]; exact h1, by rw [h2, e]⟩

/-- A call with the wrong number of arguments is reported as such and not made (with status 0, see
`missing_argument_exits_zero_violated`). -/
theorem argument_count_reported {S : Wasi} {T : FloatText} {lz : Lz} {A : SMod} {H : FloatHost} (h : A.WellFormed S H) {P : Prog}
    (hc : (A.source H).compile A.globalTypes = some P) (hn : (A.exports.map (·.1)).Nodup) {o : Options} (ho : o.restore = none) {f : Nat}
    (he : (o.invoke, .func f) ∈ A.exports) {t : FuncType} {ls : List (Nat × Cls)} {b : WSeq}
    (hf : (A.source H).funcs[f]? = some (.wasm t ls b)) {args : List Val} (hP : parseParams T o.params = .ok args)
    (hargs : args.length ≠ t.params.length) (world : S.W) (p : Process) :
    p.run (S := S) T lz H (some A.file) o world = some (.ok ⟨0, .initFailed .invalidParameterCount, p.old, none⟩) := by
  obtain ⟨fs, L, _, hL, hload, rfl, _, _⟩ := load_ok h hc
  have hE : L.exportFunc o.invoke = .ok f := (export_resolves hL hn o.invoke f).mpr he
  have hM : Machine.new (S := S) L.prog L.inst world f args = .trap .invalidParameterCount := by
    simp only [SProg.compile, Option.map_eq_some_iff] at hc
    obtain ⟨Gs, hG, hp⟩ := hc
    rw [← hp]
    have h1 := (compileAll_get hG f).1
    rw [hf] at h1
    simp only [Option.bind_some, compileFunc] at h1
    cases hcf : compileFn (fnCtx ((A.source H).info A.globalTypes) t ls) b.body with
    | none =>
      have h2 := (compileAll_get hG f).2
      simp_all
    | some c =>
      rw [hcf] at h1
      simp only [Option.map_some] at h1
      simp only [Machine.new, h1, if_pos hargs]
  simp only [Process.run, command, hload, ho, hE, hP, hM]

/-- Finding: an exported host function cannot be invoked.  WebAssembly allows a module to export what it imports; invoking such
an export is reported as a failed initialisation, whatever the host function would do. -/
theorem exported_import_refused_violated {S : Wasi} {T : FloatText} {lz : Lz} {A : SMod} {H : FloatHost} (h : A.WellFormed S H) {P : Prog}
    (hc : (A.source H).compile A.globalTypes = some P) (hn : (A.exports.map (·.1)).Nodup) {o : Options} (ho : o.restore = none) {f : Nat}
    (he : (o.invoke, .func f) ∈ A.exports) {t : FuncType} {id : Nat} (hf : (A.source H).funcs[f]? = some (.wasi t id)) {args : List Val}
    (hP : parseParams T o.params = .ok args) (world : S.W) (p : Process) :
    p.run (S := S) T lz H (some A.file) o world = some (.ok ⟨0, .initFailed .executionFailed, p.old, none⟩) := by
  obtain ⟨fs, L, _, hL, hload, rfl, _, _⟩ := load_ok h hc
  have hE : L.exportFunc o.invoke = .ok f := (export_resolves hL hn o.invoke f).mpr he
  have hM : Machine.new (S := S) L.prog L.inst world f args = .trap .executionFailed := by
    simp only [SProg.compile, Option.map_eq_some_iff] at hc
    obtain ⟨Gs, hG, hp⟩ := hc
    rw [← hp]
    have h1 := (compileAll_get hG f).1
    rw [hf] at h1
    simp only [Option.bind_some, compileFunc] at h1
    simp only [Machine.new, h1]
  simp only [Process.run, command, hload, ho, hE, hP, hM]

/-- Arguments that cannot be read abort the process. -/
theorem unreadable_argument_aborts {S : Wasi} {T : FloatText} {lz : Lz} {A : SMod} {H : FloatHost} (h : A.WellFormed S H) {P : Prog}
    (hc : (A.source H).compile A.globalTypes = some P) (hn : (A.exports.map (·.1)).Nodup) {o : Options} (ho : o.restore = none) {f : Nat}
    (he : (o.invoke, .func f) ∈ A.exports) (hP : ∀ args, parseParams T o.params ≠ .ok args) (world : S.W) (p : Process) :
    p.run (S := S) T lz H (some A.file) o world = some .panic := by
  obtain ⟨fs, L, _, hL, hload, rfl, _, _⟩ := load_ok h hc
  have hE : L.exportFunc o.invoke = .ok f := (export_resolves hL hn o.invoke f).mpr he
  simp only [Process.run, command, hload, ho, hE]

/-- The assumptions are met by the module of the session example: it has no export `walk`, … -/
example (p : Process) : p.run (S := SessionEx.wasi) SessionEx.text SessionEx.lz Sample.host (some SessionEx.B.file)
    { SessionEx.opts with invoke := "walk" } (0 : Nat) = some (.ok ⟨1, .noFunction, p.old, none⟩) := by
  obtain ⟨P, hP⟩ := SessionEx.compiles
  exact missing_export_reported SessionEx.wellFormed hP rfl (by decide) (by simp [SessionEx.B]) p

/-- … and `run` called with 3 reports 11. -/
example (p : Process) : ∃ st v, MainShows (S := SessionEx.wasi) Sample.host p.atomics p.D p.cr (some SessionEx.B.file) "run" [vi 3] (0 : Nat) v ∧
    seenOf v = .ok (.result (some (vi 11)), some (st, (3 : Nat))) := by
  obtain ⟨P, hP⟩ := SessionEx.compiles
  obtain ⟨r, st, h1, h2⟩ := SessionEx.session
  obtain ⟨fuel, r', h3, h4⟩ := (session_transparent_partial SessionEx.keeps SessionEx.wellFormed hP SessionEx.movable rfl h1 p).1
  obtain ⟨v, h5, h6⟩ := (report_tells_partial SessionEx.wellFormed hP (by decide) (o := SessionEx.opts) rfl (f := 1) (by simp [SessionEx.B, SessionEx.opts])
    (by rw [SessionEx.funcs]; rfl) (args := [vi 3]) (by decide +kernel) rfl (0 : Nat) p (.ok (.result (some (vi 11)), some (st, (3 : Nat))))).mp
    ⟨fuel, r', h3, h4.trans h2⟩
  exact ⟨st, v, h5, h6.symm⟩

/-- `run` takes one argument -/
example (p : Process) : p.run (S := SessionEx.wasi) SessionEx.text SessionEx.lz Sample.host (some SessionEx.B.file)
    { SessionEx.opts with params := [] } (0 : Nat) = some (.ok ⟨0, .initFailed .invalidParameterCount, p.old, none⟩) := by
  obtain ⟨P, hP⟩ := SessionEx.compiles
  exact argument_count_reported SessionEx.wellFormed hP (by decide) rfl (f := 1) (by simp [SessionEx.B, SessionEx.opts])
    (by rw [SessionEx.funcs]; rfl) (args := []) rfl (by decide) (0 : Nat) p

/-- an argument without parentheses -/
example (p : Process) : p.run (S := SessionEx.wasi) SessionEx.text SessionEx.lz Sample.host (some SessionEx.B.file)
    { SessionEx.opts with params := ["I32".toList] } (0 : Nat) = some .panic := by
  obtain ⟨P, hP⟩ := SessionEx.compiles
  have : parseParams SessionEx.text ["I32".toList] = .panic := by decide +kernel
  exact unreadable_argument_aborts SessionEx.wellFormed hP (by decide) rfl (f := 1) (by simp [SessionEx.B, SessionEx.opts])
    (fun args h => by rw [this] at h; cases h) (0 : Nat) p

/-- the module of the session example, exporting what it imports -/
def SessionEx.B2 : SMod := { SessionEx.B with exports := [("yield", .func 0)] }

theorem SessionEx.wellFormed2 : SessionEx.B2.WellFormed SessionEx.wasi Sample.host where
  imports := SessionEx.wellFormed.imports
  tables := SessionEx.wellFormed.tables
  mems := SessionEx.wellFormed.mems
  decls :=
    { imports := SessionEx.wellFormed.decls.imports
      types := SessionEx.wellFormed.decls.types
      mems := SessionEx.wellFormed.decls.mems
      globals := SessionEx.wellFormed.decls.globals
      elems := SessionEx.wellFormed.decls.elems
      datas := SessionEx.wellFormed.decls.datas
      exports := by
        intro e he
        simp only [SMod.decls, SessionEx.B2, List.mem_cons, List.not_mem_nil, or_false] at he
        subst he; decide
      start := SessionEx.wellFormed.decls.start }
  globals := SessionEx.wellFormed.globals
  exports := by
    intro e he
    simp only [SessionEx.B2, List.mem_cons, List.not_mem_nil, or_false] at he
    subst he; decide
  dataLen := SessionEx.wellFormed.dataLen
  accepted := SessionEx.wellFormed.accepted

example (p : Process) : p.run (S := SessionEx.wasi) SessionEx.text SessionEx.lz Sample.host (some SessionEx.B2.file)
    { SessionEx.opts with invoke := "yield", params := [] } (0 : Nat) = some (.ok ⟨0, .initFailed .executionFailed, p.old, none⟩) := by
  obtain ⟨P, hP⟩ := SessionEx.compiles
  exact exported_import_refused_violated SessionEx.wellFormed2 hP (by decide) rfl (f := 0) (by simp [SessionEx.B2])
    (by show (SessionEx.B.source Sample.host).funcs[0]? = _; rw [SessionEx.funcs]; rfl) (args := []) rfl (0 : Nat) p

/-! ### What is lost -/

namespace ReportEx

/-- four functions: the first fails (NaN as an integer), two return two values each; the last ignores its argument -/
def C : SMod where
  types := [⟨[], []⟩, ⟨[], [.i32, .i32]⟩, ⟨[.i32], [.i32]⟩]
  imports := []
  funcs := [⟨0, [], .op (.const .f32 (0x7fc00000 : BitVec 32)) <| .op (.un (.trunc .i32_f32_s)) <| .op .drop .done⟩, ⟨1, [], .op (ci 1) <| .op (ci 2) .done⟩, ⟨1, [], .op (ci 3) <| .op (ci 2) .done⟩,
    ⟨2, [], .op (ci 9) .done⟩]
  tables := []
  mems := []
  globals := []
  exports := [("fail", .func 0), ("a", .func 1), ("b", .func 2), ("c", .func 3)]
  start := none
  elems := []
  datas := []

/-- options -/
def opts (name : String) (ps : List (List Char)) : Options := ⟨"c.wasm".toList, none, name, ps, none, false⟩

/-- status and report of a run -/
def told (name : String) (ps : List (List Char)) : Option (Nat × Report) :=
  match SessionEx.calm.run (S := SessionEx.wasi) SessionEx.text SessionEx.lz Sample.host (some C.file) (opts name ps) (0 : Nat) with
  | some (.ok l) => some (l.status, l.report)
  | _ => none

/-- A failing execution exits with status 0, like a successful one. -/
theorem failure_exits_zero_violated : ∃ e, told "fail" [] = some (0, .runFailed e) := ⟨.invalidConversionToInt, by decide +kernel⟩

/-- Functions that return different values are reported alike: only the last result is printed. -/
theorem results_dropped_violated : told "a" [] = told "b" [] ∧ told "a" [] = some (0, .result (some (vi 2))) := by decide +kernel

/-- A call with the wrong number of arguments is not made, and the command exits with status 0. -/
theorem missing_argument_exits_zero_violated : told "c" [] = some (0, .initFailed .invalidParameterCount) := by decide +kernel

/-- An argument of the wrong type is accepted. -/
theorem argument_types_unchecked_violated : told "c" ["I64(7)".toList] = some (0, .result (some (vi 9))) := by decide +kernel

end ReportEx

end Verif.Props
