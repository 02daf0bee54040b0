import Verif.Spec.UntouchedMore
import Verif.Props.Untouched
import Verif.Props.Show
import Verif.Props.NaNFree
import Verif.Props.Moved
/-
C62, C72, C76 for programs with any instructions, stopped only when tables and data segments are as loaded.
-/
namespace Verif.Props
open Verif.Model Verif.Spec Verif.Lemmas

/-- **C72** (`result_line_partial`) for programs with any instructions: a process, or a session of processes that checkpoint — with tables and
data segments as loaded — and restore, ends with a line `Result: …` telling the number `v` exactly if WebAssembly says that the last
result of the call is `v`. -/
theorem clean_result_line {S : Wasi} (hS : WasiKeepsSize S) {T : FloatText} {lz : Lz} {A : SMod} {H : FloatHost}
    (h : A.WellFormed S H) (hx : MaxPages A) (hN : A.Named H) {P : Prog} (hc : (A.source H).compile A.globalTypes = some P) (hm : Small (A.source H))
    (hn : (A.exports.map (·.1)).Nodup) {o : Options} (ho : o.restore = none) {f : Nat}
    (he : (o.invoke, .func f) ∈ A.exports) {t : FuncType} {ls : List (Nat × Cls)} {b : WSeq}
    (hf : (A.source H).funcs[f]? = some (.wasm t ls b)) {args : List Val} (hP : parseParams T o.params = .ok args)
    (hargs : args.map (·.cls) = t.params) {world : S.W} {st : Store} (hst : InitialStore A st)
    (hodd : ¬ Call S (A.source H) ((A.source H).info A.globalTypes) (.wasm t ls b) args st world (.odd .deviates))
    {r : Res (Left S)} (hs : CleanSession T lz H (some A.file) o world r) (R : Ref → List Char) (X : Err → List Char) {v : Val} (hv : IsNumber v) :
    (∃ l text, r = .ok l ∧ l.report.line R X = some (.out, "Result: ".toList ++ text) ∧ Tells text v) ↔
    (∃ vs st' w', Call S (A.source H) ((A.source H).info A.globalTypes) (.wasm t ls b) args st world (.ok vs st' w') ∧ vs.getLast? = some v) := by
  constructor
  · rintro ⟨l, text, rfl, h1, h2⟩
    obtain ⟨w, h3, rfl⟩ := line_result h1
    have := text_of_number hv h2
    subst this
    rcases clean_session_is_webassembly hS h hx hN hc hm hn ho he hf hP hargs hst hodd hs with ⟨vs, st', w', k1, k2⟩ | ⟨c, _, k2⟩ | ⟨_, k2 | ⟨e, _, k2⟩⟩
    · simp only [seen, Res.ok.injEq, Prod.mk.injEq, h3, Report.result.injEq] at k2
      exact ⟨vs, st', w', k1, k2.1.symm⟩
    · simp only [seen, h3, Res.ok.injEq, Prod.mk.injEq, reduceCtorEq, false_and] at k2
    · cases k2
    · simp only [seen, h3, Res.ok.injEq, Prod.mk.injEq, reduceCtorEq, false_and] at k2
  · rintro ⟨vs, st', w', k1, k2⟩
    obtain ⟨fs, L, _, hL, hload, rfl, _, _⟩ := load_ok h hc
    obtain ⟨lv, hl⟩ := small_bounds hc hm
    have hE : L.exportFunc o.invoke = .ok f := (export_resolves hL hn o.invoke f).mpr he
    obtain ⟨m, hM⟩ := new_ok hc hf (args := args) (by rw [← hargs, List.length_map]) L.inst world
    obtain ⟨y, h1, h2⟩ := clean_shows hS hload hl ho hs hE hP hM
    have h3 := ((main_is_webassembly hS h hx hN hc hn he hf hargs false .loop false world hst hodd).1 vs st' w').mpr k1
    have hu : y = .ok (vs, st', w') := by
      have conv : ∀ z, MainShows (S := S) H false loopD false (some A.file) o.invoke args world z →
          Answers (envOf H false (fun _ => false) L.prog L.hasWasi) (loopD (envOf H false (fun _ => false) L.prog L.hasWasi)) false m z := by
        rintro z ⟨n, x, hx, rfl⟩
        refine ⟨n, x, ?_, rfl⟩
        unfold mainRun at hx
        simpa only [hload, hE, hM] using hx
      exact answers_unique (fun _ => rfl) (compile_preprocessed hc) .loop (conv _ h1) (conv _ h3)
    subst hu
    obtain ⟨l, rfl, h4⟩ := session_line R X h2 k2
    exact ⟨l, _, rfl, h4, text_tells R hv⟩


/-! ### C76 -/

theorem clean_mixed_is_session {S : Wasi} {T : FloatText} {lz : Lz} {A : SMod} {H : FloatHost} (h : A.WellFormed S H) {P : Prog}
    (hc : (A.source H).compile A.globalTypes = some P) (hn : Neutral A) {o : Options} {world : S.W} {r : Res (Left S)}
    (hs : CleanMixedSession T lz (some A.file) o world r) (H' : FloatHost) : CleanSession T lz H' (some A.file) o world r := by
  induction hs with
  | last H p hp hr => exact .last p ((platform_does_not_show h hc hn H' H p _ _).trans hp) hr
  | move H p hp hl hb hs hlen hcl _ ih => exact .move p ((platform_does_not_show h hc hn H' H p _ _).trans hp) hl hb hs hlen hcl ih

/-- **C76** (`moved_between_machines_partial`) for programs that may write tables and drop data segments, as long as these are as
loaded whenever the program moves on. -/
theorem clean_moved_between_machines {S : Wasi} (hS : WasiKeepsSize S) {T : FloatText} {lz : Lz} {A : SMod} {H : FloatHost}
    (h : A.WellFormed S H) {P : Prog} (hc : (A.source H).compile A.globalTypes = some P) (hm : Small (A.source H)) (hn : Neutral A)
    {o : Options} (ho : o.restore = none) {world : S.W} {r : Res (Left S)} (hs : CleanMixedSession T lz (some A.file) o world r)
    (q : Process) (H' : FloatHost) :
    (∃ fuel r', ({ q.undisturbed with fuel := fuel }).run T lz H' (some A.file) o world = some r' ∧ seen r' = seen r) ∧
    (∀ fuel r', ({ q.undisturbed with fuel := fuel }).run T lz H' (some A.file) o world = some r' → seen r' = seen r) := by
  have k := clean_session_transparent hS h hc hm ho (clean_mixed_is_session h hc hn hs H) q
  simp only [platform_does_not_show h hc hn H' H]
  exact k

theorem clean_nan_free_session {S : Wasi} {T : FloatText} {lz : Lz} {file : WFile} {o : Options} {world : S.W} {r : Res (Left S)}
    (hs : CleanNaNFreeSession T lz file o world r) (H : FloatHost) : CleanSession T lz H file o world r := by
  induction hs with
  | last H₀ p hp hn hr => exact .last p ((nan_free_process hn H).symm.trans hp) hr
  | move H₀ p hp hn hl hb hs hlen hcl _ ih => exact .move p ((nan_free_process hn H).symm.trans hp) hl hb hs hlen hcl ih

/-- **C76** (`moved_without_nan_partial`), likewise -/
theorem clean_moved_without_nan {S : Wasi} (hS : WasiKeepsSize S) {T : FloatText} {lz : Lz} {A : SMod} {H : FloatHost}
    (h : A.WellFormed S H) {P : Prog} (hc : (A.source H).compile A.globalTypes = some P) (hm : Small (A.source H))
    {o : Options} (ho : o.restore = none) {world : S.W} {r : Res (Left S)} (hs : CleanNaNFreeSession T lz (some A.file) o world r)
    (q : Process) :
    (∃ fuel r', ({ q.undisturbed with fuel := fuel }).run T lz H (some A.file) o world = some r' ∧ seen r' = seen r) ∧
    (∀ fuel r', ({ q.undisturbed with fuel := fuel }).run T lz H (some A.file) o world = some r' → seen r' = seen r) :=
  clean_session_transparent hS h hc hm ho (clean_nan_free_session hs H) q

/-! ### C62 -/

/-- a session in which things are left behind looks like one in which nothing is -/
theorem clean_moved_session {S : Wasi} {fresh : S.W → S.W} {R : S.W → S.W → Prop} (u : Unaware S fresh R) {T : FloatText} {lz : Lz} {H : FloatHost}
    {file : WFile} {o : Options} {w' : S.W} {r' : Res (Left S)} (h : CleanMovedSession fresh T lz H file o w' r') :
    ∀ w, R w w' → ∃ r, CleanSession T lz H file o w r ∧ Alike (LikeLeft R) r r' := by
  induction h with
  | @last o world r p h hr =>
    intro w hw
    have ha := command_alike u (T := T) (lz := lz) (H := H) (file := file) p o hw
    rw [h] at ha
    cases h1 : p.run T lz H file o w with
    | none => rw [h1] at ha; exact ha.elim
    | some x =>
      rw [h1] at ha
      refine ⟨x, .last p h1 ?_, ha⟩
      intro l hl
      subst hl
      cases r with
      | ok l' =>
        obtain ⟨_, e, _⟩ := ha
        rw [e]
        exact hr l' rfl
      | _ => exact ha.elim
  | @move o world r p l b i w1 h hl hb hs hlen hcl next ih =>
    intro w hw
    have ha := command_alike u (T := T) (lz := lz) (H := H) (file := file) p o hw
    rw [h] at ha
    cases h1 : p.run T lz H file o w with
    | none => rw [h1] at ha; exact ha.elim
    | some x =>
      rw [h1] at ha
      cases x with
      | ok l0 =>
        obtain ⟨_, e2, e3, e4⟩ := ha
        rw [hs] at e4
        cases hs0 : l0.state with
        | none => rw [hs0] at e4; exact e4.elim
        | some q =>
          obtain ⟨i0, w0⟩ := q
          rw [hs0] at e4
          obtain ⟨hi, hR⟩ := e4
          obtain ⟨r0, k1, k2⟩ := ih w0 (u.fresh _ _ hR)
          exact ⟨r0, .move p h1 (e2.trans hl) (e3.trans hb) hs0 hlen (by rw [hi]; exact hcl) k1, k2⟩
      | _ => exact ha.elim

/-- **C62** (`moved_session_transparent_partial`) for programs that may write tables and drop data segments, as long as these are as
loaded whenever the program moves on. -/
theorem clean_moved_session_transparent {S : Wasi} (hS : WasiKeepsSize S) {fresh : S.W → S.W} {R : S.W → S.W → Prop} (u : Unaware S fresh R)
    {T : FloatText} {lz : Lz} {A : SMod} {H : FloatHost}
    (h : A.WellFormed S H) {P : Prog} (hc : (A.source H).compile A.globalTypes = some P) (hm : Small (A.source H)) {o : Options}
    (ho : o.restore = none) {world : S.W} (hw : R world world) {r : Res (Left S)} (hs : CleanMovedSession fresh T lz H (some A.file) o world r) (q : Process) :
    (∃ fuel r', ({ q.undisturbed with fuel := fuel }).run T lz H (some A.file) o world = some r' ∧ SeenAlike R (seen r') (seen r)) ∧
    (∀ fuel r', ({ q.undisturbed with fuel := fuel }).run T lz H (some A.file) o world = some r' → SeenAlike R (seen r') (seen r)) := by
  obtain ⟨r0, h0, ha⟩ := clean_moved_session u hs world hw
  obtain ⟨⟨fuel, r', h1, h2⟩, h3⟩ := clean_session_transparent hS h hc hm ho h0 q
  refine ⟨⟨fuel, r', h1, by rw [h2]; exact seen_alike ha⟩, fun fuel r' hr => ?_⟩
  rw [h3 fuel r' hr]
  exact seen_alike ha


end Verif.Props
