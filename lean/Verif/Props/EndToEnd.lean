import Verif.Lemmas.File
import Verif.Props.Module
import Verif.Props.Correct
/-
From the file to the answer: `chiwawa --invoke name file` on a well-formed module shows what WebAssembly says the call of
the exported function shows in the module's initial store.
-/
namespace Verif.Props
open Verif.Spec Verif.Model

/-- the store is determined by the module -/
theorem initialStore_unique {A : SMod} {s t : Store} (hs : InitialStore A s) (ht : InitialStore A t) : s = t := by
  have activeD : ∀ {ds : List ModData} {x y : List (Seg Byte)}, ActiveData A.globals 0 ds x → ActiveData A.globals 0 ds y → x = y := by
    intro ds x y hx
    induction hx generalizing y with
    | nil => intro hy; cases hy; rfl
    | passive hd h ih =>
      intro hy
      cases hy with
      | passive _ h' => exact ih h'
      | other hd' _ _ => rw [hd] at hd'; cases hd'
      | active hd' _ _ => rw [hd] at hd'; cases hd'
    | other hd hj h ih =>
      intro hy
      cases hy with
      | passive hd' _ => rw [hd] at hd'; cases hd'
      | other _ _ h' => exact ih h'
      | active hd' _ _ => rw [hd] at hd'; cases hd'; exact absurd rfl hj
    | active hd he h ih =>
      intro hy
      cases hy with
      | passive hd' _ => rw [hd] at hd'; cases hd'
      | other hd' hj _ => rw [hd] at hd'; cases hd'; exact absurd rfl hj
      | active hd' he' h' =>
        rw [hd] at hd'; cases hd'
        have := evals_unique he he'
        injection this with _ hh
        rw [hh, ih h']
  have activeE : ∀ {k : Nat} {ds : List ModElem} {x y : List (Seg Ref)}, ActiveElems A.globals k ds x → ActiveElems A.globals k ds y →
      x = y := by
    intro k ds x y hx
    induction hx generalizing y with
    | nil => intro hy; cases hy; rfl
    | passive hd h ih =>
      intro hy
      cases hy with
      | passive _ h' => exact ih h'
      | other hd' _ _ => rw [hd] at hd'; cases hd'
      | active hd' _ _ _ => rw [hd] at hd'; cases hd'
    | other hd hj h ih =>
      intro hy
      cases hy with
      | passive hd' _ => rw [hd] at hd'; cases hd'
      | other _ _ h' => exact ih h'
      | active hd' _ _ _ => rw [hd] at hd'; cases hd'; exact absurd rfl hj
    | active hd hf he h ih =>
      intro hy
      cases hy with
      | passive hd' _ => rw [hd] at hd'; cases hd'
      | other hd' hj _ => rw [hd] at hd'; cases hd'; exact absurd rfl hj
      | active hd' hf' he' h' =>
        rw [hd] at hd'; cases hd'
        rw [hf] at hf'; cases hf'
        have := evals_unique he he'
        injection this with _ hh
        rw [hh, ih h']
  have same : ∀ {α : Type} {d : α} {segs : List (Seg α)} {x y : List α}, x.length = y.length →
      (∀ (i : Nat) a, x[i]? = some a → Shows d segs i a) → (∀ (i : Nat) a, y[i]? = some a → Shows d segs i a) → x = y := by
    intro α d segs x y hl hx hy
    apply List.ext_getElem hl
    intro i h1 h2
    exact shows_unique (hx i _ (List.getElem?_eq_getElem h1)) (hy i _ (List.getElem?_eq_getElem h2))
  obtain ⟨sm, sg, st, sd⟩ := s
  obtain ⟨tm, tg, tt, td⟩ := t
  have h1 : sm = tm := by
    cases sm with
    | none =>
      cases tm with
      | none => rfl
      | some m => exact absurd (ht.mem.1.mpr (hs.mem.1.mp rfl)) (by simp)
    | some m =>
      cases tm with
      | none => exact absurd (hs.mem.1.mpr (ht.mem.1.mp rfl)) (by simp)
      | some m' =>
        obtain ⟨l, segs, a1, a2, a3, a4, a5⟩ := hs.mem.2 m rfl
        obtain ⟨l', segs', b1, b2, b3, b4, b5⟩ := ht.mem.2 m' rfl
        rw [a1] at b1; cases b1
        have := activeD a4 b4; subst this
        obtain ⟨md, mm⟩ := m
        obtain ⟨md', mm'⟩ := m'
        simp only at a2 a3 a5 b2 b3 b5
        rw [a3, b3, same (a2.trans b2.symm) a5 b5]
  have h2 : sg = tg := by
    have hl : sg.length = tg.length := hs.globals.1.trans ht.globals.1.symm
    apply List.ext_getElem hl
    intro i i1 i2
    obtain ⟨c, e, a1, a2⟩ := hs.globals.2 i _ (List.getElem?_eq_getElem i1)
    obtain ⟨c', e', b1, b2⟩ := ht.globals.2 i _ (List.getElem?_eq_getElem i2)
    rw [a1] at b1
    injection b1 with b1
    injection b1 with b1 b3
    injection b3 with b3 b4
    subst b4
    have hv := evals_unique a2 b2
    generalize sg[i] = g at *
    generalize tg[i] = g' at *
    obtain ⟨gm, gv⟩ := g
    obtain ⟨gm', gv'⟩ := g'
    simp only at b1 hv
    rw [b1, hv]
  have h3 : st = tt := by
    have hl : st.length = tt.length := hs.tables.1.trans ht.tables.1.symm
    apply List.ext_getElem hl
    intro i i1 i2
    have hi : i < A.tables.length := by rw [← hs.tables.1]; exact i1
    obtain ⟨x, segs, a1, a2, a3, a4⟩ := hs.tables.2 i _ (List.getElem?_eq_getElem hi)
    obtain ⟨y, segs', b1, b2, b3, b4⟩ := ht.tables.2 i _ (List.getElem?_eq_getElem hi)
    have := activeE a3 b3; subst this
    have e := same (a2.trans b2.symm) a4 b4
    have a1' : st[i] = x := by rw [List.getElem?_eq_getElem i1] at a1; exact Option.some.inj a1
    have b1' : tt[i] = y := by rw [List.getElem?_eq_getElem i2] at b1; exact Option.some.inj b1
    rw [a1', b1', e]
  have h4 : sd = td := hs.datas.trans ht.datas.symm
  rw [h1, h2, h3, h4]

/-- loading gives the initial store -/
theorem load_store {S : Wasi} {A : SMod} {H : FloatHost} (h : A.WellFormed S H) {fs : List ModFunc} {L : Loaded}
    (hL : instantiate (A.loaded fs) = .ok L) : InitialStore A (storeOf L.inst) := by
  have hg := globals_initialised hL
  obtain ⟨segs, hA, hnone, hm⟩ := data_segments_written hL (by
    intro d hd
    simp only [SMod.loaded, SMod.decls, List.mem_map] at hd
    obtain ⟨x, hx, rfl⟩ := hd
    exact h.dataLen x hx)
  obtain ⟨ht1, _, ht2⟩ := elem_segments_written_partial hL (by
    intro e he
    simp only [SMod.loaded, SMod.decls, List.mem_map] at he
    obtain ⟨x, hx, rfl⟩ := he
    simp)
  refine ⟨⟨?_, ?_⟩, ⟨hg.1, ?_⟩, ⟨by simpa [storeOf, SMod.loaded, SMod.decls] using ht1, ?_⟩, ?_⟩
  · simpa [storeOf, SMod.loaded, SMod.decls] using hnone
  · intro m hm'
    obtain ⟨p, hp, hmax, hsz, _, hsh⟩ := hm m hm'
    simp only [SMod.loaded, SMod.decls, List.getElem?_map, Option.map_eq_some_iff] at hp
    obtain ⟨l, hl, rfl⟩ := hp
    have hlt := (h.mems l (List.mem_of_getElem? hl)).1
    have hpg := h.decls.mems (BitVec.ofNat 32 l.min, l.max.map (BitVec.ofNat 32))
      (by simp only [SMod.decls, List.mem_map]; exact ⟨l, List.mem_of_getElem? hl, rfl⟩)
    refine ⟨l, segs, hl, ?_, hmax, hA, hsh⟩
    rw [hsz hpg, memBytes, BitVec.toNat_ofNat, Nat.mod_eq_of_lt hlt]
  · intro i g hgi
    obtain ⟨m, c, e, h1, h2, h3⟩ := hg.2 i g hgi
    exact ⟨c, e, by rw [h3]; exact h1, h2⟩
  · intro k l hk
    obtain ⟨t, segs, a1, a2, a3, _, a5⟩ := ht2 k (BitVec.ofNat 32 l.min) (by simp [SMod.loaded, SMod.decls, hk])
    have hlt := (h.tables l (List.mem_of_getElem? hk)).1
    exact ⟨t, segs, a1, by rw [a2, BitVec.toNat_ofNat, Nat.mod_eq_of_lt hlt], a3, a5⟩
  · obtain ⟨_, _, _, _, _, _, _, _, _, _, _, _, _, _, hd, _⟩ := (instantiate_parts hL).parts
    simp only [storeOf, hd, SMod.loaded, SMod.decls, List.map_map]
    rfl

/-- a well-formed module has an initial store, if the preprocessor accepts its functions -/
theorem initialStore_exists {S : Wasi} {A : SMod} {H : FloatHost} (h : A.WellFormed S H) {P : Prog}
    (hc : (A.source H).compile A.globalTypes = some P) : ∃ st, InitialStore A st := by
  obtain ⟨fs, L, _, hL, _⟩ := load_ok h hc
  exact ⟨_, load_store h hL⟩

/-- what the interpreter is built with: the host's floats, whether the platform has atomics (which selects how the trigger is
polled), the schedule of triggers -/
def envOf (H : FloatHost) (atomics : Bool) (trig : Nat → Bool) (P : Prog) (w : Bool) : Env :=
  { H := H, P := P, atomics := atomics, hasWasi := w, trig := trig }

/-- the two dispatchers the interpreter can be built with -/
inductive Build : (Env → Dispatcher) → Prop
  | loop : Build loopD
  | tco : Build tcoD

theorem Build.isD {D : Env → Dispatcher} (h : Build D) (E : Env) : IsD E (D E) := by
  cases h
  · exact .loop
  · exact .tco

/-- running the command shows `o` -/
def MainShows {S : Wasi} (H : FloatHost) (atomics : Bool) (D : Env → Dispatcher) (enable : Bool) (file : WFile) (name : String)
    (args : List Val) (world : S.W) (o : Res (List Val × Store × S.W)) : Prop :=
  ∃ n r, mainRun (S := S) (envOf H atomics fun _ => false) D enable n file name args world = some r ∧ shown r = o

/-- **C46** (for well-formed modules in the faithfully translated part of WebAssembly whose functions the preprocessor
accepts): with no trigger raised, running the command on the module's file and the name of an exported function shows exactly
what WebAssembly says the call shows, started in the module's initial store — except that an indirect call of a host
function fails.  Missing from the full claim: the start function (`start_ignored_violated`), the parts of WebAssembly
outside `Accepted`, and dropping active data segments. -/
theorem main_correct_partial {S : Wasi} {A : SMod} {H : FloatHost} (h : A.WellFormed S H) {P : Prog}
    (hc : (A.source H).compile A.globalTypes = some P) (hn : (A.exports.map (·.1)).Nodup) {name : String} {f : Nat}
    (he : (name, .func f) ∈ A.exports) {t : FuncType} {ls : List (Nat × Cls)} {b : WSeq}
    (hf : (A.source H).funcs[f]? = some (.wasm t ls b)) {args : List Val} (hargs : args.map (·.cls) = t.params)
    (atomics : Bool) {D : Env → Dispatcher} (hD : Build D) (enable : Bool) (world : S.W) {st : Store} (hst : InitialStore A st) :
    (∀ o, Gives S (A.source H) ((A.source H).info A.globalTypes) (.wasm t ls b) args st world o →
      MainShows H atomics D enable (some A.file) name args world o) ∧
    (¬ HitsHost S (A.source H) ((A.source H).info A.globalTypes) (.wasm t ls b) args st world →
      ∀ o, MainShows H atomics D enable (some A.file) name args world o →
        Gives S (A.source H) ((A.source H).info A.globalTypes) (.wasm t ls b) args st world o) ∧
    (HitsHost S (A.source H) ((A.source H).info A.globalTypes) (.wasm t ls b) args st world →
      MainShows (S := S) H atomics D enable (some A.file) name args world (.trap .executionFailed)) := by
  obtain ⟨fs, L, hp, hL, hload, hprog, hw, _⟩ := load_ok h hc
  have hs := initialStore_unique hst (load_store h hL)
  subst hs
  have hex : L.exportFunc name = .ok f := (export_resolves hL hn name f).mpr he
  have hstart : Start S (envOf H atomics (fun _ => false) L.prog L.hasWasi) (A.source H) A.globalTypes L.inst f t ls b args := by
    refine ⟨rfl, ?_, h.accepted, ?_, hf, hargs, ?_⟩
    · rw [hc, ← hprog]; rfl
    · intro t' id hm
      show L.hasWasi = true
      rw [hw]
      simp only [SMod.source, List.mem_append, List.mem_map, reduceCtorEq, and_false, exists_false, or_false] at hm
      obtain ⟨i, hi, _⟩ := hm
      cases hA : A.imports with
      | nil => rw [hA] at hi; cases hi
      | cons => rfl
    · obtain ⟨hgl, hgv⟩ := globals_initialised hL
      have hgl' : L.inst.globals.length = A.globals.length := hgl
      apply List.ext_getElem
      · simp [SMod.globalTypes, hgl']
      · intro i i1 i2
        simp only [List.length_map] at i1
        obtain ⟨m, c, e, a1, a2, _⟩ := hgv i _ (List.getElem?_eq_getElem i1)
        have a1' : A.globals[i]? = some (m, c, e) := a1
        have := h.globals i m c e a1' _ a2
        simp only [List.getElem_map, this, SMod.globalTypes]
        rcases List.getElem?_eq_some_iff.mp a1' with ⟨_, hh⟩
        rw [hh]
  obtain ⟨m, hm, c1, c2, c3⟩ := program_correct_partial hstart (fun _ => rfl) (hD.isD _) enable world
  have hrun : ∀ n, mainRun (S := S) (envOf H atomics fun _ => false) D enable n (some A.file) name args world =
      m.run (envOf H atomics (fun _ => false) L.prog L.hasWasi) (D (envOf H atomics (fun _ => false) L.prog L.hasWasi)) enable n := by
    intro n
    unfold mainRun
    rw [hload]
    simp only [hex]
    rw [show Machine.new L.prog L.inst world f args = .ok m from hm]
  have hiff : ∀ o, MainShows H atomics D enable (some A.file) name args world o ↔
      Answers (envOf H atomics (fun _ => false) L.prog L.hasWasi) (D (envOf H atomics (fun _ => false) L.prog L.hasWasi)) enable m o := by
    intro o
    constructor
    · rintro ⟨n, r, h1, h2⟩
      rw [hrun] at h1
      exact ⟨n, r, h1, h2⟩
    · rintro ⟨n, r, h1, h2⟩
      exact ⟨n, r, by rw [hrun]; exact h1, h2⟩
  exact ⟨fun o ho => (hiff o).mpr (c1 o ho), fun hh o ho => c2 hh o ((hiff o).mp ho), fun hh => (hiff _).mpr (c3 hh)⟩

end Verif.Props
