import Verif.Lemmas.Link
import Verif.Props.Loading
import Verif.Props.Size
/-
C57: linking with import objects.
-/
namespace Verif.Props
open Verif.Model Verif.Spec Verif.Lemmas

/-- With no import objects — what the command passes — this is the instantiation of the other properties. -/
theorem no_import_objects (M : Modul) : instantiateWith (fun _ _ => none) M = instantiate M := by
  have h : ∀ is, linkWith (fun _ _ => none) M.types is = linkImports is := by
    intro is
    induction is with
    | nil => rfl
    | cons i is ih =>
      obtain ⟨m, n, d⟩ := i
      cases d with
      | func ti => rfl
      | wasi w => simp only [linkWith, linkImports, ih]
      | _ => rfl
  unfold instantiateWith
  rw [h]
  rfl

theorem linkFunc_ok {types : List FuncType} {v : Option Extern} {ti : Nat} {F : FuncInst} :
    linkFunc types v ti = .ok F ↔ v = some (.func F) ∧ types[ti]? = some F.type := by
  unfold linkFunc
  rcases v with _ | v
  · simp
  · cases v with
    | func G =>
      simp only [Extern.asFunc]
      cases ht : types[ti]? with
      | none => simp
      | some t =>
        simp only
        split
        · rename_i hG
          constructor
          · intro h; cases h; exact ⟨rfl, by rw [hG]⟩
          · rintro ⟨h, -⟩; cases h; rfl
        · rename_i hG
          constructor
          · intro h; cases h
          · rintro ⟨h, h2⟩; cases h; cases h2; exact absurd rfl hG
    | _ => simp [Extern.asFunc]

/-- **C57** Linking succeeds exactly when every import is supplied: a function import with a function of exactly the declared type
under its two names, a WASI import always with the built-in function; and then the function index space starts with those
functions in the order of the imports. -/
theorem imports_resolved {imps : ImportObjects} {types : List FuncType} : ∀ {is : List (String × String × ImportDesc)} {Fs : List FuncInst},
    linkWith imps types is = .ok Fs ↔
      Fs.length = is.length ∧ ∀ (k : Nat) i F, is[k]? = some i → Fs[k]? = some F → Supplies imps types i F
  | [], Fs => by
    simp only [linkWith, List.length_nil, List.length_eq_zero_iff, List.getElem?_nil]
    constructor
    · intro h; cases h; exact ⟨rfl, by simp⟩
    · rintro ⟨rfl, -⟩; rfl
  | (m, n, d) :: is, Fs => by
    have ih : ∀ {Fs}, _ := @imports_resolved imps types is
    have step : ∀ {P : FuncInst → Prop} {x : Res FuncInst}, (∀ F, x = .ok F ↔ P F) →
        (∀ F, Supplies imps types (m, n, d) F ↔ P F) →
        ((do let F ← x; let Fs ← linkWith imps types is; pure (F :: Fs)) = .ok Fs ↔
          Fs.length = is.length + 1 ∧ ∀ (k : Nat) i F, ((m, n, d) :: is)[k]? = some i → Fs[k]? = some F → Supplies imps types i F) := by
      intro P x hx hs
      constructor
      · intro h
        obtain ⟨F, h1, h⟩ := bind_eq_ok h
        obtain ⟨Gs, h2, h⟩ := bind_eq_ok h
        cases h
        obtain ⟨hl, hg⟩ := ih.mp h2
        refine ⟨by simp [hl], fun k i G hi hG => ?_⟩
        cases k with
        | zero => cases hi; cases hG; exact (hs F).mpr ((hx F).mp h1)
        | succ k => exact hg k i G hi hG
      · rintro ⟨hl, hg⟩
        match Fs with
        | [] => simp at hl
        | F :: Gs =>
          have h1 := (hx F).mpr ((hs F).mp (hg 0 _ F rfl rfl))
          have h2 := ih.mpr ⟨by simpa using hl, fun k i G hi hG => hg (k + 1) i G hi hG⟩
          rw [h1, h2]; rfl
    cases d with
    | func ti => exact step (P := fun F => imps m n = some (.func F) ∧ types[ti]? = some F.type) (fun F => linkFunc_ok) (fun F => Iff.rfl)
    | wasi w =>
      exact step (P := fun F => F = .wasi w.type w.id) (x := .ok (.wasi w.type w.id))
        (fun F => ⟨fun h => by cases h; rfl, fun h => by rw [h]⟩) (fun F => Iff.rfl)
    | _ =>
      simp only [linkWith]
      constructor
      · intro h; cases h
      · rintro ⟨hl, hg⟩
        match Fs with
        | [] => simp at hl
        | F :: Gs => exact absurd (hg 0 _ F rfl rfl) (by simp [Supplies])

/-- **C57** If the imports are functions whose types exist, linking succeeds or ends with the link error — no panic, and no other
function is put in the place of a missing or differently typed one. -/
theorem link_error {imps : ImportObjects} {M : Modul}
    (hk : ∀ i ∈ M.imports, match i.2.2 with | .func ti => ti < M.types.length | .wasi _ => True | _ => False)
    (hno : ∃ i ∈ M.imports, ∀ F, ¬ Supplies imps M.types i F) : instantiateWith imps M = .trap .linkError := by
  suffices h : linkWith imps M.types M.imports = .trap .linkError by
    unfold instantiateWith; rw [h]; rfl
  revert hk hno
  generalize M.imports = is
  intro hk hno
  induction is with
  | nil => obtain ⟨i, hi, _⟩ := hno; simp at hi
  | cons i is ih =>
    obtain ⟨m, n, d⟩ := i
    have hk' : ∀ i ∈ is, match i.2.2 with | .func ti => ti < M.types.length | .wasi _ => True | _ => False :=
      fun i hi => hk i (List.mem_cons_of_mem _ hi)
    have h0 := hk _ List.mem_cons_self
    obtain ⟨j, hj, hjn⟩ := hno
    cases d with
    | func ti =>
      simp only at h0
      simp only [linkWith]
      cases hl : linkFunc M.types (imps m n) ti with
      | ok F =>
        rcases List.mem_cons.mp hj with rfl | hj
        · exact absurd (linkFunc_ok.mp hl) (hjn F)
        · rw [ih hk' ⟨j, hj, hjn⟩]; rfl
      | trap e =>
        unfold linkFunc at hl
        repeat' split at hl
        all_goals first | (cases hl; done) | (cases hl; rfl)
      | panic =>
        unfold linkFunc at hl
        rw [List.getElem?_eq_getElem h0] at hl
        repeat' split at hl
        all_goals first | (cases hl; done) | (rename_i hh; cases hh)
      | ub =>
        unfold linkFunc at hl
        repeat' split at hl
        all_goals cases hl
    | wasi w =>
      simp only [linkWith]
      rcases List.mem_cons.mp hj with rfl | hj
      · exact absurd rfl (hjn (.wasi w.type w.id))
      · rw [ih hk' ⟨j, hj, hjn⟩]; rfl
    | _ => exact h0.elim

/-- **C57** The function index space of the instance: first what the imports were given, then the module's own functions with their
declared types and preprocessed bodies. -/
theorem linked_functions {imps : ImportObjects} {M : Modul} {L : Loaded} (h : instantiateWith imps M = .ok L) :
    L.prog.types = M.types ∧ L.prog.funcs.length = M.imports.length + M.funcs.length ∧
    (∀ (k : Nat) i, M.imports[k]? = some i → ∃ F, L.prog.funcs[k]? = some F ∧ Supplies imps M.types i F) ∧
    (∀ (j : Nat) f, M.funcs[j]? = some f → ∃ t, M.types[f.ti]? = some t ∧
      L.prog.funcs[M.imports.length + j]? = some (.runtime t f.code)) := by
  unfold instantiateWith at h
  obtain ⟨imported, h1, h⟩ := bind_eq_ok h
  unfold buildInst at h
  obtain ⟨globals, _, h⟩ := bind_eq_ok h
  obtain ⟨tables, _, h⟩ := bind_eq_ok h
  obtain ⟨mems, _, h⟩ := bind_eq_ok h
  split at h
  · obtain ⟨own, h6, h⟩ := bind_eq_ok h
    split at h
    · cases h
      obtain ⟨hl, hg⟩ := imports_resolved.mp h1
      obtain ⟨hl', hg'⟩ := replaceFuncs_ok h6
      refine ⟨rfl, by simp [hl, hl'], fun k i hi => ?_, fun j f hf => ?_⟩
      · have hk : k < imported.length := by rw [hl]; exact (List.getElem?_eq_some_iff.mp hi).1
        exact ⟨imported[k], by simp [List.getElem?_append_left hk, List.getElem?_eq_getElem hk],
          hg k i _ hi (List.getElem?_eq_getElem hk)⟩
      · obtain ⟨t, ht, hr⟩ := hg' j f hf
        exact ⟨t, ht, by simp only; rw [← hl, List.getElem?_append_right (by omega)]; simpa using hr⟩
    · cases h
  · cases h

/-- What another module can be given from an instance under a name is the function the instance exports under it. -/
theorem extern_is_export {L : Loaded} {name : String} {F : FuncInst} :
    L.extern name = some (.func F) ↔ ∃ f, L.exportFunc name = .ok f ∧ L.prog.funcs[f]? = some F := by
  unfold Loaded.extern Loaded.exportFunc
  cases h : L.exports.find? (fun e => e.1 == name) with
  | none => simp
  | some e =>
    obtain ⟨n, d⟩ := e
    cases d <;> simp

/-! ## What calls of imported functions do -/

/-- **C57** A function that needs nothing of its module gives the same results, or fails the same way, in every module, and leaves
memory, globals, tables and the outside world alone. -/
theorem self_contained_same {S : Wasi} {Q Q' : SProg} {M M' : MInfo} (hH : Q.H = Q'.H) {F : SFunc} (hF : F.selfContained = true)
    {args : List Val} {st st' : Store} {w w' : S.W} {o : Res (List Val × Store × S.W)} (h : Gives S Q M F args st w o) :
    (∀ vs st1 w1, o = .ok (vs, st1, w1) → st1 = st ∧ w1 = w ∧ Gives S Q' M' F args st' w' (.ok (vs, st', w'))) ∧
    ((∀ x, o ≠ .ok x) → Gives S Q' M' F args st' w' o) := by
  cases h with
  | @ok n vs st1 w1 h =>
    have h0 := invoke_put (M := M) (M' := M) rfl hF n args st st w w (Q := Q) (Q' := Q) (S := S)
    have h1 := invoke_put (M := M) (M' := M') hH hF n args st st' w w' (S := S)
    rw [h] at h0 h1
    refine ⟨fun vs' a b e => ?_, fun hn => absurd rfl (hn _)⟩
    cases e
    simp only [COut.put, COut.ok.injEq] at h0
    exact ⟨h0.2.1, h0.2.2, .ok h1⟩
  | @fail n e _ _ h =>
    have h1 := invoke_put (M := M) (M' := M') hH hF n args st st' w w' (S := S)
    rw [h] at h1
    exact ⟨(fun vs a b he => by cases e <;> cases he), fun _ => .fail h1⟩

/-- The module as one source program in which every function import stands for the source of the function it is given, which
may have been preprocessed in any other module. -/
structure Sources (imps : ImportObjects) (M : Modul) (Q : SProg) (imp own : List SFunc) : Prop where
  types : Q.types = M.types
  funcs : Q.funcs = imp ++ own
  /-- imported functions: self-contained, and preprocessed in their own module -/
  given : imp.length = M.imports.length ∧ ∀ (k : Nat) i F, M.imports[k]? = some i → imp[k]? = some F →
    match i.2.2 with
    | .func _ => F.selfContained = true ∧ ∃ M' G, compileFunc M' F = some G ∧ imps i.1 i.2.1 = some (.func G)
    | .wasi w => F = .wasi w.type w.id
    | _ => False
  /-- the module's own functions, preprocessed with the module -/
  own : own.length = M.funcs.length ∧ ∀ (j : Nat) f F, M.funcs[j]? = some f → own[j]? = some F →
    ∃ t ls b, F = .wasm t ls b ∧ M.types[f.ti]? = some t ∧ compileFn (fnCtx M.info t ls) b.body = some f.code

theorem compileFunc_type {M : MInfo} {F : SFunc} {G : FuncInst} (h : compileFunc M F = some G) : G.type = F.type := by
  cases F with
  | wasi t id => cases h; rfl
  | wasm t ls b =>
    simp only [compileFunc, Option.map_eq_some_iff] at h
    obtain ⟨c, _, rfl⟩ := h
    rfl

theorem compileAll_of_get {M : MInfo} : ∀ {Fs : List SFunc} {Gs : List FuncInst}, Gs.length = Fs.length →
    (∀ (k : Nat) F G, Fs[k]? = some F → Gs[k]? = some G → compileFunc M F = some G) → compileAll M Fs = some Gs
  | [], Gs, hl, _ => by
    rw [List.length_nil, List.length_eq_zero_iff] at hl
    rw [hl, compileAll]
  | F :: Fs, [], hl, _ => by simp at hl
  | F :: Fs, G :: Gs, hl, h => by
    have ih := compileAll_of_get (M := M) (Fs := Fs) (Gs := Gs) (by simpa using hl) fun k F' G' h1 h2 => h (k + 1) F' G' h1 h2
    rw [compileAll, h 0 F G rfl rfl, ih]

/-- what the preprocessor knew about the functions of the index space is what they are -/
theorem info_linked {imps : ImportObjects} {M : Modul} {L : Loaded} (h : instantiateWith imps M = .ok L) {Q : SProg}
    {imp own : List SFunc} (hs : Sources imps M Q imp own) : M.info = Q.info (M.globals.map (·.2.1)) := by
  obtain ⟨_, _, hi, ho⟩ := linked_functions h
  have kinds : ∀ i ∈ M.imports, i.2.2.isFunc = true ∧ i.2.2.globalCls = none := by
    intro i hm
    obtain ⟨k, hk⟩ := List.getElem?_of_mem hm
    obtain ⟨F, _, hF⟩ := hi k i hk
    unfold Supplies at hF
    cases hd : i.2.2 <;> simp only [hd] at hF ⊢ <;> first | exact ⟨rfl, rfl⟩ | exact hF.elim
  have hn : M.numImported = M.imports.length := by
    unfold Modul.numImported
    rw [List.filter_eq_self.mpr fun i hm => (kinds i hm).1]
  have hg : M.imports.filterMap (fun i => i.2.2.globalCls) = [] := by
    rw [List.filterMap_eq_nil_iff]
    exact fun i hm => (kinds i hm).2
  unfold Modul.info SProg.info
  rw [hn, hg, List.take_length, hs.types, hs.funcs, List.map_append, List.nil_append]
  congr 2
  · apply List.ext_getElem?
    intro k
    rw [List.getElem?_map, List.getElem?_map]
    cases hk : M.imports[k]? with
    | none =>
      have : imp[k]? = none := by
        rw [List.getElem?_eq_none_iff] at hk ⊢; rw [hs.given.1]; exact hk
      rw [this]; rfl
    | some i =>
      have hlt : k < imp.length := by rw [hs.given.1]; exact (List.getElem?_eq_some_iff.mp hk).1
      rw [List.getElem?_eq_getElem hlt]
      have hF := hs.given.2 k i _ hk (List.getElem?_eq_getElem hlt)
      obtain ⟨G, _, hG⟩ := hi k i hk
      obtain ⟨m, n, d⟩ := i
      cases d with
      | func ti =>
        obtain ⟨hsc, M', G', hc, hi'⟩ := hF
        simp only [Supplies] at hG hi'
        obtain ⟨hG1, hG2⟩ := hG
        rw [hi'] at hG1; cases hG1
        have ht := compileFunc_type hc
        rw [ht] at hG2
        generalize imp[k] = F at hsc hG2 ⊢
        cases F with
        | wasi t id => cases hsc
        | wasm t ls b =>
          simp only [Option.map_some, Modul.importInfo, Modul.typeAt, hG2, Option.getD_some, SFunc.info, SFunc.type]
      | wasi w =>
        simp only at hF
        rw [hF]; rfl
      | _ => exact hF.elim
  · apply List.ext_getElem?
    intro k
    rw [List.getElem?_map, List.getElem?_map]
    cases hk : M.funcs[k]? with
    | none =>
      have : own[k]? = none := by
        rw [List.getElem?_eq_none_iff] at hk ⊢; rw [hs.own.1]; exact hk
      rw [this]; rfl
    | some f =>
      have hlt : k < own.length := by rw [hs.own.1]; exact (List.getElem?_eq_some_iff.mp hk).1
      rw [List.getElem?_eq_getElem hlt]
      obtain ⟨t, ls, b, hF, ht, _⟩ := hs.own.2 k f _ hk (List.getElem?_eq_getElem hlt)
      rw [hF]
      simp only [Option.map_some, Modul.typeAt, ht, Option.getD_some, SFunc.info]

/-- the linked program is the preprocessed source program -/
theorem linked_compile {imps : ImportObjects} {M : Modul} {L : Loaded} (h : instantiateWith imps M = .ok L) {Q : SProg}
    {imp own : List SFunc} (hs : Sources imps M Q imp own) : Q.compile (M.globals.map (·.2.1)) = some L.prog := by
  obtain ⟨hty, hlen, hi, ho⟩ := linked_functions h
  have hinfo := info_linked h hs
  unfold SProg.compile
  rw [← hinfo]
  have : compileAll M.info Q.funcs = some L.prog.funcs := by
    apply compileAll_of_get
    · rw [hlen, hs.funcs, List.length_append, hs.given.1, hs.own.1]
    · intro k F G hF hG
      rw [hs.funcs, List.getElem?_append] at hF
      split at hF
      · rename_i hk
        have hk' : k < M.imports.length := by rw [← hs.given.1]; exact hk
        have hF' := hs.given.2 k _ F (List.getElem?_eq_getElem hk') hF
        obtain ⟨G', hG', hS⟩ := hi k _ (List.getElem?_eq_getElem hk')
        rw [hG] at hG'; cases hG'
        generalize M.imports[k] = i at hF' hS
        obtain ⟨m, n, d⟩ := i
        cases d with
        | func ti =>
          obtain ⟨hsc, M', G', hc, hi'⟩ := hF'
          simp only [Supplies] at hS hi'
          rw [hi'] at hS; cases hS.1
          rw [compileFunc_same (M' := M') hsc, hc]
        | wasi w =>
          simp only [Supplies] at hF' hS
          rw [hF', hS]; rfl
        | _ => exact hF'.elim
      · rename_i hk
        rw [hs.given.1] at hk hF
        have hlt : k - M.imports.length < M.funcs.length := by
          rw [← hs.own.1]; exact (List.getElem?_eq_some_iff.mp hF).1
        obtain ⟨t, ls, b, rfl, ht, hc⟩ := hs.own.2 _ _ _ (List.getElem?_eq_getElem hlt) hF
        obtain ⟨t', ht', hG'⟩ := ho _ _ (List.getElem?_eq_getElem hlt)
        rw [ht] at ht'; cases ht'
        rw [show M.imports.length + (k - M.imports.length) = k from by omega, hG] at hG'
        cases hG'
        simp only [compileFunc, hc, Option.map_some]
  rw [this, hs.types, ← hty]
  rfl

/-- **C57** (partial) A module whose imported functions need nothing of the instances they come from behaves, called with either
dispatcher, as the source program in which the imports are those functions: the results, final memory, globals and outside effects
are what WebAssembly says of the linked program.  Missing: imported functions that use their own instance
(`foreign_instance_violated`). -/
theorem linked_correct_partial {S : Wasi} {imps : ImportObjects} {M : Modul} {L : Loaded} (h : instantiateWith imps M = .ok L)
    {Q : SProg} {imp own : List SFunc} (hs : Sources imps M Q imp own)
    (acc : Accepted S Q (M.globals.map (·.2.1))) (hgl : L.inst.globals.map (·.value.cls) = M.globals.map (·.2.1))
    {f : Nat} {t : FuncType} {ls : List (Nat × Cls)} {b : WSeq} (hf : Q.funcs[f]? = some (.wasm t ls b)) {args : List Val}
    (ha : args.map (·.cls) = t.params) {D : Env → Dispatcher} (hD : Build D) (en atomics : Bool) (world : S.W) :
    ∃ m, Machine.new L.prog L.inst world f args = .ok m ∧
      let E := envOf Q.H atomics (fun _ => false) L.prog L.hasWasi
      let Q' := Q.info (M.globals.map (·.2.1))
      (∀ o, Gives S Q Q' (.wasm t ls b) args (storeOf L.inst) world o → Answers E (D E) en m o) ∧
      (¬ HitsHost S Q Q' (.wasm t ls b) args (storeOf L.inst) world →
        ∀ o, Answers E (D E) en m o → Gives S Q Q' (.wasm t ls b) args (storeOf L.inst) world o) := by
  have hw : ∀ t id, SFunc.wasi t id ∈ Q.funcs → L.hasWasi = true := by
    intro t id hm
    rw [hs.funcs, List.mem_append] at hm
    have hneed : L.hasWasi = M.needsWasi := by
      unfold instantiateWith at h
      obtain ⟨imported, h1, h⟩ := bind_eq_ok h
      unfold buildInst at h
      obtain ⟨globals, _, h⟩ := bind_eq_ok h
      obtain ⟨tables, _, h⟩ := bind_eq_ok h
      obtain ⟨mems, _, h⟩ := bind_eq_ok h
      split at h
      · obtain ⟨own, h6, h⟩ := bind_eq_ok h
        split at h
        · cases h; rfl
        · cases h
      · cases h
    rw [hneed]
    rcases hm with hm | hm
    · obtain ⟨k, hk⟩ := List.getElem?_of_mem hm
      have hk' : k < M.imports.length := by rw [← hs.given.1]; exact (List.getElem?_eq_some_iff.mp hk).1
      have := hs.given.2 k _ _ (List.getElem?_eq_getElem hk') hk
      unfold Modul.needsWasi
      rw [List.any_eq_true]
      refine ⟨M.imports[k], List.getElem_mem hk', ?_⟩
      generalize M.imports[k] = i at this
      obtain ⟨m, n, d⟩ := i
      cases d with
      | func ti => exact absurd this.1 (by simp [SFunc.selfContained])
      | wasi w => rfl
      | _ => exact this.elim
    · obtain ⟨k, hk⟩ := List.getElem?_of_mem hm
      have hk' : k < M.funcs.length := by rw [← hs.own.1]; exact (List.getElem?_eq_some_iff.mp hk).1
      obtain ⟨t, ls, b, hF, _⟩ := hs.own.2 k _ _ (List.getElem?_eq_getElem hk') hk
      cases hF
  have st : Start S (envOf Q.H atomics (fun _ => false) L.prog L.hasWasi) Q (M.globals.map (·.2.1)) L.inst f t ls b args :=
    ⟨rfl, linked_compile h hs, acc, hw, hf, ha, hgl⟩
  obtain ⟨m, hm, h1, h2, _⟩ := program_correct_partial st (fun _ => rfl) (hD.isD _) en world
  exact ⟨m, hm, h1, h2⟩

/-! ## Two modules -/

namespace LinkEx
open LoadEx

/-- module b: a global of 7; `get` returns it, `twice` doubles its argument -/
def fileB : List Payload :=
  [.version 1, .types [some ⟨[], [.i32]⟩, some ⟨[.i32], [.i32]⟩], .funcs [some 0, some 1],
   .globals [some (false, .i32, [.i32 7])], .exports [some ("get", .func 0), some ("twice", .func 1)],
   .code [] [.globalGet 0, .fin] false,
   .code [] [.localGet 0, .localGet 0, .bin (.int .s32 .add), .fin] false]

/-- module a: imports both; a global of 42; `main` calls `get`, `four` calls `twice` -/
def fileA : List Payload :=
  [.version 1, .types [some ⟨[], [.i32]⟩, some ⟨[.i32], [.i32]⟩],
   .imports [some ("b", "get", .func 0), some ("b", "twice", .func 1)], .funcs [some 0, some 0],
   .globals [some (false, .i32, [.i32 42])], .exports [some ("main", .func 2), some ("four", .func 3)],
   .code [] [.call 0, .fin] false,
   .code [] [.const .i32 (2 : BitVec 32), .call 1, .fin] false]

/-- the decoded module -/
def modul (f : List Payload) : Modul :=
  match parseFile (some f) with
  | .ok s => s.m
  | _ => Modul.empty

/-- instance of b -/
def instB : Res Loaded := instantiateWith (fun _ _ => none) (modul fileB)

/-- the exports of b, under the name "b" -/
def objects : ImportObjects := fun m n =>
  match instB with
  | .ok L => if m = "b" then L.extern n else none
  | _ => none

/-- instance of a, linked with b -/
def instA : Res Loaded := instantiateWith objects (modul fileA)

/-- call an exported function of an instance -/
def callExport (D : Env → Dispatcher) (atomics en : Bool) (L : Res Loaded) (name : String) (args : List Val) : Option (List Val) :=
  match L with
  | .ok L =>
    match L.exportFunc name with
    | .ok f =>
      match Machine.new (S := Sample.wasi) L.prog L.inst () f args with
      | .ok m => results (m.run (envOf Sample.host atomics (fun _ => false) L.prog L.hasWasi)
          (D (envOf Sample.host atomics (fun _ => false) L.prog L.hasWasi)) en 10)
      | _ => none
    | _ => none
  | _ => none

/-- **C57 is false of the code.**  `get` of module b returns b's global, 7.  Called through an import from module a it runs against
a's globals and returns 42: the interpreter executes every frame with the module of the runtime (runtime.rs:135, 167), not with the
module of the function. -/
theorem foreign_instance_violated :
    (∀ atomics en, callExport loopD atomics en instB "get" [] = some [⟨.i32, (7 : BitVec 32)⟩]) ∧
    (∀ atomics en, callExport loopD atomics en instA "main" [] = some [⟨.i32, (42 : BitVec 32)⟩]) ∧
    (∀ atomics en, callExport tcoD atomics en instB "get" [] = some [⟨.i32, (7 : BitVec 32)⟩]) ∧
    (∀ atomics en, callExport tcoD atomics en instA "main" [] = some [⟨.i32, (42 : BitVec 32)⟩]) := by
  refine ⟨?_, ?_, ?_, ?_⟩ <;> decide +kernel

/-- a function that needs nothing of its module is called properly -/
example : (∀ atomics en, callExport loopD atomics en instA "four" [] = some [⟨.i32, (4 : BitVec 32)⟩]) := by decide +kernel

/-- source of `twice` -/
def twice : SFunc := .wasm ⟨[.i32], [.i32]⟩ [] (.op (.localGet 0) <| .op (.localGet 0) <| .op (.bin (.int .s32 .add)) .done)
/-- source of `get` -/
def get : SFunc := .wasm ⟨[], [.i32]⟩ [] (.op (.globalGet 0) .done)

example : twice.selfContained = true ∧ get.selfContained = false := by decide

/-- module c imports `twice` only -/
def fileC : List Payload :=
  [.version 1, .types [some ⟨[], [.i32]⟩, some ⟨[.i32], [.i32]⟩],
   .imports [some ("b", "twice", .func 1)], .funcs [some 0],
   .globals [], .exports [some ("four", .func 1)],
   .code [] [.const .i32 (2 : BitVec 32), .call 0, .fin] false]

/-- source of `four` -/
def four : SFunc := .wasm ⟨[], [.i32]⟩ [] (.op (.const .i32 (2 : BitVec 32)) <| .op (.call 0) .done)

/-- module c as one program -/
def source : SProg := { H := Sample.host, types := [⟨[], [.i32]⟩, ⟨[.i32], [.i32]⟩], funcs := [twice, four] }

theorem objects_twice : ∃ G, compileFunc ⟨[⟨[], [.i32]⟩], [.f64], []⟩ twice = some G ∧ objects "b" "twice" = some (.func G) := by
  refine ⟨_, rfl, ?_⟩
  rfl

/-- the hypotheses of `linked_correct_partial` on the sources are met -/
theorem sources : Sources objects (modul fileC) source [twice] [four] where
  types := rfl
  funcs := rfl
  given := ⟨rfl, fun k i F hi hF => by
    match k with
    | 0 =>
      cases hi; cases hF
      obtain ⟨G, h1, h2⟩ := objects_twice
      exact ⟨rfl, _, G, h1, h2⟩
    | k + 1 => cases hi⟩
  own := ⟨rfl, fun j f F hf hF => by
    match j with
    | 0 => cases hf; cases hF; exact ⟨_, _, _, rfl, rfl, rfl⟩
    | j + 1 => cases hf⟩

theorem accepted : Accepted Sample.wasi source [] := by
  have mem : ∀ {t ls b}, SFunc.wasm t ls b ∈ source.funcs → SFunc.wasm t ls b = twice ∨ SFunc.wasm t ls b = four := by
    intro t ls b h
    simpa [source] using h
  refine accepted_of_text (fun t ls b h => ?_) (fun t ls b h => ?_) (fun t id h => ?_) (fun t id h => ?_)
  · rcases mem h with h | h <;> cases h
    · exact ⟨⟨by simp [WSeq.Proper, isBracket], _, rfl, by decide⟩, by decide +kernel, by decide +kernel, by decide +kernel⟩
    · exact ⟨⟨by simp [WSeq.Proper, isBracket], _, rfl, by decide⟩, by decide +kernel, by decide +kernel, by decide +kernel⟩
  · rcases mem h with h | h <;> cases h
    · exact ⟨by decide, by simp, fun c => by cases c <;> decide⟩
    · exact ⟨by decide, by simp, fun c => by cases c <;> decide⟩
  · simp [source, twice, four] at h
  · simp [source, twice, four] at h

theorem linked : ∃ L, instantiateWith objects (modul fileC) = .ok L := ⟨_, rfl⟩

theorem linkedGlobals {L : Loaded} (h : instantiateWith objects (modul fileC) = .ok L) : L.inst.globals = [] := by
  have : (match instantiateWith objects (modul fileC) with | .ok L => L.inst.globals.length | _ => 0) = 0 := by decide +kernel
  rw [h] at this
  exact List.eq_nil_of_length_eq_zero this

/-- what WebAssembly says of `four` -/
theorem four_gives (st : Store) : Gives Sample.wasi source (source.info []) four [] st () (.ok ([⟨.i32, (4 : BitVec 32)⟩], st, ())) :=
  .ok (n := 5) (by rfl)

/-- `linked_correct_partial` applies to module c linked with b: whatever `four` answers is what WebAssembly says of the linked
program -/
example : ∃ L, instantiateWith objects (modul fileC) = .ok L ∧ ∃ m : Machine Sample.wasi, Machine.new L.prog L.inst () 1 [] = .ok m ∧
    Answers (envOf Sample.host true (fun _ => false) L.prog L.hasWasi) (loopD (envOf Sample.host true (fun _ => false) L.prog L.hasWasi))
      true m (.ok ([⟨.i32, (4 : BitVec 32)⟩], storeOf L.inst, ())) := by
  obtain ⟨L, hL⟩ := linked
  have hg : L.inst.globals.map (·.value.cls) = [] := by
    have := linkedGlobals hL
    rw [this]; rfl
  refine ⟨L, hL, ?_⟩
  obtain ⟨m, hm, h, _⟩ := linked_correct_partial (S := Sample.wasi) (imps := objects) (M := modul fileC) hL sources accepted hg
    (f := 1) rfl (args := []) rfl .loop true true ()
  exact ⟨m, hm, h _ (four_gives _)⟩

/-- a missing, a differently typed and a non-function import: link errors -/
example : (∀ F, ¬ Supplies (fun _ _ => some .mem) (modul fileC).types ("b", "twice", .func 1) F) ∧
    instantiateWith (fun _ _ => some .mem) (modul fileC) = .trap .linkError ∧
    instantiateWith (fun _ _ => none) (modul fileC) = .trap .linkError ∧
    instantiateWith (fun _ _ => some (.func (.runtime ⟨[], [.i32]⟩ ⟨[], [], none⟩))) (modul fileC) = .trap .linkError ∧
    ∃ L, instantiateWith objects (modul fileC) = .ok L := by
  refine ⟨(fun F h => by cases h.1), rfl, rfl, rfl, ⟨_, rfl⟩⟩

end LinkEx

end Verif.Props
