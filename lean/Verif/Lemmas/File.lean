import Verif.Lemmas.ModuleOk
import Verif.Spec.File
/- Loading the file of a well-formed module gives the module its author wrote. -/
namespace Verif.Props
open Verif.Spec Verif.Model

theorem parseFrom_append (ps qs : List Payload) : ∀ s, parseFrom s (ps ++ qs) = (parseFrom s ps).andThen fun s => parseFrom s qs := by
  induction ps with
  | nil => intro s; rfl
  | cons p ps ih =>
    intro s
    simp only [List.cons_append, parseFrom]
    cases decodePayload s p with
    | ok s' => simp only [Parsed.andThen]; rw [ih]; rfl
    | err s' => rfl
    | panic => rfl

theorem each_map {α β : Type} {f : PSt → α → Parsed} {upd : PSt → List β → PSt} {g : α → β} (h0 : ∀ s, upd s [] = s)
    (ha : ∀ s xs ys, upd (upd s xs) ys = upd s (xs ++ ys)) : ∀ {as : List α}, (∀ a ∈ as, ∀ s, f s a = .ok (upd s [g a])) → ∀ s,
    each f s (as.map some) = .ok (upd s (as.map g))
  | [], _, s => by simp only [List.map_nil, each, h0]
  | a :: as, h, s => by
    simp only [List.map_cons, each, h a (by simp) s, Parsed.andThen]
    rw [each_map h0 ha (fun a ha => h a (by simp [ha]))]
    rw [ha]; rfl

/-- phase 1 agrees with the one of `compileFn` -/
theorem compRunD_ok {K : FnCtx} : ∀ {n : Nat} {st : CS} {ops : List WOp} {st' : CS}, compRun K n st ops = some st' →
    compRunD K false n st ops = .ok st'
  | n, st, [], st', h => by
    unfold compRun at h
    unfold compRunD
    split at h
    · rename_i he; cases h; simp [he]
    · cases h
  | 0, st, _ :: _, st', h => by simp [compRun] at h
  | n + 1, st, op :: rest, st', h => by
    unfold compRun at h
    unfold compRunD
    split at h
    · cases h
    · rename_i st1 rest1 he
      rw [he]
      exact compRunD_ok h

/-- the module's own functions, compiled -/
def compileDefs (I : MInfo) (A : SMod) : List SDef → Option (List ModFunc)
  | [] => some []
  | d :: ds =>
    match compileFn (fnCtx I (A.type d.type) d.locals) d.body.body, compileDefs I A ds with
    | some c, some fs => some (⟨d.type, c⟩ :: fs)
    | _, _ => none

theorem compileDefs_ti {I : MInfo} {A : SMod} : ∀ {ds : List SDef} {fs : List ModFunc}, compileDefs I A ds = some fs →
    fs.map (·.ti) = ds.map (·.type)
  | [], fs, h => by cases h; rfl
  | d :: ds, fs, h => by
    unfold compileDefs at h
    split at h
    · rename_i c gs hc hg
      cases h
      simp [compileDefs_ti hg]
    · cases h

theorem compileAll_defs {I : MInfo} {A : SMod} : ∀ {ds : List SDef} {Gs : List FuncInst},
    compileAll I (ds.map fun d => .wasm (A.type d.type) d.locals d.body) = some Gs →
    ∃ fs, compileDefs I A ds = some fs ∧ Gs = fs.map fun f => .runtime (A.type f.ti) f.code
  | [], Gs, h => by cases h; exact ⟨[], rfl, rfl⟩
  | d :: ds, Gs, h => by
    simp only [List.map_cons, compileAll] at h
    split at h
    · rename_i G Gs' hG hGs
      cases h
      simp only [compileFunc, Option.map_eq_some_iff] at hG
      obtain ⟨c, hc, rfl⟩ := hG
      obtain ⟨fs, h1, rfl⟩ := compileAll_defs hGs
      exact ⟨⟨d.type, c⟩ :: fs, by simp only [compileDefs, hc, h1], rfl⟩
    · cases h

theorem compileAll_hosts {I : MInfo} {Fs : List SFunc} : ∀ {is : List (String × Nat)} {Gs : List FuncInst},
    (∀ i ∈ is, ∃ w, parseWasi i.1 = some w) → compileAll I (is.map (fun i => hostFunc i.1) ++ Fs) = some Gs →
    ∃ Gs', compileAll I Fs = some Gs' ∧
      linkImports (is.map fun i => ("wasi_snapshot_preview1", i.1, ((parseWasi i.1).map ImportDesc.wasi).getD (.func i.2))) =
        .ok (Gs.take is.length) ∧ Gs = Gs.take is.length ++ Gs'
  | [], Gs, _, h => ⟨Gs, h, rfl, rfl⟩
  | i :: is, Gs, hw, h => by
    obtain ⟨w, hi⟩ := hw i (by simp)
    simp only [List.map_cons, List.cons_append, compileAll] at h
    split at h
    · rename_i G Gs' hG hGs
      cases h
      simp only [hostFunc, hi, compileFunc, Option.some.injEq] at hG
      subst hG
      obtain ⟨Gs'', h1, h2, h3⟩ := compileAll_hosts (fun j hj => hw j (by simp [hj])) hGs
      refine ⟨Gs'', h1, ?_, ?_⟩
      · simp only [List.map_cons, hi, Option.map_some, Option.getD_some, linkImports, h2, Res.bind_ok, Res.pure_eq,
          List.length_cons, List.take_succ_cons]
      · simp only [List.length_cons, List.take_succ_cons, List.cons_append]
        rw [← h3]
    · cases h

/-! ### Decoding the bodies -/

theorem info_setCode {M : Modul} {i : Nat} {c : Code} : (M.setCode i c).info = M.info ∧ (M.setCode i c).types = M.types ∧
    (M.setCode i c).imports = M.imports := by
  unfold Modul.setCode
  split
  · rename_i f hf
    refine ⟨?_, rfl, rfl⟩
    unfold Modul.info
    simp only [Modul.typeAt, Modul.numImported, MInfo.mk.injEq, true_and]
    have : (M.funcs.set i { f with code := c }).map (fun f => ((none : Option Nat), (M.types[f.ti]?).getD ⟨[], []⟩)) =
        M.funcs.map fun f => (none, (M.types[f.ti]?).getD ⟨[], []⟩) := by
      apply List.ext_getElem? 
      intro j
      rw [List.getElem?_map, List.getElem?_map, List.getElem?_set]
      split
      · rename_i hij; subst hij
        split
        · rw [hf]; rfl
        · rename_i hl
          rcases List.getElem?_eq_some_iff.mp hf with ⟨hh, _⟩
          exact absurd hh hl
      · rfl
    exact congrArg _ this
  · exact ⟨rfl, rfl, rfl⟩

theorem setCode_append {M : Modul} {pre post : List ModFunc} {f : ModFunc} (h : M.funcs = pre ++ f :: post) (c : Code) :
    M.setCode pre.length c = { M with funcs := pre ++ { f with code := c } :: post } := by
  unfold Modul.setCode
  have : M.funcs[pre.length]? = some f := by rw [h]; simp
  rw [this, h]
  simp

theorem parse_codes {A : SMod} {I : MInfo} : ∀ {ds : List SDef} {fs pre : List ModFunc} {s : PSt}, compileDefs I A ds = some fs →
    s.m.info = I → s.m.types = A.types → s.m.funcs = pre ++ ds.map (fun d => stub d.type) →
    s.cur = s.m.numImported + pre.length →
    parseFrom s (ds.map fun d => Payload.code d.locals d.body.body false) =
      .ok ⟨{ s.m with funcs := pre ++ fs }, s.cur + ds.length⟩
  | [], fs, pre, s, h, hI, ht, hf, hc => by
    cases h
    simp only [List.map_nil, List.append_nil] at hf
    simp only [List.map_nil, parseFrom, List.append_nil, List.length_nil, Nat.add_zero, ← hf]
  | d :: ds, fs, pre, s, h, hI, ht, hf, hc => by
    unfold compileDefs at h
    split at h
    · rename_i c gs hcomp hg
      cases h
      simp only [List.map_cons] at hf
      have hget : s.m.funcs[pre.length]? = some (stub d.type) := by rw [hf]; simp
      have hctx : s.m.bodyCtx pre.length d.locals = fnCtx I (A.type d.type) d.locals := by
        unfold Modul.bodyCtx Modul.bodyType
        rw [hget, hI]
        simp only [Modul.typeAt, ht, fnCtx, SMod.type, stub]
      have hk : s.cur - s.m.numImported = pre.length := by omega
      unfold compileFn at hcomp
      split at hcomp
      · cases hcomp
      · rename_i st hst
        split at hcomp
        · cases hcomp
        · rename_i body hb
          cases hcomp
          have hset := setCode_append hf { locals := d.locals, body := body, alloc := some st.alloc.finalize }
          have h1 : decodePayload s (.code d.locals d.body.body false) =
              .ok ⟨s.m.setCode pre.length { locals := d.locals, body := body, alloc := some st.alloc.finalize }, s.cur + 1⟩ := by
            simp only [decodePayload, decodeCode, hk, hctx, compRunD_ok hst, storeBody, hget, hb]
          simp only [List.map_cons, parseFrom, h1, Parsed.andThen]
          obtain ⟨hi1, hi2, hi3⟩ := info_setCode (M := s.m) (i := pre.length)
            (c := { locals := d.locals, body := body, alloc := some st.alloc.finalize })
          have := parse_codes (A := A) (I := I) (ds := ds) (fs := gs)
            (pre := pre ++ [⟨d.type, { locals := d.locals, body := body, alloc := some st.alloc.finalize }⟩])
            (s := ⟨s.m.setCode pre.length { locals := d.locals, body := body, alloc := some st.alloc.finalize }, s.cur + 1⟩)
            hg (hi1.trans hI) (hi2.trans ht) (by rw [hset]; simp [stub])
            (by
              have : (s.m.setCode pre.length { locals := d.locals, body := body, alloc := some st.alloc.finalize }).numImported
                  = s.m.numImported := by unfold Modul.numImported; rw [hi3]
              simp only [this, hc, List.length_append, List.length_singleton]; omega)
          rw [this, hset]
          simp only [List.append_assoc, List.singleton_append, List.length_cons, fnCtx]
          congr 2
          omega
    · cases h

/-! ### The other sections -/

/-- the module as parsed, given its compiled functions -/
def _root_.Verif.Spec.SMod.loaded (A : SMod) (fs : List ModFunc) : Modul := { A.decls with funcs := fs }

theorem limits?_ok {l : Limits} (h : Limits32 l) : limits? l = some (BitVec.ofNat 32 l.min, l.max.map (BitVec.ofNat 32)) := by
  unfold limits? u32?
  rw [if_pos h.1]
  cases hm : l.max with
  | none => rfl
  | some x => simp [h.2 x hm]

theorem initOk_of {n : Nat} {e : CExpr} (h : ConstBefore n e) : initOk e = true := by
  rcases e with _ | ⟨o, _ | ⟨o', r⟩⟩
  · exact h.elim
  · cases o <;> first | rfl | exact h.elim
  · cases o <;> exact h.elim

theorem numImported_all {M : Modul} (h : ∀ i ∈ M.imports, i.2.2.isFunc = true) : M.numImported = M.imports.length := by
  unfold Modul.numImported
  rw [List.filter_eq_self.mpr h]

theorem decls_info {A : SMod} {H : FloatHost} (h : A.Declared) {M : Modul} (h1 : M.types = A.types)
    (h2 : M.imports = A.decls.imports) (h3 : M.globals = A.globals) (h4 : M.funcs.map (·.ti) = A.funcs.map (·.type)) :
    M.info = (A.source H).info A.globalTypes ∧ M.numImported = A.imports.length := by
  have him : ∀ i ∈ M.imports, ∃ w, i.2.2 = .wasi w := by rw [h2]; exact h.decls.imports
  have hn : M.numImported = M.imports.length := numImported_all (by
    intro i hi
    obtain ⟨w, hw⟩ := him i hi
    rw [hw]; rfl)
  refine ⟨?_, by rw [hn, h2]; simp [SMod.decls]⟩
  unfold Modul.info SProg.info
  have hg : M.imports.filterMap (fun i => i.2.2.globalCls) = [] := by
    rw [List.filterMap_eq_nil_iff]
    intro i hi
    obtain ⟨w, hw⟩ := him i hi
    rw [hw]; rfl
  rw [hg, hn, List.take_length, h3]
  simp only [MInfo.mk.injEq, List.nil_append, SMod.source, SMod.globalTypes, List.map_append, List.map_map]
  refine ⟨h1, trivial, ?_⟩
  congr 1
  · rw [h2]
    simp only [SMod.decls, List.map_map]
    apply List.map_congr_left
    intro i hi
    obtain ⟨w, hw, _⟩ := h.imports i hi
    simp [hw, Modul.importInfo, hostFunc, SFunc.info]
  · have : ∀ (l : List ModFunc) (l' : List SDef), l.map (·.ti) = l'.map (·.type) →
        l.map (fun f => ((none : Option Nat), M.typeAt f.ti)) = l'.map (SFunc.info ∘ fun d => .wasm (A.type d.type) d.locals d.body) := by
      intro l
      induction l with
      | nil => intro l' hl; cases l' <;> simp at hl ⊢
      | cons f l ih =>
        intro l' hl
        cases l' with
        | nil => simp at hl
        | cons d l' =>
          simp only [List.map_cons, List.cons.injEq] at hl
          rw [List.map_cons, ih l' hl.2, hl.1, List.map_cons]
          simp only [Modul.typeAt, h1, Function.comp, SFunc.info, SMod.type]
    exact this _ _ h4

/-- everything before the code section decodes; then come the bodies, then the data section -/
theorem parse_around {A : SMod} (H : FloatHost) (h : A.Declared) : parseFile (some A.file) =
    (parseFrom ⟨{ A.decls with datas := [] }, A.imports.length⟩ (A.funcs.map fun d => Payload.code d.locals d.body.body false)).andThen
      fun s => .ok { s with m := { s.m with datas := s.m.datas ++ A.decls.datas } } := by
  unfold parseFile SMod.file
  have eT : ∀ s, each decodeType s (A.types.map some) = .ok { s with m := { s.m with types := s.m.types ++ A.types } } := fun s => by
    rw [each_map (upd := fun s xs => { s with m := { s.m with types := s.m.types ++ xs } }) (g := id) (by simp)
      (by intro s xs ys; simp) (by intro a _ s; rfl), List.map_id]
  have eI : ∀ s, each decodeImport s (A.imports.map fun i => some ("wasi_snapshot_preview1", i.1, ImportTy.func i.2)) =
      .ok { s with m := { s.m with imports := s.m.imports ++ A.decls.imports } } := fun s => by
    have e : (A.imports.map fun i => some ("wasi_snapshot_preview1", i.1, ImportTy.func i.2)) =
      (A.imports.map fun i => ("wasi_snapshot_preview1", i.1, ImportTy.func i.2)).map some := by rw [List.map_map]; rfl
    rw [e, each_map (upd := fun s xs => { s with m := { s.m with imports := s.m.imports ++ xs } })
      (g := fun i => (i.1, i.2.1, (importDesc i.1 i.2.1 i.2.2).getD (.func 0))) (by simp) (by intro s xs ys; simp)]
    · have e2 : (A.imports.map fun i => ("wasi_snapshot_preview1", i.1, ImportTy.func i.2)).map
          (fun i => (i.1, i.2.1, (importDesc i.1 i.2.1 i.2.2).getD (.func 0))) = A.decls.imports := by
        rw [List.map_map]
        apply List.map_congr_left
        intro i hi
        obtain ⟨w, hw, _⟩ := h.imports i hi
        simp [importDesc, hw]
      rw [e2]
    · intro i hi s
      obtain ⟨j, hj, rfl⟩ := List.mem_map.mp hi
      obtain ⟨w, hw, _⟩ := h.imports j hj
      simp [decodeImport, importDesc, hw]
  have eF : ∀ s, each decodeFunc s (A.funcs.map fun d => some d.type) =
      .ok { s with m := { s.m with funcs := s.m.funcs ++ A.funcs.map fun d => stub d.type } } := fun s => by
    have e : (A.funcs.map fun d => some d.type) = (A.funcs.map (·.type)).map some := by rw [List.map_map]; rfl
    rw [e, each_map (upd := fun s xs => { s with m := { s.m with funcs := s.m.funcs ++ xs } }) (g := stub) (by simp)
      (by intro s xs ys; simp) (by intro a _ s; rfl), List.map_map]
    rfl
  have eTb : ∀ s, each decodeTable s (A.tables.map fun l => some (l, true)) =
      .ok { s with m := { s.m with tables := s.m.tables ++ A.decls.tables } } := fun s => by
    have e : (A.tables.map fun l => some (l, true)) = (A.tables.map fun l => (l, true)).map some := by rw [List.map_map]; rfl
    rw [e, each_map (upd := fun s xs => { s with m := { s.m with tables := s.m.tables ++ xs } })
      (g := fun p => BitVec.ofNat 32 p.1.min) (by simp) (by intro s xs ys; simp), List.map_map]
    · rfl
    · intro p hp s
      obtain ⟨l, hl, rfl⟩ := List.mem_map.mp hp
      simp [decodeTable, limits?_ok (h.tables l hl)]
  have eM : ∀ s, each decodeMem s (A.mems.map some) = .ok { s with m := { s.m with mems := s.m.mems ++ A.decls.mems } } := fun s => by
    rw [each_map (upd := fun s xs => { s with m := { s.m with mems := s.m.mems ++ xs } })
      (g := fun l => (BitVec.ofNat 32 l.min, l.max.map (BitVec.ofNat 32))) (by simp) (by intro s xs ys; simp)]
    · rfl
    · intro l hl s
      simp [decodeMem, limits?_ok (h.mems l hl)]
  have eG : ∀ s, each decodeGlobal s (A.globals.map some) = .ok { s with m := { s.m with globals := s.m.globals ++ A.globals } } :=
      fun s => by
    rw [each_map (upd := fun s xs => { s with m := { s.m with globals := s.m.globals ++ xs } }) (g := id) (by simp)
      (by intro s xs ys; simp), List.map_id]
    intro g hg s
    obtain ⟨m, c, e⟩ := g
    obtain ⟨i, hi⟩ := List.mem_iff_getElem?.mp hg
    simp [decodeGlobal, initOk_of (h.decls.globals i m c e hi)]
  have eE : ∀ s, each decodeExport s (A.exports.map some) = .ok { s with m := { s.m with exports := s.m.exports ++ A.exports } } :=
      fun s => by
    rw [each_map (upd := fun s xs => { s with m := { s.m with exports := s.m.exports ++ xs } }) (g := id) (by simp)
      (by intro s xs ys; simp), List.map_id]
    intro e he s
    simp [decodeExport, h.exports e he]
  have eEl : ∀ s, each decodeElem s (A.elems.map fun e => some (ElemItems.funcs e.1, e.2)) =
      .ok { s with m := { s.m with elems := s.m.elems ++ A.decls.elems } } := fun s => by
    have e : (A.elems.map fun e => some (ElemItems.funcs e.1, e.2)) = (A.elems.map fun e => (ElemItems.funcs e.1, e.2)).map some := by
      rw [List.map_map]; rfl
    rw [e, each_map (upd := fun s xs => { s with m := { s.m with elems := s.m.elems ++ xs } })
      (g := fun p => (⟨true, (elemItems p.1).bind (·.2), elemActive p.2⟩ : ModElem)) (by simp) (by intro s xs ys; simp), List.map_map]
    · rfl
    · intro p hp s
      obtain ⟨x, hx, rfl⟩ := List.mem_map.mp hp
      have hd := (h.decls.elems ⟨true, some x.1, elemActive x.2⟩ (by simp only [SMod.decls, List.mem_map]; exact ⟨x, hx, rfl⟩)).2.2
      obtain ⟨x1, x2⟩ := x
      cases x2 with
      | active t e =>
        obtain ⟨n, _, hs⟩ := hd (t.getD 0) e rfl
        simp [decodeElem, elemItems, elemMode, elemActive, initOk_of hs.1]
      | passive => rfl
      | declared => rfl
  have eD : ∀ s, each decodeData s (A.datas.map some) = .ok { s with m := { s.m with datas := s.m.datas ++ A.decls.datas } } :=
      fun s => by
    rw [each_map (upd := fun s xs => { s with m := { s.m with datas := s.m.datas ++ xs } })
      (g := fun p => (⟨p.1, dataActive p.2⟩ : ModData)) (by simp) (by intro s xs ys; simp)]
    · rfl
    · intro x hx s
      have hd := h.decls.datas ⟨x.1, dataActive x.2⟩ (by simp only [SMod.decls, List.mem_map]; exact ⟨x, hx, rfl⟩)
      obtain ⟨x1, x2⟩ := x
      cases x2 with
      | active t e =>
        obtain ⟨n, _, hs⟩ := hd t e rfl
        simp [decodeData, dataMode, dataActive, initOk_of hs.1]
      | passive => rfl
  have eS : ∀ s : PSt, s.m.start = none → parseFrom s (A.start.map Payload.start).toList = .ok { s with m := { s.m with start := A.start } } := by
    intro s hs
    cases hst : A.start with
    | none =>
      simp only [Option.map_none, Option.toList_none, parseFrom]
      obtain ⟨m, c⟩ := s
      obtain ⟨a1, a2, a3, a4, a5, a6, a7, a8, a9, a10⟩ := m
      simp only at hs; subst hs; rfl
    | some f => simp [parseFrom, decodePayload, Parsed.andThen]
  obtain ⟨hinfo, hnum⟩ := decls_info (H := H) h (M := { A.decls with datas := [] }) rfl rfl rfl (by simp [SMod.decls, stub])
  have hreset : (PSt.reset ⟨{ Modul.empty with types := A.types, imports := A.decls.imports }, 0⟩) =
      ⟨{ Modul.empty with types := A.types, imports := A.decls.imports }, A.imports.length⟩ := by
    unfold PSt.reset
    simp only [PSt.mk.injEq, true_and]
    rw [← hnum]; rfl
  simp only []
  rw [parseFrom_append, parseFrom_append, parseFrom_append, parseFrom_append]
  simp only [parseFrom, decodePayload, if_true, Parsed.andThen, eT, eI, eF, eTb, eM, eG, eE]
  simp only [Modul.empty, List.nil_append] at hreset ⊢
  rw [hreset]
  simp only [eF, eTb, eM, eG, eE, List.nil_append]
  rw [eS _ rfl]
  simp only [eEl, List.nil_append]
  simp only [eD]
  congr 1

theorem parse_file {A : SMod} {H : FloatHost} (h : A.Declared) {fs : List ModFunc}
    (hfs : compileDefs ((A.source H).info A.globalTypes) A A.funcs = some fs) :
    parseFile (some A.file) = .ok ⟨A.loaded fs, A.imports.length + A.funcs.length⟩ := by
  obtain ⟨hinfo, hnum⟩ := decls_info (H := H) h (M := { A.decls with datas := [] }) rfl rfl rfl (by simp [SMod.decls, stub])
  have key := parse_codes (A := A) (pre := []) (s := ⟨{ A.decls with datas := [] }, A.imports.length⟩) hfs hinfo rfl rfl
    (by simp [hnum])
  rw [parse_around H h, key]
  simp only [Parsed.andThen, List.nil_append]
  rfl

theorem instantiable_code {M : Modul} (h : Instantiable M) {fs : List ModFunc} (hl : fs.map (·.ti) = M.funcs.map (·.ti)) :
    Instantiable { M with funcs := fs } := by
  have hlen : fs.length = M.funcs.length := by simpa using congrArg List.length hl
  exact {
    imports := h.imports
    types := by
      intro f hf
      have : f.ti ∈ fs.map (·.ti) := List.mem_map.mpr ⟨f, hf, rfl⟩
      rw [hl] at this
      obtain ⟨g, hg, he⟩ := List.mem_map.mp this
      rw [← he]; exact h.types g hg
    mems := h.mems
    globals := h.globals
    elems := by
      intro e he
      obtain ⟨h1, h2, h3⟩ := h.elems e he
      exact ⟨h1, by simpa only [hlen] using h2, fun k ex ha => h3 k ex ha⟩
    datas := fun d hd k ex ha => h.datas d hd k ex ha
    exports := by simpa only [hlen] using h.exports
    start := by simpa only [hlen] using h.start }

theorem replaceFuncs_eq {types : List FuncType} : ∀ {fs : List ModFunc} {rs : List FuncInst}, replaceFuncs types fs = .ok rs →
    rs = fs.map fun f => .runtime ((types[f.ti]?).getD ⟨[], []⟩) f.code
  | [], rs, h => by cases h; rfl
  | f :: fs, rs, h => by
    unfold replaceFuncs at h
    split at h
    · cases h
    · rename_i t ht
      obtain ⟨gs, h1, h2⟩ := bind_eq_ok h
      cases h2
      rw [replaceFuncs_eq h1, List.map_cons, ht]
      rfl

/-- Loading the file: it succeeds, and gives the compiled module, its exports and its initial store. -/
theorem load_declared {A : SMod} {H : FloatHost} (h : A.Declared) {P : Prog}
    (hc : (A.source H).compile A.globalTypes = some P) :
    ∃ fs L, parseFile (some A.file) = .ok ⟨A.loaded fs, A.imports.length + A.funcs.length⟩ ∧
      instantiate (A.loaded fs) = .ok L ∧ loadFile (some A.file) = .ok L ∧ L.prog = P ∧
      L.hasWasi = (!A.imports.isEmpty) ∧ fs.map (·.ti) = A.funcs.map (·.type) := by
  simp only [SProg.compile, Option.map_eq_some_iff] at hc
  obtain ⟨Gs, hG, rfl⟩ := hc
  have hw : ∀ i ∈ A.imports, ∃ w, parseWasi i.1 = some w := fun i hi => by
    obtain ⟨w, hw, _⟩ := h.imports i hi
    exact ⟨w, hw⟩
  obtain ⟨Gs', h1, h2, h3⟩ := compileAll_hosts hw hG
  obtain ⟨fs, hfs, rfl⟩ := compileAll_defs h1
  have hti := compileDefs_ti hfs
  obtain ⟨L, hL⟩ := instantiate_total (instantiable_code h.decls (fs := fs) (by rw [hti]; simp [SMod.decls, stub]))
  refine ⟨fs, L, parse_file h hfs, hL, ?_, ?_, ?_, hti⟩
  · unfold loadFile
    rw [parse_file h hfs]
    simp only
    rw [show instantiate (A.loaded fs) = .ok L from hL]
  · obtain ⟨imported, own, _, _, h4, _, _, _, _, h5, _, h6, _⟩ := (instantiate_parts hL).parts
    rw [h6]
    have e1 : imported = Gs.take A.imports.length := by
      have : linkImports A.decls.imports = .ok imported := h4
      have h2' : linkImports A.decls.imports = .ok (Gs.take A.imports.length) := h2
      rw [h2'] at this; exact (Res.ok.inj this).symm
    have e2 := replaceFuncs_eq h5
    rw [h3, e1, e2]
    rfl
  · obtain ⟨_, _, _, _, _, _, _, _, _, _, _, _, _, _, _, _, _, h7⟩ := (instantiate_parts hL).parts
    rw [h7]
    show A.decls.imports.any _ = _
    cases hi : A.imports with
    | nil => simp [SMod.decls, hi]
    | cons i is =>
      obtain ⟨w, hw'⟩ := hw i (by rw [hi]; simp)
      simp [SMod.decls, hi, hw']

/-- the same for well-formed modules -/
theorem load_ok {S : Wasi} {A : SMod} {H : FloatHost} (h : A.WellFormed S H) {P : Prog}
    (hc : (A.source H).compile A.globalTypes = some P) :
    ∃ fs L, parseFile (some A.file) = .ok ⟨A.loaded fs, A.imports.length + A.funcs.length⟩ ∧
      instantiate (A.loaded fs) = .ok L ∧ loadFile (some A.file) = .ok L ∧ L.prog = P ∧
      L.hasWasi = (!A.imports.isEmpty) ∧ fs.map (·.ti) = A.funcs.map (·.type) := load_declared h.declared hc

end Verif.Props
