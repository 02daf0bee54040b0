import Verif.Lemmas.Module
/- Instantiation succeeds on instantiable modules. -/
namespace Verif.Props
open Verif.Spec Verif.Model

theorem evals_unique {gs : List (Bool × Cls × CExpr)} {e : CExpr} {v w : Val} (h : Evals gs e v) (h' : Evals gs e w) : v = w := by
  induction h generalizing w with
  | i32 v => cases h'; rfl
  | i64 v => cases h'; rfl
  | f32 v => cases h'; rfl
  | f64 v => cases h'; rfl
  | null => cases h'; rfl
  | func f => cases h'; rfl
  | @global g m c e v hg h ih =>
    cases h' with
    | global hg' h' => rw [hg] at hg'; cases hg'; exact ih h'

theorem exprConst_total {acc : List Global} {e : CExpr} (h : ConstBefore acc.length e) :
    ∃ v, exprConst acc e = .ok (some v) := by
  rcases e with _ | ⟨o, _ | ⟨o', r⟩⟩
  · exact h.elim
  · cases o with
    | i32 v => exact ⟨_, rfl⟩
    | i64 v => exact ⟨_, rfl⟩
    | f32 v => exact ⟨_, rfl⟩
    | f64 v => exact ⟨_, rfl⟩
    | refNull => exact ⟨_, rfl⟩
    | refFunc f => exact h.elim
    | other => exact h.elim
    | globalGet g =>
      have hg : g < acc.length := h
      refine ⟨acc[g].value, ?_⟩
      have hx : exprConst acc [.globalGet g] = match acc[g]? with | some gl => .ok (some gl.value) | none => .panic := rfl
      rw [hx, List.getElem?_eq_getElem hg]
  · cases o <;> exact h.elim

theorem initGlobals_total {full : List (Bool × Cls × CExpr)} (hc : ∀ (i : Nat) m c e, full[i]? = some (m, c, e) → ConstBefore i e) :
    ∀ {gs pre : List (Bool × Cls × CExpr)} {acc : List Global}, full = pre ++ gs → acc.length = pre.length →
    ∃ vals, initGlobals acc gs = .ok vals
  | [], pre, acc, hf, hl => ⟨acc, rfl⟩
  | (m, c, e) :: gs, pre, acc, hf, hl => by
    obtain ⟨v, hv⟩ := exprConst_total (acc := acc) (e := e)
      (by rw [hl]; exact hc pre.length m c e (by rw [hf]; simp))
    unfold initGlobals
    rw [hv]
    exact initGlobals_total hc (pre := pre ++ [(m, c, e)]) (by simp [hf]) (by simp [hl])

theorem offsetOf_total {M : Modul} {vals : List Global} (hi : Inits M.globals vals) (hn : vals.length = M.globals.length)
    {size : Nat} {e : CExpr} {len : Nat} (h : SegFits M size e len) :
    ∃ o : BitVec 32, offsetOf vals e = .ok o ∧ o.toNat + len ≤ size := by
  obtain ⟨hc, o, ho, hfit⟩ := h
  obtain ⟨v, hv⟩ := exprConst_total (acc := vals) (e := e) (by rw [hn]; exact hc)
  have := evals_unique ho (exprConst_evals hi hv)
  subst this
  exact ⟨o, by unfold offsetOf; rw [hv]; rfl, hfit⟩

theorem tableInit_total : ∀ {fs : List Nat} {t : List Ref} {p : Nat}, p + fs.length ≤ t.length →
    ∃ t', tableInit t p fs = .ok t'
  | [], t, p, _ => ⟨t, rfl⟩
  | f :: fs, t, p, h => by
    simp only [List.length_cons] at h
    unfold tableInit
    rw [if_pos (by omega)]
    exact tableInit_total (by rw [List.length_set]; omega)

theorem initElem_total {M : Modul} {vals : List Global} (hi : Inits M.globals vals) (hn : vals.length = M.globals.length)
    {nf : Nat} {ts : List (List Ref)} {e : ModElem} (h1 : e.isFunc = true) (h2 : ∀ f ∈ e.idxes.getD [], f < nf)
    (h3 : ∀ k ex, e.active = some (k, ex) → ∃ t, ts[k]? = some t ∧ SegFits M t.length ex (e.idxes.getD []).length) :
    ∃ ts', initElem nf vals ts e = .ok ts' ∧ ts'.map List.length = ts.map List.length := by
  unfold initElem
  rw [if_neg (by simp [h1])]
  simp only
  rw [if_neg (by
    intro hany
    obtain ⟨f, hf, hx⟩ := List.any_eq_true.mp hany
    have := h2 f hf
    simp at hx; omega)]
  cases ha : e.active with
  | none => exact ⟨ts, rfl, rfl⟩
  | some p =>
    obtain ⟨k, ex⟩ := p
    obtain ⟨t, ht, hs⟩ := h3 k ex ha
    obtain ⟨o, ho, hfit⟩ := offsetOf_total hi hn hs
    obtain ⟨t', ht'⟩ := tableInit_total (fs := e.idxes.getD []) (t := t) (p := o.toNat) hfit
    simp only [ho, Res.bind_ok, ht, ht', Res.pure_eq]
    refine ⟨_, rfl, ?_⟩
    obtain ⟨hf, rfl⟩ := tableInit_ok ht'
    rw [List.map_set, place_length' hf]
    apply List.ext_getElem?
    intro i
    rw [List.getElem?_set]
    split
    · rename_i hki
      subst hki
      split
      · simp [ht]
      · rename_i hlt
        rw [List.getElem?_eq_none (by omega)]
    · rfl

theorem initElems_total {M : Modul} {vals : List Global} (hi : Inits M.globals vals) (hn : vals.length = M.globals.length)
    {nf : Nat} {szs : List Nat} : ∀ {es : List ModElem} {ts : List (List Ref)}, ts.map List.length = szs →
    (∀ e ∈ es, e.isFunc = true ∧ (∀ f ∈ e.idxes.getD [], f < nf) ∧
      ∀ k ex, e.active = some (k, ex) → ∃ n, szs[k]? = some n ∧ SegFits M n ex (e.idxes.getD []).length) →
    ∃ ts', initElems nf vals ts es = .ok ts' ∧ ts'.map List.length = szs
  | [], ts, hsz, _ => ⟨ts, rfl, hsz⟩
  | e :: es, ts, hsz, h => by
    obtain ⟨h1, h2, h3⟩ := h e (by simp)
    obtain ⟨ts1, hok, hlen⟩ := initElem_total hi hn (ts := ts) h1 h2 (by
      intro k ex ha
      obtain ⟨n, hn', hs⟩ := h3 k ex ha
      rw [← hsz, List.getElem?_map] at hn'
      cases ht : ts[k]? with
      | none => rw [ht] at hn'; cases hn'
      | some t => rw [ht] at hn'; cases hn'; exact ⟨t, rfl, hs⟩)
    unfold initElems
    rw [hok]
    simp only [Res.bind_ok]
    exact initElems_total hi hn (hlen.trans hsz) (fun x hx => h x (by simp [hx]))

theorem mem_init_total {m : Mem} {o : Nat} {bs : List Byte} (h : o + bs.length ≤ m.data.length) (hm : m.data.length < 2 ^ 32) :
    m.init o bs = .ok { m with data := place m.data ⟨o, bs⟩ } := by
  unfold Mem.init
  simp only
  rw [Nat.mod_eq_of_lt (by omega), if_pos ⟨by omega, h⟩]
  simp [overwrite, place]

theorem initDatas_total {M : Modul} {vals : List Global} (hi : Inits M.globals vals) (hn : vals.length = M.globals.length)
    {szs : List Nat} (hsmall : ∀ n ∈ szs, n < 2 ^ 32) : ∀ {ds : List ModData} {ms : List Mem},
    ms.map (fun m => m.data.length) = szs →
    (∀ d ∈ ds, ∀ k ex, d.active = some (k, ex) → ∃ n, szs[k]? = some n ∧ SegFits M n ex d.init.length) →
    ∃ ms', initDatas vals ms ds = .ok ms' ∧ ms'.map (fun m => m.data.length) = szs
  | [], ms, hsz, _ => ⟨ms, rfl, hsz⟩
  | d :: ds, ms, hsz, h => by
    have h3 := h d (by simp)
    have : ∃ ms1, initData vals ms d = .ok ms1 ∧ ms1.map (fun m => m.data.length) = szs := by
      unfold initData
      cases ha : d.active with
      | none => exact ⟨ms, rfl, hsz⟩
      | some p =>
        obtain ⟨k, ex⟩ := p
        obtain ⟨n, hn', hs⟩ := h3 k ex ha
        have hlt := hsmall n (List.mem_of_getElem? hn')
        rw [← hsz, List.getElem?_map] at hn'
        cases ht : ms[k]? with
        | none => rw [ht] at hn'; cases hn'
        | some m =>
          rw [ht] at hn'
          have hmn : m.data.length = n := Option.some.inj hn'
          rw [← hmn] at hs hlt
          obtain ⟨o, ho, hfit⟩ := offsetOf_total hi hn hs
          have hmi := mem_init_total (m := m) (o := o.toNat) (bs := d.init) hfit hlt
          simp only [ho, Res.bind_ok, ht, hmi, Res.pure_eq]
          refine ⟨_, rfl, ?_⟩
          rw [List.map_set, ← hsz]
          apply List.ext_getElem?
          intro i
          rw [List.getElem?_set]
          split
          · rename_i hki
            subst hki
            split
            · simp only [List.getElem?_map, ht, Option.map_some]
              rw [place_length hfit]
            · rename_i hlt
              rw [List.getElem?_eq_none (by omega)]
          · rfl
    obtain ⟨ms1, hok, hlen⟩ := this
    unfold initDatas
    rw [hok]
    simp only [Res.bind_ok]
    exact initDatas_total hi hn hsmall hlen (fun x hx => h x (by simp [hx]))

theorem linkImports_total : ∀ {is : List (String × String × ImportDesc)}, (∀ i ∈ is, ∃ w, i.2.2 = .wasi w) →
    ∃ fs, linkImports is = .ok fs
  | [], _ => ⟨[], rfl⟩
  | (m, n, d) :: is, h => by
    obtain ⟨w, hw⟩ := h _ (List.mem_cons_self)
    simp only at hw; subst hw
    obtain ⟨fs, hfs⟩ := linkImports_total (is := is) (fun i hi => h i (by simp [hi]))
    exact ⟨.wasi w.type w.id :: fs, by simp [linkImports, hfs]⟩

theorem replaceFuncs_total {types : List FuncType} : ∀ {fs : List ModFunc}, (∀ f ∈ fs, f.ti < types.length) →
    ∃ rs, replaceFuncs types fs = .ok rs
  | [], _ => ⟨[], rfl⟩
  | f :: fs, h => by
    obtain ⟨rs, hrs⟩ := replaceFuncs_total (fs := fs) (fun g hg => h g (by simp [hg]))
    have hf := h f (by simp)
    refine ⟨.runtime types[f.ti] f.code :: rs, ?_⟩
    simp [replaceFuncs, List.getElem?_eq_getElem hf, hrs]

theorem inits_nil (gs : List (Bool × Cls × CExpr)) : Inits gs [] := by
  intro i gl h; simp at h

theorem mem_new_length {p : BitVec 32} {mx : Option (BitVec 32)} (h : p.toNat < 65536) :
    (Mem.new p mx).data.length = memBytes p := by
  simp only [Mem.new, List.length_replicate, memBytes, BitVec.toNat_mul]
  rw [show (65536#32).toNat = 65536 from rfl, Nat.mod_eq_of_lt (by omega)]

theorem instantiate_total {M : Modul} (h : Instantiable M) : ∃ L, instantiate M = .ok L := by
  obtain ⟨imported, hI⟩ := linkImports_total h.imports
  have hIl := (linkImports_ok hI).1
  obtain ⟨vals, hG⟩ := initGlobals_total h.globals (pre := []) (acc := []) (gs := M.globals) rfl rfl
  obtain ⟨hi, hn⟩ := initGlobals_ok (pre := []) rfl rfl (inits_nil _) hG
  obtain ⟨tables, hT, hTl⟩ := initElems_total hi hn (nf := imported.length + M.funcs.length)
    (szs := M.tables.map (·.toNat)) (es := M.elems) (ts := M.tables.map fun n => List.replicate n.toNat Ref.null)
    (by simp [List.map_map, Function.comp_def]) (by
      intro e he
      obtain ⟨h1, h2, h3⟩ := h.elems e he
      refine ⟨h1, by rw [hIl]; exact h2, ?_⟩
      intro k ex ha
      obtain ⟨n, hk, hs⟩ := h3 k ex ha
      exact ⟨n.toNat, by simp [hk], hs⟩)
  obtain ⟨mems, hMm, hMl⟩ := initDatas_total hi hn (szs := M.mems.map fun p => memBytes p.1)
    (by
      intro n hn'
      obtain ⟨p, hp, rfl⟩ := List.mem_map.mp hn'
      have := h.mems p hp
      simp only [memBytes]; omega)
    (ds := M.datas) (ms := M.mems.map fun p => Mem.new p.1 p.2)
    (by
      rw [List.map_map]
      apply List.map_congr_left
      intro p hp
      exact mem_new_length (h.mems p hp))
    (by
      intro d hd k ex ha
      obtain ⟨p, hk, hs⟩ := h.datas d hd k ex ha
      exact ⟨memBytes p.1, by simp [hk], hs⟩)
  obtain ⟨own, hO⟩ := replaceFuncs_total h.types
  have hlt : tables.length = M.tables.length := by simpa using congrArg List.length hTl
  have hlm : mems.length = M.mems.length := by simpa using congrArg List.length hMl
  have hE : M.exports.all (fun e => exportOk (imported.length + M.funcs.length) tables.length mems.length vals.length e.2)
      = true := by
    rw [List.all_eq_true]
    intro e he
    rw [hIl, hlt, hlm, hn]
    have := h.exports e he
    cases hx : e.2 <;> rw [hx] at this <;> first | exact this.elim | simpa [exportOk] using this
  have hS : startOk (imported.length + M.funcs.length) M.start = true := by
    cases hs : M.start with
    | none => rfl
    | some f => rw [hIl]; simpa [startOk] using h.start f hs
  exact ⟨_, by
    unfold instantiate
    simp only [hI, hG, hT, hMm, hO, Res.bind_ok, hE, hS, if_true, Res.pure_eq]; rfl⟩

end Verif.Props
