import Verif.Spec.Module
/- Facts about instantiation. -/
namespace Verif.Props
open Verif.Spec Verif.Model

/-- the instance globals are the declared ones with their values -/
def Inits (gs : List (Bool × Cls × CExpr)) (vals : List Global) : Prop :=
  ∀ (i : Nat) (gl : Global), vals[i]? = some gl → ∃ m c e, gs[i]? = some (m, c, e) ∧ Evals gs e gl.value ∧ gl.mutable_ = m

theorem exprConst_evals {gs : List (Bool × Cls × CExpr)} {acc : List Global} (hi : Inits gs acc) {e : CExpr} {v : Val}
    (h : exprConst acc e = .ok (some v)) : Evals gs e v := by
  rcases e with _ | ⟨o, _ | ⟨o', r⟩⟩
  · cases h
  · cases o with
    | i32 v =>
      have h' : some (⟨.i32, v⟩ : Val) = some _ := Res.ok.inj h
      rw [← Option.some.inj h']; exact .i32 _
    | i64 v =>
      have h' : some (⟨.i64, v⟩ : Val) = some _ := Res.ok.inj h
      rw [← Option.some.inj h']; exact .i64 _
    | f32 v =>
      have h' : some (⟨.f32, v⟩ : Val) = some _ := Res.ok.inj h
      rw [← Option.some.inj h']; exact .f32 _
    | f64 v =>
      have h' : some (⟨.f64, v⟩ : Val) = some _ := Res.ok.inj h
      rw [← Option.some.inj h']; exact .f64 _
    | refNull =>
      have h' : some (⟨.ref, Ref.null⟩ : Val) = some _ := Res.ok.inj h
      rw [← Option.some.inj h']; exact .null
    | refFunc f => cases h
    | other => cases h
    | globalGet g =>
      have hx : exprConst acc [.globalGet g] = match acc[g]? with | some gl => .ok (some gl.value) | none => .panic := rfl
      rw [hx] at h
      cases hg : acc[g]? with
      | none => rw [hg] at h; exact absurd h (by intro h; nomatch h)
      | some gl =>
        rw [hg] at h
        have h' : some gl.value = some v := Res.ok.inj h
        obtain ⟨m, c, e, h1, h2, _⟩ := hi _ _ hg
        rw [← Option.some.inj h']
        exact .global h1 h2
  · cases o <;> cases h

theorem offsetOf_evals {gs : List (Bool × Cls × CExpr)} {acc : List Global} (hi : Inits gs acc) {e : CExpr} {o : BitVec 32}
    (h : offsetOf acc e = .ok o) : Evals gs e ⟨.i32, o⟩ := by
  unfold offsetOf at h
  cases hc : exprConst acc e with
  | ok r =>
    rw [hc] at h
    cases r with
    | none => simp at h
    | some v =>
      simp only [Res.bind_ok] at h
      have := exprConst_evals hi hc
      obtain ⟨c, x⟩ := v
      cases c <;> simp [Val.toI32] at h
      subst h; exact this
  | trap e => rw [hc] at h; simp at h
  | panic => rw [hc] at h; simp at h
  | ub => rw [hc] at h; simp at h

theorem initGlobals_ok {full : List (Bool × Cls × CExpr)} : ∀ {gs pre : List (Bool × Cls × CExpr)} {acc vals : List Global},
    full = pre ++ gs → acc.length = pre.length → Inits full acc → initGlobals acc gs = .ok vals →
    Inits full vals ∧ vals.length = full.length
  | [], pre, acc, vals, hf, hl, hi, h => by
    simp only [initGlobals] at h; cases h
    exact ⟨hi, by rw [hf]; simpa using hl⟩
  | (m, c, e) :: gs, pre, acc, vals, hf, hl, hi, h => by
    unfold initGlobals at h
    cases hc : exprConst acc e with
    | ok r =>
      rw [hc] at h
      cases r with
      | none => simp at h
      | some v =>
        simp only [Res.bind_ok] at h
        refine initGlobals_ok (pre := pre ++ [(m, c, e)]) (by simp [hf]) (by simp [hl]) ?_ h
        intro i gl hg
        rw [List.getElem?_append] at hg
        split at hg
        · exact hi i gl hg
        · rename_i hlt
          rw [List.getElem?_singleton] at hg
          split at hg
          · cases hg
            have : i = pre.length := by omega
            subst this
            exact ⟨m, c, e, by rw [hf]; simp, exprConst_evals hi hc, rfl⟩
          · cases hg
    | trap e => rw [hc] at h; simp at h
    | panic => rw [hc] at h; simp at h
    | ub => rw [hc] at h; simp at h

/-! ### Writing segments -/

/-- write one segment over a list -/
def place {α : Type} (l : List α) (s : Seg α) : List α := l.take s.off ++ s.items ++ l.drop (s.off + s.items.length)

theorem place_length {α : Type} {l : List α} {s : Seg α} (h : s.off + s.items.length ≤ l.length) : (place l s).length = l.length := by
  simp [place]; omega

theorem place_get {α : Type} {l : List α} {s : Seg α} (h : s.off + s.items.length ≤ l.length) (i : Nat) :
    (place l s)[i]? = if s.off ≤ i ∧ i < s.off + s.items.length then s.items[i - s.off]? else l[i]? := by
  unfold place
  rw [List.append_assoc, List.getElem?_append]
  have h0 : (l.take s.off).length = s.off := by simp; omega
  rw [h0]
  split
  · rename_i hi
    rw [if_neg (by omega), List.getElem?_take]; simp [hi]
  · rename_i hi
    rw [List.getElem?_append]
    split
    · rw [if_pos (by omega)]
    · rw [if_neg (by omega), List.getElem?_drop]
      congr 1; omega

theorem place_empty {α : Type} (l : List α) {s : Seg α} (h : s.items = []) : place l s = l := by
  simp [place, h]

/-- a segment that can be written: it fits, or has nothing to write -/
def Seg.Fits {α : Type} (n : Nat) (s : Seg α) : Prop := s.items = [] ∨ s.off + s.items.length ≤ n

theorem place_length' {α : Type} {l : List α} {s : Seg α} (h : Seg.Fits l.length s) : (place l s).length = l.length := by
  rcases h with h | h
  · rw [place_empty l h]
  · exact place_length h

theorem place_get' {α : Type} {l : List α} {s : Seg α} (h : Seg.Fits l.length s) (i : Nat) :
    (place l s)[i]? = if s.off ≤ i ∧ i < s.off + s.items.length then s.items[i - s.off]? else l[i]? := by
  rcases h with h | h
  · rw [place_empty l h, if_neg (by simp [h])]
  · exact place_get h i

/-- what a position holds after writing segments over `l` -/
def ShowsOver {α : Type} (l : List α) (segs : List (Seg α)) (i : Nat) (a : α) : Prop :=
  (∃ pre s post, segs = pre ++ s :: post ∧ s.Covers i ∧ s.items[i - s.off]? = some a ∧ ∀ t ∈ post, ¬ t.Covers i) ∨
  ((∀ s ∈ segs, ¬ s.Covers i) ∧ l[i]? = some a)

theorem shows_foldl {α : Type} : ∀ {segs : List (Seg α)} {l : List α}, (∀ s ∈ segs, Seg.Fits l.length s) →
    (segs.foldl place l).length = l.length ∧ ∀ {i : Nat} {a : α}, (segs.foldl place l)[i]? = some a → ShowsOver l segs i a
  | [], l, _ => ⟨rfl, fun h => .inr ⟨by simp, h⟩⟩
  | s :: segs, l, hf => by
    have hs : Seg.Fits l.length s := hf s (by simp)
    obtain ⟨h1, h2⟩ := shows_foldl (segs := segs) (l := place l s)
      (by intro t ht; rw [place_length' hs]; exact hf t (by simp [ht]))
    refine ⟨by rw [List.foldl_cons, h1, place_length' hs], ?_⟩
    intro i a h
    rcases h2 (by rw [List.foldl_cons] at h; exact h) with ⟨pre, t, post, he, hc, ha, hn⟩ | ⟨hn, ha⟩
    · exact .inl ⟨s :: pre, t, post, by simp [he], hc, ha, hn⟩
    · rw [place_get' hs] at ha
      split at ha
      · rename_i hc
        exact .inl ⟨[], s, segs, rfl, hc, ha, hn⟩
      · rename_i hc
        refine .inr ⟨?_, ha⟩
        intro t ht
        rcases List.mem_cons.mp ht with rfl | ht
        · exact hc
        · exact hn t ht

theorem shows_replicate {α : Type} {d : α} {n : Nat} {segs : List (Seg α)} {i : Nat} {a : α}
    (h : ShowsOver (List.replicate n d) segs i a) : Shows d segs i a := by
  rcases h with h | ⟨h1, h2⟩
  · exact .inl h
  · refine .inr ⟨h1, ?_⟩
    rw [List.getElem?_replicate] at h2
    split at h2
    · cases h2; rfl
    · cases h2

/-- the specification leaves no freedom -/
theorem shows_unique {α : Type} {d : α} {segs : List (Seg α)} {i : Nat} {a b : α} (ha : Shows d segs i a)
    (hb : Shows d segs i b) : a = b := by
  have hmem : ∀ {pre : List (Seg α)} {s : Seg α} {post : List (Seg α)}, segs = pre ++ s :: post → s ∈ segs := by
    intro pre s post h; rw [h]; simp
  rcases ha with ⟨p, s, q, e, hc, h, hn⟩ | ⟨hn, h⟩ <;> rcases hb with ⟨p', s', q', e', hc', h', hn'⟩ | ⟨hn', h'⟩
  · rw [e] at e'
    rcases List.append_eq_append_iff.mp e' with ⟨w, h1, h2⟩ | ⟨w, h1, h2⟩
    · cases w with
      | nil =>
        simp only [List.nil_append] at h2
        injection h2 with h3 _; subst h3
        rw [h] at h'; cases h'; rfl
      | cons x xs =>
        injection h2 with h3 h4
        exact absurd hc' (hn s' (by rw [h4]; simp))
    · cases w with
      | nil =>
        simp only [List.nil_append] at h2
        injection h2 with h3 _; subst h3
        rw [h] at h'; cases h'; rfl
      | cons x xs =>
        injection h2 with h3 h4
        exact absurd hc (hn' s (by rw [h4]; simp))
  · exact absurd hc (hn' _ (hmem e))
  · exact absurd hc' (hn _ (hmem e'))
  · rw [h, h']

/-! ### Data segments -/

theorem mem_init_ok {m m' : Mem} {o : Nat} {bs : List Byte} (hl : bs.length < 2 ^ 32) (ho : o < 2 ^ 32)
    (h : m.init o bs = .ok m') :
    o + bs.length ≤ m.data.length ∧ m'.data = place m.data ⟨o, bs⟩ ∧ m'.max = m.max := by
  unfold Mem.init at h
  simp only at h
  split at h
  · rename_i hc
    cases h
    have : (o + bs.length) % 2 ^ 32 = o + bs.length := by
      rcases Nat.lt_or_ge (o + bs.length) (2 ^ 32) with h1 | h1
      · exact Nat.mod_eq_of_lt h1
      · exfalso
        have := Nat.mod_eq_sub_mod h1
        have h2 : (o + bs.length - 2 ^ 32) < 2 ^ 32 := by omega
        rw [Nat.mod_eq_of_lt h2] at this
        omega
    rw [this] at hc
    exact ⟨hc.2, by simp [overwrite, place], rfl⟩
  · cases h

theorem initData_ok {gs : List (Bool × Cls × CExpr)} {vals : List Global} (hi : Inits gs vals) {ms ms' : List Mem} {d : ModData}
    (hl : d.init.length < 2 ^ 32) (h : initData vals ms d = .ok ms') :
    (d.active = none ∧ ms' = ms) ∨
    ∃ k e o m m', d.active = some (k, e) ∧ Evals gs e ⟨.i32, o⟩ ∧ ms[k]? = some m ∧ ms' = ms.set k m' ∧
      o.toNat + d.init.length ≤ m.data.length ∧ m'.data = place m.data ⟨o.toNat, d.init⟩ ∧ m'.max = m.max := by
  unfold initData at h
  cases ha : d.active with
  | none => rw [ha] at h; cases h; exact .inl ⟨rfl, rfl⟩
  | some p =>
    obtain ⟨k, e⟩ := p
    rw [ha] at h
    simp only at h
    cases ho : offsetOf vals e with
    | ok o =>
      rw [ho] at h
      simp only [Res.bind_ok] at h
      split at h
      · cases h
      · rename_i m hm
        cases hmi : m.init o.toNat d.init with
        | ok m' =>
          rw [hmi] at h
          simp only [Res.bind_ok, Res.pure_eq] at h
          cases h
          obtain ⟨h1, h2, h3⟩ := mem_init_ok hl o.isLt hmi
          exact .inr ⟨k, e, o, m, m', rfl, offsetOf_evals hi ho, hm, rfl, h1, h2, h3⟩
        | trap e => rw [hmi] at h; simp at h
        | panic => rw [hmi] at h; simp at h
        | ub => rw [hmi] at h; simp at h
    | trap e => rw [ho] at h; simp at h
    | panic => rw [ho] at h; simp at h
    | ub => rw [ho] at h; simp at h

theorem initDatas_ok {gs : List (Bool × Cls × CExpr)} {vals : List Global} (hi : Inits gs vals) (k : Nat) :
    ∀ {ds : List ModData} {ms ms' : List Mem}, (∀ d ∈ ds, d.init.length < 2 ^ 32) → initDatas vals ms ds = .ok ms' →
    ms'.length = ms.length ∧
    ∃ segs, ActiveData gs k ds segs ∧
      ∀ m, ms[k]? = some m → (∀ s ∈ segs, s.off + s.items.length ≤ m.data.length) ∧
        ∃ m', ms'[k]? = some m' ∧ m'.data = segs.foldl place m.data ∧ m'.max = m.max
  | [], ms, ms', _, h => by
    cases h
    exact ⟨rfl, [], .nil, fun m hm => ⟨by simp, m, hm, rfl, rfl⟩⟩
  | d :: ds, ms, ms', hl, h => by
    unfold initDatas at h
    cases h1 : initData vals ms d with
    | ok ms1 =>
      rw [h1] at h
      simp only [Res.bind_ok] at h
      obtain ⟨hlen, segs, hA, hS⟩ := initDatas_ok hi k (fun d hd => hl d (by simp [hd])) h
      rcases initData_ok hi (hl d (by simp)) h1 with ⟨hn, rfl⟩ | ⟨j, e, o, m0, m1, ha, he, hm0, rfl, hfit, hdat, hmax⟩
      · exact ⟨hlen, segs, .passive hn hA, hS⟩
      · refine ⟨by simpa using hlen, ?_⟩
        by_cases hj : j = k
        · subst hj
          refine ⟨_, .active ha he hA, ?_⟩
          intro m hm
          rw [hm0] at hm; cases hm
          have hlt : j < ms.length := by
            rcases List.getElem?_eq_some_iff.mp hm0 with ⟨hh, _⟩; exact hh
          obtain ⟨h2, m', h3, h4, h5⟩ := hS m1 (by rw [List.getElem?_set]; simp [hlt])
          have hlen1 : m1.data.length = m0.data.length := by rw [hdat]; exact place_length hfit
          refine ⟨?_, m', h3, by rw [h4, hdat, List.foldl_cons], by rw [h5, hmax]⟩
          intro s hs
          rcases List.mem_cons.mp hs with rfl | hs
          · exact hfit
          · have := h2 s hs; omega
        · refine ⟨segs, .other ha hj hA, ?_⟩
          intro m hm
          exact hS m (by rw [List.getElem?_set, if_neg hj]; exact hm)
    | trap e => rw [h1] at h; simp at h
    | panic => rw [h1] at h; simp at h
    | ub => rw [h1] at h; simp at h

/-! ### Element segments -/

theorem tableInit_ok : ∀ {fs : List Nat} {t t' : List Ref} {p : Nat}, tableInit t p fs = .ok t' →
    Seg.Fits t.length ⟨p, fs.map Ref.func⟩ ∧ t' = place t ⟨p, fs.map Ref.func⟩
  | [], t, t', p, h => by
    simp only [tableInit] at h; cases h
    exact ⟨.inl rfl, by rw [place_empty]; rfl⟩
  | f :: fs, t, t', p, h => by
    unfold tableInit at h
    split at h
    · rename_i hlt
      obtain ⟨h1, h2⟩ := tableInit_ok h
      have hfit : p + (fs.length + 1) ≤ t.length := by
        rcases h1 with h1 | h1
        · have : fs = [] := by simpa using h1
          subst this; simp only [List.length_nil]; omega
        · simp at h1; omega
      refine ⟨.inr (by simpa using hfit), ?_⟩
      subst h2
      apply List.ext_getElem?
      intro i
      rw [place_get' h1, place_get (by simpa using hfit)]
      simp only [List.length_map, List.map_cons, List.length_cons]
      by_cases hip : i = p
      · subst hip
        rw [if_neg (by omega), if_pos (by omega), List.getElem?_set]
        simp [hlt]
      · by_cases hc : p ≤ i ∧ i < p + (fs.length + 1)
        · rw [if_pos (by omega), if_pos hc]
          have : i - p = (i - (p + 1)) + 1 := by omega
          rw [this, List.getElem?_cons_succ]
        · rw [if_neg (by omega), if_neg hc, List.getElem?_set, if_neg (by omega)]
    · cases h

theorem initElem_ok {gs : List (Bool × Cls × CExpr)} {vals : List Global} (hi : Inits gs vals) {nf : Nat}
    {ts ts' : List (List Ref)} {e : ModElem} (h : initElem nf vals ts e = .ok ts') :
    (∀ f ∈ e.idxes.getD [], f < nf) ∧
    ((e.active = none ∧ ts' = ts) ∨
    ∃ k ex o t, e.active = some (k, ex) ∧ Evals gs ex ⟨.i32, o⟩ ∧ ts[k]? = some t ∧
      Seg.Fits t.length ⟨o.toNat, (e.idxes.getD []).map Ref.func⟩ ∧
      ts' = ts.set k (place t ⟨o.toNat, (e.idxes.getD []).map Ref.func⟩)) := by
  unfold initElem at h
  split at h
  · cases h
  · simp only at h
    split at h
    · cases h
    · rename_i hidx
      have hnf : ∀ f ∈ e.idxes.getD [], f < nf := by
        intro f hf
        rcases Nat.lt_or_ge f nf with h1 | h1
        · exact h1
        · exact absurd (List.any_eq_true.mpr ⟨f, hf, by simpa using h1⟩) hidx
      refine ⟨hnf, ?_⟩
      cases ha : e.active with
      | none => rw [ha] at h; cases h; exact .inl ⟨rfl, rfl⟩
      | some p =>
        obtain ⟨k, ex⟩ := p
        rw [ha] at h
        simp only at h
        cases ho : offsetOf vals ex with
        | ok o =>
          rw [ho] at h
          simp only [Res.bind_ok] at h
          split at h
          · cases h
          · rename_i t ht
            cases hti : tableInit t o.toNat (e.idxes.getD []) with
            | ok t' =>
              rw [hti] at h
              simp only [Res.bind_ok, Res.pure_eq] at h
              cases h
              obtain ⟨h1, h2⟩ := tableInit_ok hti
              exact .inr ⟨k, ex, o, t, rfl, offsetOf_evals hi ho, ht, h1, by rw [h2]⟩
            | trap e => rw [hti] at h; simp at h
            | panic => rw [hti] at h; simp at h
            | ub => rw [hti] at h; simp at h
        | trap e => rw [ho] at h; simp at h
        | panic => rw [ho] at h; simp at h
        | ub => rw [ho] at h; simp at h

theorem initElems_ok {gs : List (Bool × Cls × CExpr)} {vals : List Global} (hi : Inits gs vals) {nf : Nat} (k : Nat) :
    ∀ {es : List ModElem} {ts ts' : List (List Ref)}, (∀ e ∈ es, e.idxes ≠ none) → initElems nf vals ts es = .ok ts' →
    ts'.length = ts.length ∧ (∀ e ∈ es, ∀ f ∈ e.idxes.getD [], f < nf) ∧
    ∃ segs, ActiveElems gs k es segs ∧
      ∀ t, ts[k]? = some t → (∀ s ∈ segs, Seg.Fits t.length s) ∧ ts'[k]? = some (segs.foldl place t)
  | [], ts, ts', _, h => by
    cases h
    exact ⟨rfl, by simp, [], .nil, fun t ht => ⟨by simp, ht⟩⟩
  | e :: es, ts, ts', hx, h => by
    unfold initElems at h
    cases h1 : initElem nf vals ts e with
    | ok ts1 =>
      rw [h1] at h
      simp only [Res.bind_ok] at h
      obtain ⟨hlen, hnf, segs, hA, hS⟩ := initElems_ok hi k (fun e he => hx e (by simp [he])) h
      obtain ⟨hne, hcase⟩ := initElem_ok hi h1
      have hnf' : ∀ x ∈ e :: es, ∀ f ∈ x.idxes.getD [], f < nf := by
        intro x hxm
        rcases List.mem_cons.mp hxm with rfl | hxm
        · exact hne
        · exact hnf x hxm
      rcases hcase with ⟨hn, rfl⟩ | ⟨j, ex, o, t0, ha, he, ht0, hfit, rfl⟩
      · exact ⟨hlen, hnf', segs, .passive hn hA, hS⟩
      · refine ⟨by simpa using hlen, hnf', ?_⟩
        by_cases hj : j = k
        · subst hj
          cases hidx : e.idxes with
          | none => exact absurd hidx (hx e (by simp))
          | some fs =>
            rw [hidx] at hfit hS
            simp only [Option.getD_some] at hfit hS
            refine ⟨_, .active ha hidx he hA, ?_⟩
            intro t ht
            rw [ht0] at ht; cases ht
            have hlt : j < ts.length := by
              rcases List.getElem?_eq_some_iff.mp ht0 with ⟨hh, _⟩; exact hh
            obtain ⟨h2, h3⟩ := hS _ (by rw [List.getElem?_set]; simp only [hlt, if_true]; rfl)
            refine ⟨?_, by rw [h3, List.foldl_cons]⟩
            intro s hs
            rcases List.mem_cons.mp hs with rfl | hs
            · exact hfit
            · have := h2 s hs
              rwa [place_length' hfit] at this
        · refine ⟨segs, .other ha hj hA, ?_⟩
          intro t ht
          exact hS t (by rw [List.getElem?_set, if_neg hj]; exact ht)
    | trap e => rw [h1] at h; simp at h
    | panic => rw [h1] at h; simp at h
    | ub => rw [h1] at h; simp at h

/-! ### Functions -/

theorem linkImports_ok : ∀ {is : List (String × String × ImportDesc)} {fs : List FuncInst}, linkImports is = .ok fs →
    fs.length = is.length ∧ ∀ (i : Nat) (m n : String) (d : ImportDesc), is[i]? = some (m, n, d) → ∃ w : WasiFn, d = .wasi w ∧ fs[i]? = some (.wasi w.type w.id)
  | [], fs, h => by cases h; exact ⟨rfl, by simp⟩
  | (m, n, d) :: is, fs, h => by
    unfold linkImports at h
    cases d with
    | wasi w =>
      simp only at h
      cases h1 : linkImports is with
      | ok gs =>
        rw [h1] at h
        simp only [Res.bind_ok, Res.pure_eq] at h
        cases h
        obtain ⟨hl, hg⟩ := linkImports_ok h1
        refine ⟨by simp [hl], ?_⟩
        intro i m' n' d' hi
        cases i with
        | zero => simp only [List.getElem?_cons_zero] at hi; cases hi; exact ⟨w, rfl, rfl⟩
        | succ i =>
          rw [List.getElem?_cons_succ] at hi ⊢
          exact hg i m' n' d' hi
      | trap e => rw [h1] at h; simp at h
      | panic => rw [h1] at h; simp at h
      | ub => rw [h1] at h; simp at h
    | func ti => cases h
    | table => cases h
    | mem => cases h
    | global c => cases h

theorem replaceFuncs_ok {types : List FuncType} : ∀ {fs : List ModFunc} {rs : List FuncInst}, replaceFuncs types fs = .ok rs →
    rs.length = fs.length ∧ ∀ (i : Nat) (f : ModFunc), fs[i]? = some f → ∃ t, types[f.ti]? = some t ∧ rs[i]? = some (.runtime t f.code)
  | [], rs, h => by cases h; exact ⟨rfl, by simp⟩
  | f :: fs, rs, h => by
    unfold replaceFuncs at h
    cases ht : types[f.ti]? with
    | none => rw [ht] at h; cases h
    | some t =>
      rw [ht] at h
      simp only at h
      cases h1 : replaceFuncs types fs with
      | ok gs =>
        rw [h1] at h
        simp only [Res.bind_ok, Res.pure_eq] at h
        cases h
        obtain ⟨hl, hg⟩ := replaceFuncs_ok h1
        refine ⟨by simp [hl], ?_⟩
        intro i f' hi
        cases i with
        | zero => simp only [List.getElem?_cons_zero] at hi; cases hi; exact ⟨t, ht, rfl⟩
        | succ i =>
          rw [List.getElem?_cons_succ] at hi ⊢
          exact hg i f' hi
      | trap e => rw [h1] at h; simp at h
      | panic => rw [h1] at h; simp at h
      | ub => rw [h1] at h; simp at h

/-- the pieces of a successful instantiation -/
structure Parts (M : Modul) (L : Loaded) : Prop where
  parts : ∃ imported own tables mems,
    linkImports M.imports = .ok imported ∧
    initGlobals [] M.globals = .ok L.inst.globals ∧
    initElems (imported.length + M.funcs.length) L.inst.globals (M.tables.map fun n => List.replicate n.toNat Ref.null) M.elems
      = .ok tables ∧
    initDatas L.inst.globals (M.mems.map fun p => Mem.new p.1 p.2) M.datas = .ok mems ∧
    M.exports.all (fun e => exportOk (imported.length + M.funcs.length) tables.length mems.length L.inst.globals.length e.2)
      = true ∧
    replaceFuncs M.types M.funcs = .ok own ∧
    startOk (imported.length + M.funcs.length) M.start = true ∧
    L.prog = { types := M.types, funcs := imported ++ own } ∧
    L.inst.mem = mems.head? ∧ L.inst.tables = tables ∧ L.inst.datas = M.datas.map (·.init) ∧ L.inst.memGen = 0 ∧
    L.exports = M.exports ∧ L.hasWasi = M.needsWasi

theorem bind_eq_ok {α β : Type} {x : Res α} {f : α → Res β} {b : β} (h : (x >>= f) = .ok b) : ∃ a, x = .ok a ∧ f a = .ok b := by
  cases x with
  | ok a => exact ⟨a, rfl, h⟩
  | trap e => simp at h
  | panic => simp at h
  | ub => simp at h

theorem instantiate_parts {M : Modul} {L : Loaded} (h : instantiate M = .ok L) : Parts M L := by
  unfold instantiate at h
  obtain ⟨imported, h1, h⟩ := bind_eq_ok h
  obtain ⟨globals, h2, h⟩ := bind_eq_ok h
  obtain ⟨tables, h3, h⟩ := bind_eq_ok h
  obtain ⟨mems, h4, h⟩ := bind_eq_ok h
  split at h
  · rename_i h5
    obtain ⟨own, h6, h⟩ := bind_eq_ok h
    split at h
    · rename_i h7
      simp only [Res.pure_eq] at h
      cases h
      exact ⟨imported, own, tables, mems, h1, h2, h3, h4, h5, h6, h7, rfl, rfl, rfl, rfl, rfl, rfl, rfl⟩
    · cases h
  · cases h

end Verif.Props
