import Verif.Lemmas.ModuleOk
/- C33 (segments), C34 (exports), C37 (start function). -/
namespace Verif.Props
open Verif.Spec Verif.Model

/-! ## C33: data segments -/

/-- C33. In an instance, memory 0 has its declared size, every active data segment fits, and every byte is the one the last
segment covering it puts there, or zero. -/
theorem data_segments_written {M : Modul} {L : Loaded} (h : instantiate M = .ok L)
    (hlen : ∀ d ∈ M.datas, d.init.length < 2 ^ 32) :
    ∃ segs, ActiveData M.globals 0 M.datas segs ∧
      (L.inst.mem = none ↔ M.mems = []) ∧
      ∀ m, L.inst.mem = some m → ∃ p, M.mems[0]? = some p ∧ m.max = p.2 ∧
        (p.1.toNat < 65536 → m.data.length = memBytes p.1) ∧
        (∀ s ∈ segs, s.off + s.items.length ≤ m.data.length) ∧
        ∀ i b, m.data[i]? = some b → Shows 0 segs i b := by
  obtain ⟨imported, own, tables, mems, h1, h2, h3, h4, h5, h6, h7, h8, h9, _⟩ := (instantiate_parts h).parts
  obtain ⟨hi, hn⟩ := initGlobals_ok (pre := []) rfl rfl (inits_nil _) h2
  obtain ⟨hl, segs, hA, hS⟩ := initDatas_ok hi 0 hlen h4
  refine ⟨segs, hA, ?_, ?_⟩
  · rw [h9, List.head?_eq_none_iff, ← List.length_eq_zero_iff, hl, List.length_map, List.length_eq_zero_iff]
  · intro m hm
    rw [h9, List.head?_eq_getElem?] at hm
    have hlt : 0 < M.mems.length := by
      rcases List.getElem?_eq_some_iff.mp hm with ⟨hh, _⟩
      rw [hl, List.length_map] at hh; exact hh
    refine ⟨M.mems[0], List.getElem?_eq_getElem hlt, ?_⟩
    obtain ⟨hf, m', hm', hd, hmax⟩ := hS (Mem.new (M.mems[0]).1 (M.mems[0]).2)
      (by rw [List.getElem?_map, List.getElem?_eq_getElem hlt]; rfl)
    rw [hm] at hm'; cases hm'
    obtain ⟨hlen', hsh⟩ := shows_foldl (segs := segs) (l := (Mem.new (M.mems[0]).1 (M.mems[0]).2).data)
      (fun s hs => .inr (hf s hs))
    rw [← hd] at hlen' hsh
    refine ⟨hmax, fun hp => by rw [hlen', mem_new_length hp], fun s hs => by rw [hlen']; exact hf s hs, ?_⟩
    intro i b hb
    exact shows_replicate (hsh hb)

theorem activeData_mem {gs : List (Bool × Cls × CExpr)} {k : Nat} {ds : List ModData} {segs : List (Seg Byte)}
    (h : ActiveData gs k ds segs) {d : ModData} (hd : d ∈ ds) {e : CExpr} (ha : d.active = some (k, e)) {o : BitVec 32}
    (he : Evals gs e ⟨.i32, o⟩) : ⟨o.toNat, d.init⟩ ∈ segs := by
  induction h with
  | nil => cases hd
  | passive hn h ih =>
    rcases List.mem_cons.mp hd with rfl | hd
    · rw [hn] at ha; cases ha
    · exact ih hd
  | other hn hj h ih =>
    rcases List.mem_cons.mp hd with rfl | hd
    · rw [hn] at ha; cases ha; exact absurd rfl hj
    · exact ih hd
  | active hn he' h ih =>
    rcases List.mem_cons.mp hd with rfl | hd
    · rw [hn] at ha; cases ha
      have := evals_unique he he'
      injection this with _ hh
      rw [hh]; simp
    · exact List.mem_cons_of_mem _ (ih hd)

/-- C33. A data segment that does not fit its memory: there is no instance. -/
theorem data_segment_misfit {M : Modul} (hlen : ∀ d ∈ M.datas, d.init.length < 2 ^ 32) {d : ModData} (hd : d ∈ M.datas)
    {k : Nat} {e : CExpr} (ha : d.active = some (k, e)) {o : BitVec 32} (he : Evals M.globals e ⟨.i32, o⟩)
    (hbad : ∀ p, M.mems[k]? = some p → memBytes p.1 < o.toNat + d.init.length) (L : Loaded) : instantiate M ≠ .ok L := by
  intro h
  obtain ⟨imported, own, tables, mems, h1, h2, h3, h4, _⟩ := (instantiate_parts h).parts
  obtain ⟨hi, hn⟩ := initGlobals_ok (pre := []) rfl rfl (inits_nil _) h2
  obtain ⟨hl, segs, hA, hS⟩ := initDatas_ok hi k hlen h4
  have hmem := activeData_mem hA hd ha he
  cases hk : M.mems[k]? with
  | some p =>
    obtain ⟨hf, _⟩ := hS (Mem.new p.1 p.2) (by rw [List.getElem?_map, hk]; rfl)
    have h5 := hf _ hmem
    have h6 := hbad p hk
    have : (Mem.new p.1 p.2).data.length ≤ memBytes p.1 := by
      simp only [Mem.new, List.length_replicate, memBytes, BitVec.toNat_mul]
      exact Nat.mod_le _ _
    simp only at h5
    omega
  | none =>
    -- the segment's memory does not exist: its own step fails
    have : ∀ {ds : List ModData} {ms ms' : List Mem}, ms[k]? = none → (∀ x ∈ ds, x.init.length < 2 ^ 32) → d ∈ ds →
        initDatas L.inst.globals ms ds ≠ .ok ms' := by
      intro ds
      induction ds with
      | nil => intro ms ms' _ _ hd; cases hd
      | cons x xs ih =>
        intro ms ms' hms hx hd h
        rw [initDatas] at h
        obtain ⟨ms1, hs, h'⟩ := bind_eq_ok h
        clear h
        rcases initData_ok hi (hx x (by simp)) hs with ⟨hp, hms1⟩ | ⟨j, e', o', m0, m1, ha', _, hm0, hms1, _⟩ <;> subst hms1
        · rcases List.mem_cons.mp hd with rfl | hd
          · rw [hp] at ha; cases ha
          · exact ih hms (fun y hy => hx y (by simp [hy])) hd h'
        · rcases List.mem_cons.mp hd with rfl | hd
          · rw [ha'] at ha; cases ha; rw [hms] at hm0; cases hm0
          · refine ih ?_ (fun y hy => hx y (by simp [hy])) hd h'
            rw [List.getElem?_set]
            split
            · rename_i hjk; subst hjk; rw [hms] at hm0; cases hm0
            · exact hms
    exact this (by rw [List.getElem?_map, hk]; rfl) hlen hd h4

/-! ## C33: element segments -/

/-- C33 (partial: element segments given as function indices). In an instance every table has its declared size, every slot
holds the function the last segment covering it names, or null, and all named functions exist.
Missing: segments given as expressions, see `elem_expressions_violated`. -/
theorem elem_segments_written_partial {M : Modul} {L : Loaded} (h : instantiate M = .ok L)
    (hx : ∀ e ∈ M.elems, e.idxes ≠ none) :
    L.inst.tables.length = M.tables.length ∧ (∀ e ∈ M.elems, ∀ f ∈ e.idxes.getD [], f < L.prog.funcs.length) ∧
    ∀ k n, M.tables[k]? = some n → ∃ t segs, L.inst.tables[k]? = some t ∧ t.length = n.toNat ∧
      ActiveElems M.globals k M.elems segs ∧ (∀ s ∈ segs, s.items ≠ [] → s.off + s.items.length ≤ t.length) ∧
      ∀ i r, t[i]? = some r → Shows .null segs i r := by
  obtain ⟨imported, own, tables, mems, h1, h2, h3, h4, h5, h6, h7, h8, h9, h10, _⟩ := (instantiate_parts h).parts
  obtain ⟨hi, hn⟩ := initGlobals_ok (pre := []) rfl rfl (inits_nil _) h2
  have hfl : L.prog.funcs.length = imported.length + M.funcs.length := by
    rw [h8]; simp [(replaceFuncs_ok h6).1]
  refine ⟨?_, ?_, ?_⟩
  · rw [h10, (initElems_ok hi 0 hx h3).1, List.length_map]
  · rw [hfl]; exact (initElems_ok hi 0 hx h3).2.1
  · intro k n hk
    obtain ⟨hl, _, segs, hA, hS⟩ := initElems_ok hi k hx h3
    obtain ⟨hf, ht⟩ := hS (List.replicate n.toNat Ref.null) (by rw [List.getElem?_map, hk]; rfl)
    obtain ⟨hlen', hsh⟩ := shows_foldl hf
    refine ⟨_, segs, by rw [h10]; exact ht, by rw [hlen', List.length_replicate], hA, ?_, fun i r hr => shows_replicate (hsh hr)⟩
    intro s hs hne
    rw [hlen']
    rcases hf s hs with hh | hh
    · exact absurd hh hne
    · exact hh

theorem activeElems_mem {gs : List (Bool × Cls × CExpr)} {k : Nat} {ds : List ModElem} {segs : List (Seg Ref)}
    (h : ActiveElems gs k ds segs) {d : ModElem} (hd : d ∈ ds) {e : CExpr} (ha : d.active = some (k, e)) {o : BitVec 32}
    (he : Evals gs e ⟨.i32, o⟩) : ⟨o.toNat, (d.idxes.getD []).map Ref.func⟩ ∈ segs := by
  induction h with
  | nil => cases hd
  | passive hn h ih =>
    rcases List.mem_cons.mp hd with rfl | hd
    · rw [hn] at ha; cases ha
    · exact ih hd
  | other hn hj h ih =>
    rcases List.mem_cons.mp hd with rfl | hd
    · rw [hn] at ha; cases ha; exact absurd rfl hj
    · exact ih hd
  | active hn hf he' h ih =>
    rcases List.mem_cons.mp hd with rfl | hd
    · rw [hn] at ha; cases ha
      have := evals_unique he he'
      injection this with _ hh
      rw [hh, hf]; simp
    · exact List.mem_cons_of_mem _ (ih hd)

/-- C33. A non-empty element segment that does not fit its table: there is no instance. -/
theorem elem_segment_misfit {M : Modul} (hx : ∀ e ∈ M.elems, e.idxes ≠ none) {d : ModElem} (hd : d ∈ M.elems)
    {k : Nat} {e : CExpr} (ha : d.active = some (k, e)) {o : BitVec 32} (he : Evals M.globals e ⟨.i32, o⟩)
    (hne : d.idxes.getD [] ≠ []) {n : BitVec 32} (hk : M.tables[k]? = some n) (hbad : n.toNat < o.toNat + (d.idxes.getD []).length)
    (L : Loaded) : instantiate M ≠ .ok L := by
  intro h
  obtain ⟨_, _, h3⟩ := elem_segments_written_partial h hx
  obtain ⟨t, segs, ht, hlen, hA, hfit, _⟩ := h3 k n hk
  have := hfit _ (activeElems_mem hA hd ha he) (by simpa using hne)
  simp only [List.length_map] at this
  omega

/-- C33. The globals of an instance have their declared initial values. -/
theorem globals_initialised {M : Modul} {L : Loaded} (h : instantiate M = .ok L) :
    L.inst.globals.length = M.globals.length ∧
    ∀ (i : Nat) (gl : Global), L.inst.globals[i]? = some gl → ∃ m c e, M.globals[i]? = some (m, c, e) ∧ Evals M.globals e gl.value ∧
      gl.mutable_ = m := by
  obtain ⟨imported, own, tables, mems, h1, h2, _⟩ := (instantiate_parts h).parts
  obtain ⟨hi, hn⟩ := initGlobals_ok (pre := []) rfl rfl (inits_nil _) h2
  exact ⟨hn, hi⟩

/-- C33. Conversely, a module whose indices are in range and whose segments fit is instantiated (with only WASI imports and
without the unsupported constant expressions). -/
theorem instantiable_instantiates {M : Modul} (h : Instantiable M) : ∃ L, instantiate M = .ok L := instantiate_total h

/-! ### A module with overlapping segments -/

namespace ModEx

/-- one page, a constant offset and one taken from a global, overlapping -/
def twoSegs : Modul := { Modul.empty with
  mems := [(1, some 2)]
  globals := [(false, .i32, [.i32 6])]
  datas := [⟨[1, 2, 3, 4], some (0, [.i32 4])⟩, ⟨[9], none⟩, ⟨[7, 8], some (0, [.globalGet 0])⟩] }

theorem twoSegs_ok : Instantiable twoSegs where
  imports := by simp [twoSegs, Modul.empty]
  types := by simp [twoSegs, Modul.empty]
  mems := by simp [twoSegs]
  globals := by
    intro i m c e h
    rcases i with _ | i
    · simp [twoSegs] at h; obtain ⟨rfl, rfl, rfl⟩ := h; trivial
    · simp [twoSegs] at h
  elems := by simp [twoSegs, Modul.empty]
  datas := by
    intro d hd k ex ha
    simp only [twoSegs, List.mem_cons, List.not_mem_nil, or_false] at hd
    rcases hd with rfl | rfl | rfl
    · cases ha
      exact ⟨(1, some 2), rfl, trivial, 4, .i32 _, by decide⟩
    · cases ha
    · cases ha
      exact ⟨(1, some 2), rfl, by show 0 < 1; decide, 6, .global (by rfl) (.i32 _), by decide⟩
  exports := by simp [twoSegs, Modul.empty]
  start := by simp [twoSegs, Modul.empty]

theorem twoSegs_segs {segs : List (Seg Byte)} (hA : ActiveData twoSegs.globals 0 twoSegs.datas segs) :
    segs = [⟨4, [1, 2, 3, 4]⟩, ⟨6, [7, 8]⟩] := by
  cases hA with
  | active hd he hA =>
    cases hd
    have := evals_unique he (.i32 4)
    injection this with _ hh
    cases hh
    cases hA with
    | passive hd hA =>
      cases hA with
      | active hd he hA =>
        cases hd
        have := evals_unique he (.global (by rfl) (.i32 6))
        injection this with _ hh
        cases hh
        cases hA
        rfl
      | other hd hj _ => cases hd; exact absurd rfl hj
      | passive hd _ => cases hd
    | active hd _ _ => cases hd
    | other hd _ _ => cases hd
  | other hd hj _ => cases hd; exact absurd rfl hj
  | passive hd _ => cases hd

/-- the hypotheses of `data_segments_written` are met and its conclusion is informative: byte 6 is overwritten by the later
segment, byte 5 is not, byte 0 stays zero -/
example : ∃ L m, instantiate twoSegs = .ok L ∧ L.inst.mem = some m ∧ m.data.length = 65536 ∧
    m.data[6]? = some 7 ∧ m.data[5]? = some 2 ∧ m.data[0]? = some 0 := by
  obtain ⟨L, h⟩ := instantiable_instantiates twoSegs_ok
  obtain ⟨segs, hA, hnone, hm⟩ := data_segments_written h (by simp [twoSegs])
  cases hmem : L.inst.mem with
  | none => exact absurd (hnone.mp hmem) (by simp [twoSegs])
  | some m =>
    obtain ⟨p, hp, _, hsz, _, hsh⟩ := hm m hmem
    have hp' : p = (1, some 2) := by
      have : (twoSegs.mems)[0]? = some ((1 : BitVec 32), some (2 : BitVec 32)) := rfl
      rw [this] at hp; cases hp; rfl
    subst hp'
    have hlen : m.data.length = 65536 := hsz (by show 1 < 65536; omega)
    refine ⟨L, m, h, hmem, hlen, ?_⟩
    have hseg := twoSegs_segs hA
    subst hseg
    have hget : ∀ i, i < 65536 → ∃ b, m.data[i]? = some b := fun i hi =>
      ⟨m.data[i]'(by omega), List.getElem?_eq_getElem (by omega)⟩
    obtain ⟨b6, h6⟩ := hget 6 (by omega)
    obtain ⟨b5, h5⟩ := hget 5 (by omega)
    obtain ⟨b0, h0⟩ := hget 0 (by omega)
    refine ⟨?_, ?_, ?_⟩
    · refine h6.trans (congrArg some ?_)
      refine shows_unique (hsh 6 b6 h6) (.inl ⟨[⟨4, [1, 2, 3, 4]⟩], ⟨6, [7, 8]⟩, [], rfl, ⟨by decide, by decide⟩, rfl, by simp⟩)
    · refine h5.trans (congrArg some ?_)
      refine shows_unique (hsh 5 b5 h5)
        (.inl ⟨[], ⟨4, [1, 2, 3, 4]⟩, [⟨6, [7, 8]⟩], rfl, ⟨by decide, by decide⟩, rfl, ?_⟩)
      intro t ht
      simp only [List.mem_cons, List.not_mem_nil, or_false] at ht
      subst ht; simp [Seg.Covers]
    · refine h0.trans (congrArg some ?_)
      refine shows_unique (hsh 0 b0 h0) (.inr ⟨?_, rfl⟩)
      intro t ht
      simp only [List.mem_cons, List.not_mem_nil, or_false] at ht
      rcases ht with rfl | rfl <;> simp [Seg.Covers]

/-- a segment one byte too long for the memory: rejected -/
example (L : Loaded) : instantiate { Modul.empty with mems := [(0, none)], datas := [⟨[1], some (0, [.i32 0])⟩] } ≠ .ok L :=
  data_segment_misfit (by simp) (List.mem_cons_self) rfl (.i32 _) (by simp [memBytes]) L

/-- two functions, a table of three, a segment -/
def oneTable : Modul := { Modul.empty with
  types := [⟨[], []⟩], funcs := [stub 0, stub 0], tables := [3], elems := [⟨true, some [1, 0], some (0, [.i32 1])⟩] }

example : (match instantiate oneTable with | .ok L => L.inst.tables | _ => []) = [[.null, .func 1, .func 0]] := by
  decide +kernel

end ModEx

/-! ### Where it fails -/

/-- what an element segment of expressions should put at position `j` of its segment -/
def ExprItem (gs : List (Bool × Cls × CExpr)) (es : List CExpr) (j : Nat) (r : Ref) : Prop :=
  ∃ e, es[j]? = some e ∧ Evals gs e ⟨.ref, r⟩

/-- Finding (C33): an element segment written with expressions (`ref.func 0`) is accepted and ignored: the slot that should hold
function 0 stays null. -/
theorem elem_expressions_violated :
    ∃ (file : List Payload) (s : PSt) (L : Loaded) (es : List CExpr),
      Payload.elems [some (.exprs true es, .active none [.i32 0])] ∈ file ∧
      parseFile (some file) = .ok s ∧ instantiate s.m = .ok L ∧ ExprItem s.m.globals es 0 (.func 0) ∧
      L.inst.tables = [[.null]] := by
  refine ⟨[.types [some ⟨[], []⟩], .funcs [some 0], .tables [some (⟨1, none⟩, true)],
    .elems [some (.exprs true [[.refFunc 0]], .active none [.i32 0])], .code [] [.fin] false], _, _, [[.refFunc 0]], ?_, rfl, rfl,
    ⟨_, rfl, .func 0⟩, rfl⟩
  simp

/-- Finding (C33): an empty element segment whose offset lies outside the table is accepted; the specification has
instantiation fail. -/
theorem elem_empty_offset_violated :
    ∃ (M : Modul) (L : Loaded) (e : ModElem), e ∈ M.elems ∧ e.active = some (0, [.i32 5]) ∧ M.tables[0]? = some 1 ∧
      Evals M.globals [.i32 5] ⟨.i32, (5 : BitVec 32)⟩ ∧ instantiate M = .ok L :=
  ⟨{ Modul.empty with tables := [1], elems := [⟨true, some [], some (0, [.i32 5])⟩] }, _, _, List.mem_cons_self, rfl, rfl,
    .i32 _, rfl⟩

/-- Finding (C33): an active data segment keeps its bytes after instantiation; the specification drops it, so that a later
`memory.init` from it traps. -/
theorem active_data_kept_violated :
    ∃ (M : Modul) (L : Loaded), M.datas = [⟨[], some (0, [.i32 0])⟩, ⟨[], none⟩] ++ [⟨[5], some (0, [.globalGet 0])⟩] ∧
      instantiate M = .ok L ∧ L.inst.datas[2]? = some [5] := by
  obtain ⟨L, h⟩ := instantiable_instantiates (M := { Modul.empty with
      mems := [(1, none)], globals := [(false, .i32, [.i32 0])]
      datas := [⟨[], some (0, [.i32 0])⟩, ⟨[], none⟩, ⟨[5], some (0, [.globalGet 0])⟩] })
    { imports := by simp [Modul.empty], types := by simp [Modul.empty], mems := by simp, elems := by simp [Modul.empty]
      exports := by simp [Modul.empty], start := by simp [Modul.empty]
      globals := by
        intro i m c e h
        rcases i with _ | i
        · simp at h; obtain ⟨rfl, rfl, rfl⟩ := h; trivial
        · simp at h
      datas := by
        intro d hd k ex ha
        simp only [List.mem_cons, List.not_mem_nil, or_false] at hd
        rcases hd with rfl | rfl | rfl
        · cases ha; exact ⟨(1, none), rfl, trivial, 0, .i32 _, by decide⟩
        · cases ha
        · cases ha; exact ⟨(1, none), rfl, by show 0 < 1; decide, 0, .global (by rfl) (.i32 _), by decide⟩ }
  refine ⟨_, L, rfl, h, ?_⟩
  obtain ⟨_, _, _, _, _, _, _, _, _, _, _, _, _, _, h11, _⟩ := (instantiate_parts h).parts
  rw [h11]; rfl

/-- Finding (C33): a global initialised with `ref.func`, which the specification allows, makes instantiation fail. -/
theorem ref_func_init_violated :
    ∃ M : Modul, M.globals = [(false, .ref, [.refFunc 0])] ∧ M.funcs.length = 1 ∧
      Evals M.globals [.refFunc 0] ⟨.ref, Ref.func 0⟩ ∧ instantiate M = .trap .instantiateFailed :=
  ⟨{ Modul.empty with types := [⟨[], []⟩], funcs := [stub 0], globals := [(false, .ref, [.refFunc 0])] }, rfl, rfl, .func 0, rfl⟩

/-! ## C34: exports -/

theorem find_export {es : List (String × ExportTy)} (hd : (es.map (·.1)).Nodup) {name : String} {d : ExportTy}
    (h : (name, d) ∈ es) : es.find? (fun e => e.1 == name) = some (name, d) := by
  induction es with
  | nil => cases h
  | cons e es ih =>
    simp only [List.map_cons, List.nodup_cons] at hd
    rcases List.mem_cons.mp h with rfl | h
    · simp
    · rw [List.find?_cons_of_neg]
      · exact ih hd.2 h
      · intro he
        have : e.1 = name := by simpa using he
        exact hd.1 (List.mem_map.mpr ⟨_, h, this.symm⟩)

/-- C34. With the export names distinct (as validation demands), looking up a name finds exactly the function exported under
it. -/
theorem export_resolves {M : Modul} {L : Loaded} (h : instantiate M = .ok L) (hd : (M.exports.map (·.1)).Nodup)
    (name : String) (f : Nat) : L.exportFunc name = .ok f ↔ (name, .func f) ∈ M.exports := by
  obtain ⟨_, _, _, _, _, _, _, _, _, _, _, _, _, _, _, _, h13, _⟩ := (instantiate_parts h).parts
  unfold Loaded.exportFunc
  rw [h13]
  constructor
  · intro hf
    split at hf
    · rename_i n f' hfi
      cases hf
      have := List.find?_some hfi
      have hn : n = name := by simpa using this
      subst hn
      exact List.mem_of_find?_eq_some hfi
    · cases hf
  · intro hm
    rw [find_export hd hm]

/-- C34. A name under which no function is exported is reported as not found. -/
theorem export_missing {M : Modul} {L : Loaded} (h : instantiate M = .ok L) (name : String)
    (hno : ∀ f, (name, .func f) ∉ M.exports) : L.exportFunc name = .trap .exportNotFound := by
  obtain ⟨_, _, _, _, _, _, _, _, _, _, _, _, _, _, _, _, h13, _⟩ := (instantiate_parts h).parts
  unfold Loaded.exportFunc
  rw [h13]
  split
  · rename_i n f' hfi
    have := List.find?_some hfi
    have hn : n = name := by simpa using this
    subst hn
    exact absurd (List.mem_of_find?_eq_some hfi) (hno f')
  · rfl

/-- C34. What a name resolves to is the declared function: the import, or the module's own function with its declared type and
the preprocessed body of its code entry. -/
theorem funcs_are_declared {M : Modul} {L : Loaded} (h : instantiate M = .ok L) :
    L.prog.types = M.types ∧ L.prog.funcs.length = M.imports.length + M.funcs.length ∧
    ∀ i F, L.prog.funcs[i]? = some F → FuncAt M i F := by
  obtain ⟨imported, own, _, _, h1, _, _, _, _, h6, _, h8, _⟩ := (instantiate_parts h).parts
  obtain ⟨hl, hg⟩ := linkImports_ok h1
  obtain ⟨hl', hg'⟩ := replaceFuncs_ok h6
  refine ⟨by rw [h8], by rw [h8]; simp [hl, hl'], ?_⟩
  intro i F hF
  rw [h8] at hF
  simp only at hF
  rw [List.getElem?_append] at hF
  split at hF
  · rename_i hi
    left
    rw [hl] at hi
    rcases hd : M.imports[i] with ⟨m, n, d⟩
    obtain ⟨w, rfl, hw⟩ := hg i m n d (by rw [List.getElem?_eq_getElem hi, hd])
    rw [hw] at hF; cases hF
    exact ⟨m, n, w, by rw [List.getElem?_eq_getElem hi, hd], rfl⟩
  · rename_i hi
    right
    have hlt : i - imported.length < own.length := by
      rcases List.getElem?_eq_some_iff.mp hF with ⟨hh, _⟩; exact hh
    rw [hl'] at hlt
    obtain ⟨t, ht, hr⟩ := hg' (i - imported.length) M.funcs[i - imported.length] (List.getElem?_eq_getElem hlt)
    rw [hr] at hF; cases hF
    exact ⟨i - imported.length, _, t, by omega, List.getElem?_eq_getElem hlt, ht, rfl⟩

theorem initElems_length {nf : Nat} {gs : List Global} : ∀ {es : List ModElem} {ts ts' : List (List Ref)},
    initElems nf gs ts es = .ok ts' → ts'.length = ts.length
  | [], ts, ts', h => by cases h; rfl
  | e :: es, ts, ts', h => by
    obtain ⟨t1, h1, h⟩ := bind_eq_ok h
    rw [initElems_length h]
    unfold initElem at h1
    split at h1
    · cases h1
    · simp only at h1
      split at h1
      · cases h1
      · split at h1
        · cases h1; rfl
        · obtain ⟨o, _, h1⟩ := bind_eq_ok h1
          split at h1
          · cases h1
          · obtain ⟨t', _, h1⟩ := bind_eq_ok h1
            cases h1
            simp

theorem initDatas_length {gs : List Global} : ∀ {ds : List ModData} {ms ms' : List Mem}, initDatas gs ms ds = .ok ms' →
    ms'.length = ms.length
  | [], ms, ms', h => by cases h; rfl
  | d :: ds, ms, ms', h => by
    obtain ⟨m1, h1, h⟩ := bind_eq_ok h
    rw [initDatas_length h]
    unfold initData at h1
    split at h1
    · cases h1; rfl
    · obtain ⟨o, _, h1⟩ := bind_eq_ok h1
      split at h1
      · cases h1
      · obtain ⟨t', _, h1⟩ := bind_eq_ok h1
        cases h1
        simp

theorem initGlobals_length : ∀ {gs : List (Bool × Cls × CExpr)} {acc out : List Global}, initGlobals acc gs = .ok out →
    out.length = acc.length + gs.length
  | [], acc, out, h => by cases h; rfl
  | (m, c, e) :: gs, acc, out, h => by
    unfold initGlobals at h
    obtain ⟨v, _, h⟩ := bind_eq_ok h
    split at h
    · rw [initGlobals_length h]; simp; omega
    · cases h

/-- C34. Every exported function exists in the instance. -/
theorem export_exists {M : Modul} {L : Loaded} (h : instantiate M = .ok L) {name : String} {f : Nat}
    (hm : (name, .func f) ∈ M.exports) : ∃ F, L.prog.funcs[f]? = some F ∧ FuncAt M f F := by
  obtain ⟨imported, own, _, _, h1, _, _, _, h5, h6, _, h8, _⟩ := (instantiate_parts h).parts
  have hlt : f < L.prog.funcs.length := by
    have := List.all_eq_true.mp h5 _ hm
    have hlen := (replaceFuncs_ok h6).1
    rw [h8]
    simpa [exportOk, hlen] using this
  exact ⟨_, List.getElem?_eq_getElem hlt, (funcs_are_declared h).2.2 f _ (List.getElem?_eq_getElem hlt)⟩

/-- C34. A module that exports a table, memory or global it does not have cannot be instantiated. -/
theorem other_exports_exist {M : Modul} {L : Loaded} (h : instantiate M = .ok L) :
    (∀ n i, (n, .table i) ∈ M.exports → i < M.tables.length) ∧ (∀ n i, (n, .mem i) ∈ M.exports → i < M.mems.length) ∧
    (∀ n i, (n, .global i) ∈ M.exports → i < M.globals.length) ∧ (∀ n, (n, .tag) ∉ M.exports) := by
  obtain ⟨imported, own, tables, mems, h1, h2, h3, h4, h5, _⟩ := (instantiate_parts h).parts
  have ht : tables.length = M.tables.length := by
    have := initElems_length h3
    simpa using this
  have hm : mems.length = M.mems.length := by
    have := initDatas_length h4
    simpa using this
  have hg : L.inst.globals.length = M.globals.length := by
    have := initGlobals_length h2
    simpa using this
  have all := List.all_eq_true.mp h5
  refine ⟨fun n i hi => ?_, fun n i hi => ?_, fun n i hi => ?_, fun n hi => ?_⟩
  all_goals have := all _ hi
  all_goals simp only [exportOk, decide_eq_true_eq, Bool.false_eq_true] at this
  all_goals omega

example : ∀ L, instantiate { Modul.empty with exports := [("t", .table 0)] } ≠ .ok L := by
  intro L h
  have := (other_exports_exist h).1 "t" 0 (by simp)
  simp [Modul.empty] at this

/-- two exports, one of them not a function -/
def exportEx : Modul := { Modul.empty with
  types := [⟨[.i32], [.i32]⟩], funcs := [stub 0], tables := [0], exports := [("t", .table 0), ("main", .func 0)] }

example : ∃ L, instantiate exportEx = .ok L ∧ L.exportFunc "main" = .ok 0 ∧ L.exportFunc "t" = .trap .exportNotFound ∧
    L.exportFunc "nope" = .trap .exportNotFound := by
  have h : ∃ L, instantiate exportEx = .ok L := ⟨_, rfl⟩
  obtain ⟨L, h⟩ := h
  refine ⟨L, h, (export_resolves h (by decide) _ _).mpr (by simp [exportEx]), export_missing h _ ?_, export_missing h _ ?_⟩
  · intro f; simp [exportEx]
  · intro f; simp [exportEx]

/-! ## C37: the start function -/

/-- Finding (C37). The start section has no effect: a module with a start section naming an existing function gives the same
instance — memory, globals, tables — as without one. -/
theorem start_ignored_violated (M : Modul) {f : Nat} (hf : f < M.imports.length + M.funcs.length) :
    instantiate { M with start := some f } = instantiate { M with start := none } := by
  unfold instantiate
  cases h1 : linkImports M.imports with
  | ok imported =>
    have hl := (linkImports_ok h1).1
    have hs : startOk (imported.length + M.funcs.length) (some f) = true := by
      simpa [startOk, hl] using hf
    have hn : startOk (imported.length + M.funcs.length) none = true := rfl
    simp only [Res.bind_ok, hs, hn, Modul.needsWasi]
  | trap e => simp only [Res.bind_trap]
  | panic => simp only [Res.bind_panic]
  | ub => simp only [Res.bind_ub]

end Verif.Props
