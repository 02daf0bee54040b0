import Verif.Lemmas.CompRegs
import Verif.Spec.Subset
/-
Open brackets during compilation: registers of their results, where their labels lead, and the instruction each operator
ends up as once phases 2 and 3 have run.
-/
namespace Verif.Lemmas
open Verif.Model Verif.Spec Verif.Props

theorem lookup_cons (k v : Nat) (m : List (Nat × Nat)) (x : Nat) : lookup ((k, v) :: m) x = if x = k then some v else lookup m x := by
  unfold lookup
  by_cases h : x = k
  · subst h; simp
  · rw [if_neg h, List.find?_cons_of_neg]
    simpa using fun e => h e.symm

theorem lookup_skip {m : List (Nat × Nat)} {x : Nat} : ∀ {e : List (Nat × Nat)}, (∀ y ∈ e, y.1 ≠ x) → lookup (e ++ m) x = lookup m x
  | [], _ => rfl
  | (k, v) :: e, h => by
    rw [List.cons_append, lookup_cons, if_neg (fun c => h (k, v) (by simp) c.symm)]
    exact lookup_skip fun y hy => h y (by simp [hy])

/-- `fin` is reached from `st` by compiling more of the function -/
structure Later (st fin : CS) : Prop where
  code : ∃ is, fin.code = st.code ++ is
  ends : ∀ s, s < st.code.length → s ∉ st.mapCtl.map (·.1) → lookup fin.ends s = lookup st.ends s
  elses : ∀ s, s < st.code.length → s ∉ st.mapCtl.map (·.1) → lookup fin.elses s = lookup st.elses s
  max : ∀ c, st.alloc.maxDepth c ≤ fin.alloc.maxDepth c

theorem Later.refl (st : CS) : Later st st := ⟨⟨[], by simp⟩, fun _ _ _ => rfl, fun _ _ _ => rfl, fun _ => Nat.le_refl _⟩

theorem Later.len {st fin : CS} (h : Later st fin) : st.code.length ≤ fin.code.length := by
  obtain ⟨is, h⟩ := h.code; rw [h]; simp

theorem Ext.later {a b fin : CS} (h : Ext a b) (l : Later b fin) : Later a fin := by
  obtain ⟨is, hc, _⟩ := h.code
  obtain ⟨js, hf⟩ := l.code
  have hl := h.len
  obtain ⟨e, he, hek⟩ := h.ends
  obtain ⟨g, hg, hgk⟩ := h.elses
  refine ⟨⟨is ++ js, by rw [hf, hc, List.append_assoc]⟩, fun s hs hm => ?_, fun s hs hm => ?_, fun c => Nat.le_trans (h.max c) (l.max c)⟩
  · rw [l.ends s (by omega) (by rw [h.mapCtl]; exact hm), he]
    exact lookup_skip fun y hy => by have := hek y hy; omega
  · rw [l.elses s (by omega) (by rw [h.mapCtl]; exact hm), hg]
    exact lookup_skip fun y hy => by have := hgk y hy; omega

/-- the finished function -/
structure Fx (K : FnCtx) (fin : CS) (body : List Instr) : Prop where
  patch : patchFrom fin.ends fin.elses fin.code.length 0 [] fin.code = some body
  small : Small fin.alloc
  locs : (localTypes K.params K.locals).length ≤ 65536

/-- An open bracket context: base depths, types below, open brackets (start, is it a loop), stacks of the preprocessor,
targets, labels. -/
structure Lvl where
  b : Cls → Nat
  bs : List Cls
  opn : List (Nat × Bool)
  ctrl : List Ctl
  saved : List Alloc.Saved
  N : List Target
  Γ : List Lab

/-- label types -/
def Lvl.L (v : Lvl) : List (List Cls) := v.N.map (·.types)

/-- label types of a bracket -/
def labTy (M : MInfo) (bt : BlockTy) (isLoop : Bool) : List Cls := if isLoop then M.blockParams bt else M.blockResults bt

/-- inside a new bracket over operands of types `rs` -/
def Lvl.enter (K : FnCtx) (v : Lvl) (rs : List Cls) (bt : BlockTy) (isLoop : Bool) (start : Nat) (l : Lab) : Lvl :=
  { b := dep v.b rs
    bs := rs ++ v.bs
    opn := (start, isLoop) :: v.opn
    ctrl := ⟨bt, isLoop, sqr (dep v.b rs) (K.M.blockResults bt)⟩ :: v.ctrl
    saved := ⟨dep v.b rs, (rs ++ v.bs).length⟩ :: v.saved
    N := ⟨labTy K.M bt isLoop, isLoop, []⟩ :: v.N.map (·.under rs)
    Γ := l :: v.Γ }

/-- the function level -/
def Lvl.top (K : FnCtx) : Lvl :=
  { b := Alloc.localCount K.locals, bs := [], opn := [], ctrl := [], saved := [], N := [⟨K.results, false, []⟩], Γ := [] }

theorem Lvl.enter_L (K : FnCtx) (v : Lvl) (rs : List Cls) (bt : BlockTy) (isLoop : Bool) (start : Nat) (l : Lab) :
    (v.enter K rs bt isLoop start l).L = labTy K.M bt isLoop :: v.L := by
  simp [Lvl.L, Lvl.enter, Target.under, Function.comp_def]

/-- how a label must look -/
structure LabOk (K : FnCtx) (fin : CS) (v : Lvl) (rs : List Cls) (bt : BlockTy) (isLoop : Bool) (start : Nat) (l : Lab) : Prop where
  seg : l.seg = sops v.b rs
  arity : l.arity = (labTy K.M bt isLoop).length
  dst : l.dst = sqr (dep v.b rs) (labTy K.M bt isLoop)
  pc : blockTarget fin.ends (start, isLoop) = some l.pc
  bound : ∀ c, dep (dep v.b rs) (K.M.blockResults bt) c ≤ fin.alloc.maxDepth c

/-- well formed contexts -/
inductive LvlOk (K : FnCtx) (fin : CS) : Lvl → Prop
  | top : LvlOk K fin (Lvl.top K)
  | enter {v : Lvl} {rs : List Cls} {bt : BlockTy} {isLoop : Bool} {start : Nat} {l : Lab} : LvlOk K fin v →
      LabOk K fin v rs bt isLoop start l → LvlOk K fin (v.enter K rs bt isLoop start l)

theorem LvlOk.low {K : FnCtx} {fin : CS} {v : Lvl} (h : LvlOk K fin v) : Low v.b v.Γ := by
  induction h with
  | top => intro l hl; simp [Lvl.top] at hl
  | @enter v rs bt isLoop start l _ ho ih =>
    intro m hm x hx
    rcases List.mem_cons.1 hm with rfl | hm
    · rw [ho.seg] at hx
      obtain ⟨c, i, rfl, _, h2⟩ := sops_mem hx
      exact ⟨c, i, rfl, h2⟩
    · obtain ⟨c, i, rfl, h2⟩ := ih m hm x hx
      exact ⟨c, i, rfl, by simp only [Lvl.enter, dep]; omega⟩

theorem LvlOk.lens {K : FnCtx} {fin : CS} {v : Lvl} (h : LvlOk K fin v) :
    v.Γ.length = v.ctrl.length ∧ v.L.length = v.ctrl.length + 1 ∧ v.opn.length = v.ctrl.length ∧ v.saved.length = v.ctrl.length := by
  induction h with
  | top => simp [Lvl.top, Lvl.L]
  | enter _ _ ih => rw [Lvl.enter_L]; simp only [Lvl.enter, List.length_cons]; omega

theorem LvlOk.last {K : FnCtx} {fin : CS} {v : Lvl} (h : LvlOk K fin v) : v.L[v.ctrl.length]? = some K.results := by
  induction h with
  | top => simp [Lvl.top, Lvl.L]
  | enter _ _ ih => rw [Lvl.enter_L]; simpa [Lvl.enter] using ih

/-- what is known about an open bracket -/
theorem LvlOk.get {K : FnCtx} {fin : CS} {v : Lvl} (h : LvlOk K fin v) : ∀ {d : Nat}, d < v.ctrl.length →
    ∃ ct l tg x g, v.ctrl[d]? = some ct ∧ v.Γ[d]? = some l ∧ v.N[d]? = some tg ∧ v.opn[d]? = some x ∧
      blockTarget fin.ends x = some l.pc ∧ l.arity = tg.types.length ∧ l.dst = sqr g tg.types ∧
      ct.isLoop = tg.loop ∧ (tg.loop = false → ct.resultRegs = sqr g tg.types) ∧ (∀ c, g c ≤ v.b c) ∧
      (tg.below = [] → g = v.b) := by
  induction h with
  | top => intro d hd; simp [Lvl.top] at hd
  | @enter v rs bt isLoop start l _ ho ih =>
    intro d hd
    cases d with
    | zero =>
      refine ⟨_, l, _, _, dep v.b rs, rfl, rfl, rfl, rfl, ho.pc, ho.arity, ho.dst, rfl, ?_, fun c => Nat.le_refl _, fun _ => rfl⟩
      intro he
      simp only at he
      subst he
      rfl
    | succ d =>
      obtain ⟨ct, l', tg, x, g, h1, h2, h3, h4, h5, h6, h7, h8, h9, h10, h11⟩ := ih (d := d) (by simpa [Lvl.enter] using hd)
      refine ⟨ct, l', tg.under rs, x, g, by simpa [Lvl.enter] using h1, by simpa [Lvl.enter] using h2, ?_,
        by simpa [Lvl.enter] using h4, h5, h6, h7, h8, h9, fun c => by have := h10 c; simp only [Lvl.enter, dep]; omega, fun hb => ?_⟩
      · simp only [Lvl.enter, List.getElem?_cons_succ, List.getElem?_map, h3, Option.map_some]
      · simp only [Target.under, List.append_eq_nil_iff] at hb
        obtain ⟨rfl, hb⟩ := hb
        rw [h11 hb]
        simp only [Lvl.enter, dep_nil]

/-- base depths: the declared locals and the operands below -/
theorem LvlOk.base {K : FnCtx} {fin : CS} {v : Lvl} (h : LvlOk K fin v) (c : Cls) : v.b c = Alloc.localCount K.locals c + v.bs.count c := by
  induction h with
  | top => simp [Lvl.top]
  | enter _ _ ih => simp only [Lvl.enter, dep, List.count_append, ih]; omega

theorem LvlOk.beneath {K : FnCtx} {fin : CS} {v : Lvl} (h : LvlOk K fin v) : beneath v.N = v.bs := by
  have : ∃ l, v.N.getLast? = some l ∧ l.below = v.bs := by
    induction h with
    | top => exact ⟨_, rfl, rfl⟩
    | @enter v rs bt isLoop start l _ _ ih =>
      obtain ⟨t, h1, h2⟩ := ih
      refine ⟨t.under rs, ?_, by simp only [Target.under, h2]; rfl⟩
      simp only [Lvl.enter]
      rw [List.getLast?_cons, List.getLast?_map, h1]
      rfl
  obtain ⟨l, h1, h2⟩ := this
  rw [Spec.beneath, h1]
  exact h2

/-- the preprocessor is in this context -/
structure InL (v : Lvl) (st : CS) : Prop where
  ctrl : st.ctrl = v.ctrl
  saved : st.saved = v.saved
  maps : st.mapCtl.map (·.1) = v.opn.map (·.1)
  scan : scanL 0 [] st.code = v.opn
  lt : ∀ x ∈ v.opn, x.1 < st.code.length

theorem InL.ext {v : Lvl} {a b : CS} (h : InL v a) (e : Ext a b) : InL v b := by
  obtain ⟨is, hc, hs⟩ := e.code
  refine ⟨e.ctrl.trans h.ctrl, e.saved.trans h.saved, by rw [e.mapCtl]; exact h.maps, ?_, fun x hx => ?_⟩
  · rw [hc, scanL_append, h.scan, Nat.zero_add]; exact hs _
  · have := h.lt x hx
    have := e.len
    omega

/-- instructions phases 2 and 3 do not change -/
def isFixed : Instr → Bool
  | .br _ _ _ _ | .brIf _ _ _ _ _ | .ite _ _ _ | .jump _ | .brTable _ _ _ _ => false
  | _ => true

theorem patch_fixed {ends elses : List (Nat × Nat)} {len : Nat} {stk : List (Nat × Bool)} {i : Instr} (h : isFixed i = true) :
    patch ends elses len stk i = some i := by
  cases i <;> simp_all [isFixed, patch]

theorem body_at {K : FnCtx} {fin st : CS} {body : List Instr} {v : Lvl} {i : Instr} (fx : Fx K fin body) (hs : InL v st)
    (hc : ∃ is, fin.code = (st.code ++ [i]) ++ is) : ∃ j, body[st.code.length]? = some j ∧
      patch fin.ends fin.elses body.length (scanStep v.opn st.code.length i) i = some j := by
  obtain ⟨hl, hg⟩ := patchFrom_get fx.patch
  obtain ⟨is, hc⟩ := hc
  obtain ⟨j, h1, h2⟩ := hg st.code.length i (by rw [hc]; simp)
  refine ⟨j, h1, ?_⟩
  rw [hl, ← h2]
  have : fin.code.take st.code.length = st.code := by rw [hc]; simp
  rw [this, hs.scan, Nat.zero_add]

theorem body_fixed {K : FnCtx} {fin st : CS} {body : List Instr} {v : Lvl} {i : Instr} (fx : Fx K fin body) (hs : InL v st)
    (hi : isFixed i = true) (hc : ∃ is, fin.code = (st.code ++ [i]) ++ is) : body[st.code.length]? = some i := by
  obtain ⟨j, h1, h2⟩ := body_at fx hs hc
  rw [patch_fixed hi] at h2
  cases h2
  exact h1

/-! ## Branches -/

theorem carried_get {K : FnCtx} : ∀ {lt r : List Cls}, carried K lt r = true → ∀ (i : Nat) (c : Cls), lt[i]? = some c →
    (lt.drop i).count c = lt.length - i ∨ ((lt.take i).count c = 0 ∧ r.count c = 0 ∧ Alloc.localCount K.locals c = 0)
  | [], r, _, i, c, h => by simp at h
  | d :: lt, r, hh, i, c, h => by
    simp only [carried, Bool.and_eq_true, Bool.or_eq_true, List.all_eq_true, decide_eq_true_eq, Bool.not_eq_true',
      List.contains_eq_mem, decide_eq_false_iff_not] at hh
    obtain ⟨h1, h2⟩ := hh
    cases i with
    | zero =>
      simp only [List.getElem?_cons_zero, Option.some.injEq] at h
      subst h
      rcases h1 with h1 | ⟨h1, h3⟩
      · left
        rw [List.drop_zero, List.count_eq_length.mpr]
        · simp
        · intro x hx
          rcases List.mem_cons.1 hx with rfl | hx
          · rfl
          · exact (h1 x hx).symm
      · right
        refine ⟨by simp, List.count_eq_zero.mpr h1, ?_⟩
        unfold Alloc.localCount
        rw [List.sum_eq_zero_iff_forall_eq_nat]
        intro x hx
        obtain ⟨l, hl, rfl⟩ := List.mem_map.1 hx
        split
        · rename_i e
          rcases h3 l hl with h3 | h3
          · exact h3
          · exact absurd e h3
        · rfl
    | succ i =>
      simp only [List.getElem?_cons_succ] at h
      rcases carried_get h2 i c h with h3 | ⟨h3, h4, h5⟩
      · left
        simp only [List.drop_succ_cons, List.length_cons, h3]; omega
      · right
        rw [List.count_cons] at h4
        have : (d == c) = false := by cases e : d == c <;> simp_all
        simp only [List.take_succ_cons, List.count_cons, this]
        exact ⟨by simpa using h3, by omega, h5⟩

theorem popTys_some {want ts r : List Cls} (h : popTys want ts = some r) : ts = want.reverse ++ r := by
  unfold popTys at h
  split at h
  · rename_i h1
    cases h
    rw [← h1, List.take_append_drop]
  · cases h

/-- registers a branch reads -/
theorem branchSrc {K : FnCtx} {b : Cls → Nat} {bs lt r : List Cls} {a : Alloc} {g : Cls → Nat} (hh : carried K lt (r ++ bs) = true) (h : AOk b bs a (lt.reverse ++ r))
    (hb : ∀ c, b c = Alloc.localCount K.locals c + bs.count c) (hs : Small a) : ((sqr g lt).mapIdx fun i x => Alloc.mkReg x.cls (a.depth x.cls - ((sqr g lt).length - i))) = sqr (dep b r) lt := by
  apply List.ext_getElem?
  intro i
  rw [List.getElem?_mapIdx]
  by_cases hi : i < lt.length
  · have h1 := sqr_get lt g i lt[i] (List.getElem?_eq_getElem hi)
    have h2 := sqr_get lt (dep b r) i lt[i] (List.getElem?_eq_getElem hi)
    rw [h1, h2, Option.map_some]
    congr 1
    rw [sqr_length]
    have hd : a.depth lt[i] = dep b r lt[i] + lt.count lt[i] := by
      rw [h.depth, dep_append, dep_reverse]
      rfl
    have hsp : (lt.take i).count lt[i] + (lt.drop i).count lt[i] = lt.count lt[i] := by
      rw [← List.count_append, List.take_append_drop]
    have hle := List.count_le_length (a := lt[i]) (l := lt.drop i)
    rw [List.length_drop] at hle
    have hpos : 0 < (lt.drop i).count lt[i] := by
      rw [List.count_pos_iff, List.drop_eq_getElem_cons hi]
      exact List.mem_cons_self
    have h3 := h.le lt[i]
    have h4 := hs lt[i]
    simp only [hd, Alloc.mkReg]
    have key : dep b r lt[i] + lt.count lt[i] - (lt.length - i) = dep b r lt[i] + (lt.take i).count lt[i] := by
      rcases carried_get hh i lt[i] (List.getElem?_eq_getElem hi) with e | ⟨e1, e2, e3⟩
      · omega
      · rw [List.count_append] at e2
        have : dep b r lt[i] = 0 := by simp only [dep, hb]; omega
        omega
    rw [key, Nat.mod_eq_of_lt (by omega)]
  · have h1 : (sqr g lt)[i]? = none := by rw [List.getElem?_eq_none_iff, sqr_length]; omega
    have h2 : (sqr (dep b r) lt)[i]? = none := by rw [List.getElem?_eq_none_iff, sqr_length]; omega
    rw [h1, h2]; rfl

/-- a branch to an open bracket: to a loop nothing is moved, to a block the right registers are; when the
carried values are in place nothing needs to be moved -/
theorem brOk_in {K : FnCtx} {fin st : CS} {body : List Instr} {v : Lvl} {ts : List Cls} {d : Nat} (fx : Fx K fin body)
    (hv : LvlOk K fin v) (hi : InL v st) (ha : AOk v.b v.bs st.alloc ts) (hm : ∀ c, st.alloc.maxDepth c ≤ fin.alloc.maxDepth c)
    (hd : d < v.ctrl.length) (hl : labelOk v.L ts d = true) :
    ∃ tg r t, v.N[d]? = some tg ∧ ts = tg.types.reverse ++ r ∧ target2 fin.ends body.length v.opn d = some t ∧
      target3 fin.ends v.opn d = t ∧
      (tg.loop = true → branchRegs st d = ([], [])) ∧
      (tg.loop = false → carried K tg.types (r ++ v.bs) = true → (branchRegs st d).1 = sqr (dep v.b r) tg.types ∧
        BrOk K body.length fin.alloc.maxDepth v.Γ d (sops v.b ts) (sqr (dep v.b r) tg.types) (branchRegs st d).2 t) ∧
      (tg.inPlace ts = true → ∀ src dst, src = [] ∨ dst = [] →
        BrOk K body.length fin.alloc.maxDepth v.Γ d (sops v.b ts) src dst t) := by
  obtain ⟨ct, l, tg, x, g, h1, h2, h3, h4, h5, h6, h7, h8, h9, h10, h11⟩ := hv.get hd
  have hpop : ∃ r, popTys tg.types ts = some r := by
    simp only [labelOk, Lvl.L, List.getElem?_map, h3, Option.map_some] at hl
    exact Option.isSome_iff_exists.1 hl
  obtain ⟨r, hr⟩ := hpop
  have hts := popTys_some hr
  subst hts
  have hs : Small st.alloc := small_of_le fx.small hm
  refine ⟨tg, r, l.pc, h3, rfl, by simp only [target2, h4, h5], by simp only [target3, h4, h5, Option.getD_some], fun hlp => ?_,
    fun hlp hh => ?_, fun hin src dst hsd => ?_⟩
  · simp [branchRegs, hi.ctrl, h1, h8, hlp]
  · have e2 : (branchRegs st d).2 = sqr g tg.types := by
      simp only [branchRegs, hi.ctrl, h1, h8, hlp, Bool.false_eq_true, if_false, h9 hlp]
    have e1 : (branchRegs st d).1 = sqr (dep v.b r) tg.types := by
      simp only [branchRegs, hi.ctrl, h1, h8, hlp, Bool.false_eq_true, if_false, h9 hlp]
      exact branchSrc hh ha hv.base hs
    refine ⟨e1, ?_⟩
    rw [BrOk, h2]
    refine ⟨rfl, _, ⟨sops v.b r, sops_sregs _ _ _⟩, by rw [sqr_length, h6], .inl ⟨rfl, by rw [e2, h7], ?_⟩⟩
    rw [e2]
    refine moveOk_sqr tg.types (fun c => ?_) fun c => ?_
    · have := h10 c; simp only [dep]; omega
    · have h12 := ha.le c
      have h13 := hm c
      rw [ha.depth, dep_append, dep_reverse] at h12
      omega
  · rw [BrOk, h2]
    refine ⟨rfl, sqr (dep v.b r) tg.types, ⟨sops v.b r, sops_sregs _ _ _⟩, by rw [sqr_length, h6], .inr ⟨?_, hsd⟩⟩
    rw [h7]
    simp only [Target.inPlace, Bool.or_eq_true, List.isEmpty_iff, decide_eq_true_eq, List.length_append, List.length_reverse] at hin
    rcases hin with hin | hin
    · rw [hin]; rfl
    · have hr0 : r = [] := by rw [← List.length_eq_zero_iff]; omega
      rw [hr0, dep_nil, h11 (List.length_eq_zero_iff.mp (by omega))]

/-- a branch out of a function without results -/
theorem brOk_out {K : FnCtx} {fin st : CS} {body : List Instr} {v : Lvl} {os : List SOp} {d : Nat}
    (hv : LvlOk K fin v) (hi : InL v st) (hd : d = v.ctrl.length) (hr : K.results = []) :
    target2 fin.ends body.length v.opn d = some body.length ∧
      BrOk K body.length fin.alloc.maxDepth v.Γ d os (branchRegs st d).1 (branchRegs st d).2 body.length := by
  obtain ⟨l1, l2, l3, _⟩ := hv.lens
  have hc : st.ctrl[d]? = none := by rw [hi.ctrl, List.getElem?_eq_none_iff]; omega
  have ho : v.opn[d]? = none := by rw [List.getElem?_eq_none_iff]; omega
  have hg : v.Γ[d]? = none := by rw [List.getElem?_eq_none_iff]; omega
  refine ⟨by rw [target2, ho], ?_⟩
  rw [BrOk, hg]
  exact ⟨by omega, hr, by simp [branchRegs, hc], by simp [branchRegs, hc], rfl⟩

/-- `br` and `br_if` -/
theorem brOk_any {K : FnCtx} {fin st : CS} {body : List Instr} {v : Lvl} {ts : List Cls} {d : Nat} (fx : Fx K fin body)
    (hv : LvlOk K fin v) (hi : InL v st) (ha : AOk v.b v.bs st.alloc ts) (hm : ∀ c, st.alloc.maxDepth c ≤ fin.alloc.maxDepth c)
    (hl : labelOk v.L ts d = true) (hok : branchOk K v.N d ts = true) :
    ∃ t, target2 fin.ends body.length v.opn d = some t ∧
      BrOk K body.length fin.alloc.maxDepth v.Γ d (sops v.b ts) (branchRegs st d).1 (branchRegs st d).2 t := by
  unfold branchOk at hok
  split at hok
  case h_2 => cases hok
  rename_i tg htg
  simp only [Bool.and_eq_true, Bool.or_eq_true, decide_eq_true_eq] at hok
  obtain ⟨hh, hpl⟩ := hok
  have hlens := hv.lens
  have hnl : v.N.length = v.L.length := by simp [Lvl.L]
  have hdlt : d < v.N.length := (List.getElem?_eq_some_iff.1 htg).1
  by_cases hd : d < v.ctrl.length
  · obtain ⟨tg', r, t, h3, h4, h5, _, h6, h7, h8⟩ := brOk_in (body := body) fx hv hi ha hm hd hl
    rw [htg, Option.some.injEq] at h3
    subst h3
    refine ⟨t, h5, ?_⟩
    cases hlp : tg.loop with
    | true =>
      rw [h6 hlp]
      refine h8 ?_ _ _ (.inl rfl)
      simpa [Target.reached, hlp] using hh
    | false =>
      obtain ⟨e, hb⟩ := h7 hlp (by
        simp only [Target.reached, hlp, Bool.false_eq_true, if_false, hv.beneath] at hh
        rwa [h4, List.drop_append_of_le_length (by simp), List.drop_of_length_le (by simp), List.nil_append] at hh)
      rw [e]
      exact hb
  · have hd' : d = v.ctrl.length := by omega
    have hres : K.results = [] := by
      have := hv.last
      rw [← hd', Lvl.L, List.getElem?_map, htg, Option.map_some, Option.some.injEq] at this
      rw [← this]
      rcases hpl with hpl | hpl
      · omega
      · simpa using hpl
    exact ⟨_, brOk_out (body := body) (os := sops v.b ts) hv hi hd' hres⟩

end Verif.Lemmas
