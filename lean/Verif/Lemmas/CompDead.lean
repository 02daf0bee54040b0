import Verif.Lemmas.CompLive
/-
Operators after which the code is unreachable, and brackets: opening, `else` and `end`.
-/
namespace Verif.Lemmas
open Verif.Model Verif.Spec Verif.Props

theorem CompSeq.of_dead {K : FnCtx} {w : WSeq} {tail : List WOp} {st st' : CS} (h : CompSeq K w tail st st') (hd : st.dead = 1) :
    st' = skip st w.flat.length := by
  cases h with
  | dead => rfl
  | done h => omega
  | op h => omega
  | fused h => omega
  | block h => omega
  | loop h => omega
  | ite h => omega
  | itee h => omega

/-- an operator that does not fall through -/
theorem dead_op {K : FnCtx} {fin : CS} {body : List Instr} {v : Lvl} {st st1 : CS} {o : WOp} {k : WSeq} {rest rest' : List WOp}
    {ts : List Cls} {os : List SOp} (fx : Fx K fin body) (hv : LvlOk K fin v) (hi : InL v st)
    (ha : AOk v.b v.bs st.alloc ts) (ps : PSt v.b st.pend (.op o k) ts os)
    (ht : stepTy K v.L o ts = some none) (hpl : plainOp K v.N ts o = true) (lat : Later st1 fin)
    (hc : compOp K st o rest = some (st1, rest')) :
    st1.dead = 1 ∧ st1.pend = [] ∧ (∃ ts', AOk v.b v.bs st1.alloc ts') ∧
      ∀ pc', Sym K body fin.alloc.maxDepth v.Γ (.op o k) os st.code.length pc' none := by
  have hmax : ∀ c, st.alloc.maxDepth c ≤ fin.alloc.maxDepth c := fun c => Nat.le_trans (compOp_max hc c) (lat.max c)
  have hs : Small st.alloc := small_of_le fx.small hmax
  cases o
  case unreachable =>
    obtain ⟨hp, rfl⟩ := ps.quiet rfl
    simp only [compOp, Option.some.injEq, Prod.mk.injEq] at hc
    obtain ⟨rfl, _⟩ := hc
    exact ⟨rfl, hp, ⟨ts, ha⟩, fun pc' => Sym.unreachable (body_fixed fx hi rfl lat.code)⟩
  case br d =>
    obtain ⟨hp, rfl⟩ := ps.quiet rfl
    simp only [stepTy] at ht
    split at ht
    case isFalse => cases ht
    rename_i hlab
    simp only [compOp, Option.some.injEq, Prod.mk.injEq] at hc
    obtain ⟨rfl, _⟩ := hc
    obtain ⟨j, hj, hpat⟩ := body_at (i := .br d 0 (branchRegs st d).1 (branchRegs st d).2) fx hi lat.code
    refine ⟨rfl, hp, ⟨ts, ha⟩, fun pc' => ?_⟩
    simp only [patch, scanStep] at hpat
    obtain ⟨t, h5, h7⟩ := brOk_any fx hv hi ha hmax hlab hpl
    rw [h5] at hpat
    simp only [Option.map_some, Option.some.injEq] at hpat
    subst hpat
    exact Sym.br hj h7
  case brTable ds d =>
    obtain ⟨hp, rfl⟩ := ps.quiet rfl
    simp only [stepTy] at ht
    split at ht
    case h_2 => cases ht
    rename_i r hr
    split at ht
    case isFalse => cases ht
    rename_i hall
    have hts := popTys_some hr
    have hts : ts = .i32 :: r := hts
    subst hts
    have a0 := AOk.pop ha
    simp only [compOp, Option.some.injEq, Prod.mk.injEq] at hc
    rw [show st.alloc.peek .i32 = some ⟨.i32, dep v.b r .i32⟩ from AOk.peek ha hs] at hc
    obtain ⟨rfl, _⟩ := hc
    have hi' : InL v { st with alloc := (st.alloc.pop .i32).2 } := ⟨hi.ctrl, hi.saved, hi.maps, hi.scan, hi.lt⟩
    obtain ⟨j, hj, hpat⟩ := body_at (i := .brTable (ds.map fun k => (k, 0, (branchRegs { st with alloc := (st.alloc.pop .i32).2 } k).2))
      (d, 0, (branchRegs { st with alloc := (st.alloc.pop .i32).2 } d).2) (dep v.b r .i32)
      (branchRegs { st with alloc := (st.alloc.pop .i32).2 } d).1) fx hi' lat.code
    refine ⟨rfl, hp, ⟨r, a0⟩, fun pc' => ?_⟩
    simp only [patch, scanStep, Option.some.injEq] at hpat
    subst hpat
    rw [List.all_eq_true] at hall
    simp only [plainOp, List.all_eq_true, List.tail_cons] at hpl
    have hlens := hv.lens
    have hnl : v.N.length = v.L.length := by simp [Lvl.L]
    refine Sym.brTable hj (by simp [Function.comp_def]) rfl ?_
    intro t ht'
    have : ∃ x ∈ d :: ds, t = (x, target3 fin.ends v.opn x, (branchRegs { st with alloc := (st.alloc.pop .i32).2 } x).2) := by
      rcases List.mem_cons.1 ht' with rfl | h
      · exact ⟨d, by simp, rfl⟩
      · simp only [List.map_map, List.mem_map] at h
        obtain ⟨x, hx, rfl⟩ := h
        exact ⟨x, by simp [hx], rfl⟩
    obtain ⟨x, hx, rfl⟩ := this
    have key : ∀ y ∈ d :: ds, y < v.ctrl.length ∧ labelOk v.L r y = true ∧
        (v.L[y]?).map List.length = (v.L[d]?).map List.length := by
      intro y hy
      have h1 := hall y hy
      simp only [Bool.and_eq_true, decide_eq_true_eq] at h1
      have h2 := hpl y hy
      simp only [entryOk, Bool.and_eq_true, decide_eq_true_eq] at h2
      exact ⟨by omega, h1⟩
    obtain ⟨xl, xlab, xlen⟩ := key x hx
    obtain ⟨dl, dlab, _⟩ := key d (by simp)
    obtain ⟨tx, rx, px, x1, x2, x3, x4, x5, x6, x7⟩ := brOk_in (body := body) fx hv hi' a0 hmax xl xlab
    obtain ⟨td, rd, pd, d1, d2, d3, d4, d5, d6, d7⟩ := brOk_in (body := body) fx hv hi' a0 hmax dl dlab
    refine ⟨by rw [hlens.1]; exact xl, ?_⟩
    have okx := (Bool.and_eq_true _ _ ▸ hpl x hx : _ ∧ _).2
    have okd := (Bool.and_eq_true _ _ ▸ hpl d (by simp) : _ ∧ _).2
    simp only [x1, d1, Bool.and_eq_true, Bool.or_eq_true, Bool.not_eq_true'] at okx okd
    rw [Lvl.L, List.getElem?_map, List.getElem?_map, x1, d1, Option.map_some, Option.map_some, Option.map_some, Option.map_some,
      Option.some.injEq] at xlen
    rw [d2] at x2
    have e := List.append_inj x2 (by simp [xlen])
    have e1 : td.types = tx.types := List.reverse_inj.1 e.1
    have e2 : rd = rx := e.2
    subst e2
    show BrOk _ _ _ _ x _ _ _ (target3 fin.ends v.opn x)
    rw [x4]
    cases hld : td.loop with
    | true =>
      rw [d5 hld]
      rcases okx.2 with h | h
      · rw [hld] at h; cases h
      · exact x7 h _ _ (.inl rfl)
    | false =>
      have hd1 : carried K td.types (rd ++ v.bs) = true := by
        have hd0 := okd.1
        simp only [Target.reached, hld, Bool.false_eq_true, if_false, hv.beneath] at hd0
        rwa [d2, List.drop_append_of_le_length (by simp), List.drop_of_length_le (by simp), List.nil_append] at hd0
      rw [(d6 hld hd1).1, e1]
      cases hlx : tx.loop with
      | true =>
        rw [x5 hlx]
        exact x7 (by simpa [Target.reached, hlx] using okx.1) _ _ (.inr rfl)
      | false => exact (x6 hlx (e1 ▸ hd1)).2
  case ret =>
    obtain ⟨hp, rfl⟩ := ps.quiet rfl
    simp only [stepTy] at ht
    split at ht
    case isFalse => cases ht
    rename_i hr
    obtain ⟨r, hr⟩ := Option.isSome_iff_exists.1 hr
    have hts := popTys_some hr
    subst hts
    simp only [compOp, Option.some.injEq, Prod.mk.injEq] at hc
    obtain ⟨rfl, _⟩ := hc
    have e0 := AOk.peekRegs ha hs
    have hb := body_fixed fx hi (i := .ret (st.alloc.peekRegs K.results)) rfl lat.code
    rw [e0] at hb
    refine ⟨rfl, hp, ⟨r, AOk.popAll _ ha⟩, fun pc' => ?_⟩
    rw [sops_sregs]
    exact Sym.ret hb (sqr_cls _ _)
  all_goals
    simp only [stepTy, Option.map_eq_some_iff, reduceCtorEq, and_false, exists_false] at ht
    try (split at ht <;> try (split at ht)) <;> cases ht

/-! ## Brackets -/

theorem pushAll_ge : ∀ (x : List Cls) (a : Alloc) (_ : ∀ c, a.depth c ≤ a.maxDepth c) (c : Cls),
    dep a.depth x c ≤ (pushAll a x).2.maxDepth c
  | [], a, h, c => by rw [dep_nil]; exact h c
  | d :: x, a, h, c => by
    simp only [pushAll]
    have h1 : ∀ e, (a.push d).2.depth e ≤ (a.push d).2.maxDepth e := by
      intro e
      have := h e
      simp only [Alloc.push]
      by_cases he : e = d
      · subst he; rw [upd_same, upd_same]; omega
      · rw [upd_ne _ _ _ _ he, upd_ne _ _ _ _ he]; exact this
    have h2 := pushAll_ge x (a.push d).2 h1 c
    have h3 : (a.push d).2.depth = dep a.depth [d] := by simp only [Alloc.push]; rw [upd_dep]
    rw [h3] at h2
    refine Nat.le_trans (Nat.le_of_eq ?_) h2
    simp only [dep, List.count_cons, List.count_nil]
    omega

/-- opening a bracket -/
theorem enter_ok {K : FnCtx} {fin : CS} {v : Lvl} {st st1 : CS} {a : Alloc} {rs : List Cls} {bt : BlockTy} {isL isIf : Bool} {ins : Instr}
    {l : Lab} (hs : Small fin.alloc) (hv : LvlOk K fin v) (hi : InL v st) (ha : AOk v.b v.bs a ((K.M.blockParams bt).reverse ++ rs))
    (e1 : st1 = { openBlock K st a bt isL with mapCtl := (st.code.length, isIf, none) :: st.mapCtl }.emit ins)
    (hsc : ∀ stk, scanStep stk st.code.length ins = (st.code.length, isL) :: stk) (h1 : Small st1.alloc)
    (lo : LabOk K fin v rs bt isL st.code.length l) :
    LvlOk K fin (v.enter K rs bt isL st.code.length l) ∧ InL (v.enter K rs bt isL st.code.length l) st1 ∧
      AOk (dep v.b rs) (rs ++ v.bs) st1.alloc (K.M.blockParams bt).reverse ∧ st1.pend = st.pend ∧ st1.dead = st.dead ∧
      st1.code = st.code ++ [ins] ∧ st1.mapCtl = (st.code.length, isIf, none) :: st.mapCtl := by
  subst e1
  have a0 := AOk.popAll (K.M.blockParams bt).reverse ha
  have a1 := AOk.pushAll (K.M.blockParams bt) a0 h1
  refine ⟨.enter hv lo, ⟨?_, ?_, ?_, ?_, ?_⟩, AOk.reopen a1.1, rfl, rfl, rfl, rfl⟩
  · simp only [CS.emit, openBlock, Lvl.enter, hi.ctrl, Alloc.save, Alloc.Saved.nextRegs, a0.depth]
    rw [seqRegs_sqr]
    exact fun c => Nat.le_trans (lo.bound c) (hs c)
  · simp only [CS.emit, openBlock, Lvl.enter, hi.saved, Alloc.save, a0.depth, a0.types]
  · simp only [CS.emit, List.map_cons, Lvl.enter, hi.maps]
  · show scanL 0 [] (st.code ++ [ins]) = _
    rw [scanL_append, hi.scan, Nat.zero_add]
    simp only [scanL, hsc, Lvl.enter]
  · intro x hx
    simp only [CS.emit, List.length_append, List.length_cons, List.length_nil]
    show x.1 < st.code.length + 1
    rcases List.mem_cons.1 hx with rfl | hx
    · simp
    · have := hi.lt x hx; omega

/-- registers an `end` delivers to -/
def endDst : List Ctl → List Reg
  | b :: _ => b.resultRegs
  | [] => []

/-- `end` of a bracket -/
theorem close_ok {K : FnCtx} {fin : CS} {v : Lvl} {st st2 st3 : CS} {rest r : List WOp} {isIf : Bool} {e : Option Nat} (hi : InL v st)
    (hlen : st.code.length < st2.code.length)
    (hm : st2.mapCtl = (st.code.length, isIf, e) :: st.mapCtl)
    (hc : compOp K { st2 with dead := 0 } .fin rest = some (st3, r)) (lat : Later st3 fin) :
    Later st2 fin ∧ lookup fin.ends st.code.length = some (st2.code.length + 1) ∧
      (isIf = true → lookup fin.elses st.code.length = some (e.getD (st2.code.length + 1))) ∧
      st3.code = st2.code ++ [.fin (st2.alloc.peekRegs (endTypes K st2)) (endDst st2.ctrl)] ∧
      st3.alloc = endAlloc K st2 ∧ st3.pend = st2.pend ∧ st3.dead = 0 := by
  have hmx := compOp_max hc
  have e3 := compOp_fin' (st := { st2 with dead := 0 }) hm hc
  have hnot : st.code.length ∉ st.mapCtl.map (·.1) := by
    rw [hi.maps]
    intro h
    obtain ⟨x, hx, he⟩ := List.mem_map.1 h
    have := hi.lt x hx
    omega
  have c3 : st3.code = st2.code ++ [.fin (st2.alloc.peekRegs (endTypes K st2)) (endDst st2.ctrl)] := by
    rw [e3]; rfl
  have hl3 : st3.code.length = st2.code.length + 1 := by rw [c3]; simp
  have m3 : st3.mapCtl = st.mapCtl := by rw [e3]
  have en3 : st3.ends = (st.code.length, st2.code.length + 1) :: st2.ends := by rw [e3]
  have el3 : st3.elses = if isIf then (st.code.length, e.getD (st2.code.length + 1)) :: st2.elses else st2.elses := by rw [e3]
  refine ⟨⟨?_, ?_, ?_, ?_⟩, ?_, ?_, c3, by rw [e3]; rfl, by rw [e3]; rfl, by rw [e3]; rfl⟩
  · obtain ⟨is, h⟩ := lat.code
    exact ⟨_, by rw [h, c3, List.append_assoc]⟩
  · intro s hs hn
    rw [hm, List.map_cons, List.mem_cons, not_or] at hn
    rw [lat.ends s (by omega) (by rw [m3]; exact hn.2), en3, lookup_cons, if_neg hn.1]
  · intro s hs hn
    rw [hm, List.map_cons, List.mem_cons, not_or] at hn
    rw [lat.elses s (by omega) (by rw [m3]; exact hn.2), el3]
    split
    · rw [lookup_cons, if_neg hn.1]
    · rfl
  · exact fun c => Nat.le_trans (hmx c) (lat.max c)
  · rw [lat.ends _ (by omega) (by rw [m3]; exact hnot), en3, lookup_cons, if_pos rfl]
  · intro hif
    rw [lat.elses _ (by omega) (by rw [m3]; exact hnot), el3, if_pos hif, lookup_cons, if_pos rfl]

/-- bound on the result registers of a bracket -/
theorem close_bound {K : FnCtx} {v : Lvl} {st1 st2 st3 : CS} {rs : List Cls} {bt : BlockTy} {ct : Ctl} {cs : List Ctl} {sv : List Alloc.Saved}
    {W : Cls → Nat} (ha : AOk (dep v.b rs) (rs ++ v.bs) st1.alloc (K.M.blockParams bt).reverse)
    (hmx : ∀ c, st1.alloc.maxDepth c ≤ st2.alloc.maxDepth c)
    (hct : st2.ctrl = ct :: cs) (hbt : ct.bt = bt) (hsv : st2.saved = ⟨dep v.b rs, (rs ++ v.bs).length⟩ :: sv)
    (h3 : st3.alloc = endAlloc K st2) (hW : ∀ c, st3.alloc.maxDepth c ≤ W c) (c : Cls) :
    dep (dep v.b rs) (K.M.blockResults bt) c ≤ W c := by
  have h := pushAll_ge (K.M.blockResults bt) (st2.alloc.restore ⟨dep v.b rs, (rs ++ v.bs).length⟩) (fun d => by
    have h1 := ha.le d
    have h2 := hmx d
    rw [ha.depth] at h1
    simp only [Alloc.restore, dep] at h1 ⊢
    omega) c
  refine Nat.le_trans h (Nat.le_trans (Nat.le_of_eq ?_) (hW c))
  subst hbt
  rw [h3, endAlloc, hsv, hct]

/-- the parts of opening a bracket that do not depend on its end -/
theorem open_ok {K : FnCtx} {v : Lvl} {st st1 : CS} {a : Alloc} {rs : List Cls} {bt : BlockTy} {isL isIf : Bool} {ins : Instr}
    (ha : AOk v.b v.bs a ((K.M.blockParams bt).reverse ++ rs))
    (e1 : st1 = { openBlock K st a bt isL with mapCtl := (st.code.length, isIf, none) :: st.mapCtl }.emit ins) (h1 : Small st1.alloc) :
    AOk (dep v.b rs) (rs ++ v.bs) st1.alloc (K.M.blockParams bt).reverse ∧
      st1.ctrl = ⟨bt, isL, Alloc.seqRegs (dep v.b rs) (K.M.blockResults bt)⟩ :: st.ctrl ∧
      st1.saved = ⟨dep v.b rs, (rs ++ v.bs).length⟩ :: st.saved ∧ st1.mapCtl = (st.code.length, isIf, none) :: st.mapCtl ∧
      st1.code = st.code ++ [ins] := by
  subst e1
  have a0 := AOk.popAll (K.M.blockParams bt).reverse ha
  have a1 := AOk.pushAll (K.M.blockParams bt) a0 h1
  refine ⟨AOk.reopen a1.1, ?_, ?_, rfl, rfl⟩
  · simp only [CS.emit, openBlock, Alloc.save, Alloc.Saved.nextRegs, a0.depth]
  · simp only [CS.emit, openBlock, Alloc.save, a0.depth, a0.types]

/-- the state after the `end` of a bracket -/
theorem after_ok {K : FnCtx} {v : Lvl} {st2 st3 : CS} {rs ts' : List Cls} {bt : BlockTy} {ct : Ctl} {cs : List Ctl} {sv : List Alloc.Saved}
    (ha : AOk (dep v.b rs) (rs ++ v.bs) st2.alloc ts')
    (hct : st2.ctrl = ct :: cs) (hbt : ct.bt = bt) (hsv : st2.saved = ⟨dep v.b rs, (rs ++ v.bs).length⟩ :: sv)
    (h3 : st3.alloc = endAlloc K st2) (hs : Small st3.alloc) :
    AOk v.b v.bs st3.alloc ((K.M.blockResults bt).reverse ++ rs) := by
  subst hbt
  have e : st3.alloc = (pushAll (st2.alloc.restore ⟨dep v.b rs, (rs ++ v.bs).length⟩) (K.M.blockResults ct.bt)).2 := by
    rw [h3, endAlloc, hsv, hct]
  rw [e] at hs ⊢
  exact (AOk.pushAll _ ha.restore hs).1

end Verif.Lemmas
