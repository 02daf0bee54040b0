import Verif.Lemmas.CompWin
import Verif.Lemmas.CompSym
/-
Compiled code names only registers of the function's window: structured sequences.
-/
namespace Verif.Lemmas
open Verif.Model Verif.Spec Verif.Props

/-- opening a bracket -/
theorem open_win {K : FnCtx} {b : Cls → Nat} {bs : List Cls} {st st1 : CS} {a : Alloc} {rs : List Cls} {bt : BlockTy} {isL isIf : Bool} {ins : Instr}
    (ha : AOk b bs a ((K.M.blockParams bt).reverse ++ rs))
    (e1 : st1 = { openBlock K st a bt isL with mapCtl := (st.code.length, isIf, none) :: st.mapCtl }.emit ins) :
    AOk (dep b rs) (rs ++ bs) st1.alloc (K.M.blockParams bt).reverse ∧
      st1.ctrl = ⟨bt, isL, Alloc.seqRegs (dep b rs) (K.M.blockResults bt)⟩ :: st.ctrl ∧
      st1.saved = ⟨dep b rs, (rs ++ bs).length⟩ :: st.saved ∧ st1.mapCtl = (st.code.length, isIf, none) :: st.mapCtl ∧
      st1.code = st.code ++ [ins] ∧ st1.pend = st.pend ∧ st1.dead = st.dead := by
  subst e1
  have a0 := AOk.popAll (K.M.blockParams bt).reverse ha
  have a1 := AOk.pushAll' (K.M.blockParams bt) a0
  refine ⟨AOk.reopen a1, ?_, ?_, rfl, rfl, rfl, rfl⟩
  · simp only [CS.emit, openBlock, Alloc.save, Alloc.Saved.nextRegs, a0.depth]
  · simp only [CS.emit, openBlock, Alloc.save, a0.depth, a0.types]

/-- the state after the `end` of a bracket -/
theorem after_win {K : FnCtx} {b : Cls → Nat} {bs : List Cls} {st2 st3 : CS} {rs ts' : List Cls} {bt : BlockTy} {ct : Ctl} {cs : List Ctl}
    {sv : List Alloc.Saved} (ha : AOk (dep b rs) (rs ++ bs) st2.alloc ts')
    (hct : st2.ctrl = ct :: cs) (hbt : ct.bt = bt) (hsv : st2.saved = ⟨dep b rs, (rs ++ bs).length⟩ :: sv)
    (h3 : st3.alloc = endAlloc K st2) : AOk b bs st3.alloc ((K.M.blockResults bt).reverse ++ rs) := by
  subst hbt
  have e : st3.alloc = (pushAll (st2.alloc.restore ⟨dep b rs, (rs ++ bs).length⟩) (K.M.blockResults ct.bt)).2 := by
    rw [h3, endAlloc, hsv, hct]
  rw [e]
  exact AOk.pushAll' _ ha.restore

/-- `end` of a bracket -/
theorem close_win {K : FnCtx} {st2 st3 : CS} {rest r : List WOp} {s : Nat} {isIf : Bool} {e : Option Nat} {m : List (Nat × Bool × Option Nat)}
    (hm : st2.mapCtl = (s, isIf, e) :: m) (hc : compOp K { st2 with dead := 0 } .fin rest = some (st3, r)) :
    st3.code = st2.code ++ [.fin (st2.alloc.peekRegs (endTypes K st2)) (endDst st2.ctrl)] ∧
      st3.alloc = endAlloc K st2 ∧ st3.pend = st2.pend ∧ st3.dead = 0 ∧ st3.ctrl = st2.ctrl.tail := by
  have e3 := compOp_fin' (st := { st2 with dead := 0 }) hm hc
  exact ⟨by rw [e3]; rfl, by rw [e3]; rfl, by rw [e3]; rfl, by rw [e3]; rfl, by rw [e3]; rfl⟩

/-- what is known after compiling a sequence -/
structure CompW (K : FnCtx) (W : Cls → Nat) (b : Cls → Nat) (bs : List Cls) (st' : CS) (τ : Option (List Cls)) : Prop where
  win : CWin K W st'
  ex : ∃ ts', AOk b bs st'.alloc ts' ∧ (∀ t, τ = some t → ts' = t ∧ st'.dead = 0) ∧ (τ = none → st'.dead = 1)

/-- closing a bracket keeps the window -/
theorem CWin.close {K : FnCtx} {W : Cls → Nat} {b : Cls → Nat} {bs rs tb : List Cls} {st st1 st2 st3 : CS} {bt : BlockTy} {isL : Bool}
    {rest r : List WOp} {s : Nat} {isIf : Bool} {e : Option Nat} {m : List (Nat × Bool × Option Nat)}
    (hW : CWin K W st2) (hm : st2.mapCtl = (s, isIf, e) :: m) (hc : compOp K { st2 with dead := 0 } .fin rest = some (st3, r))
    (h1 : AOk (dep b rs) (rs ++ bs) st1.alloc (K.M.blockParams bt).reverse) (h2 : AOk (dep b rs) (rs ++ bs) st2.alloc tb)
    (hct : st2.ctrl = ⟨bt, isL, Alloc.seqRegs (dep b rs) (K.M.blockResults bt)⟩ :: st.ctrl)
    (hsv : st2.saved = ⟨dep b rs, (rs ++ bs).length⟩ :: st.saved)
    (hw : ∀ c, st3.alloc.maxDepth c ≤ W c) :
    CWin K W st3 ∧ AOk b bs st3.alloc ((K.M.blockResults bt).reverse ++ rs) ∧ st3.ctrl = st.ctrl := by
  obtain ⟨c1, c2, c3, c4, c5⟩ := close_win hm hc
  have a3 := after_win h2 hct rfl hsv c2
  refine ⟨?_, a3, by rw [c5, hct]; rfl⟩
  refine hW.emit c1 (by rw [c3]; exact hW.pend) ⟨fun x hx => ?_, by simp [Instr.locs]⟩
  obtain ⟨g1, g2⟩ := AOk.room a3 hw
  have hmx := compOp_max hc
  have et : endTypes K st2 = K.M.blockResults bt := by simp only [endTypes, hct]
  simp only [Instr.regs, List.mem_append, et, hct, endDst] at hx
  rcases hx with h | h
  · exact peekRegs_lt (fun c => Nat.le_trans (h2.le c) (Nat.le_trans (hmx c) (hw c))) g2 x h
  · have := seqRegs_lt _ _ x h
    have h5 := g1 x.cls
    rw [a3.depth] at h5
    simp only [dep, List.count_append, List.count_reverse] at this h5
    omega

/-- the context inside a bracket -/
theorem CtxIn.enter {L : List (List Cls)} {ctrl : List Ctl} {W : Cls → Nat} {lt : List Cls} {ct : Ctl} (h : CtxIn L ctrl W)
    (h1 : ct.isLoop = false → ct.resultRegs.map (·.cls) = lt) (h2 : ∀ r ∈ ct.resultRegs, r.idx < W r.cls) : CtxIn (lt :: L) (ct :: ctrl) W := by
  intro d x hx
  cases d with
  | zero =>
    simp only [List.getElem?_cons_zero, Option.some.injEq] at hx
    subst hx
    exact ⟨lt, rfl, h1, h2⟩
  | succ d => exact h d x (by simpa using hx)

/-- the result registers of a bracket lie in the window -/
theorem results_win {K : FnCtx} {W : Cls → Nat} {b : Cls → Nat} {bs rs : List Cls} {st1 st2 st3 : CS} {bt : BlockTy} {ct : Ctl} {cs : List Ctl}
    {sv : List Alloc.Saved} (h1 : AOk (dep b rs) (rs ++ bs) st1.alloc (K.M.blockParams bt).reverse)
    (hmx : ∀ c, st1.alloc.maxDepth c ≤ st2.alloc.maxDepth c)
    (hct : st2.ctrl = ct :: cs) (hbt : ct.bt = bt) (hsv : st2.saved = ⟨dep b rs, (rs ++ bs).length⟩ :: sv)
    (h3 : st3.alloc = endAlloc K st2) (hw : ∀ c, st3.alloc.maxDepth c ≤ W c) :
    ∀ r ∈ Alloc.seqRegs (dep b rs) (K.M.blockResults bt), r.idx < W r.cls := by
  intro r hr
  have g1 := seqRegs_lt _ _ r hr
  have g2 := close_bound (v := ⟨b, bs, [], [], [], [], []⟩) (W := W) h1 hmx hct hbt hsv h3 hw r.cls
  simp only [dep] at g1 g2
  omega

theorem win_seq {K : FnCtx} {W : Cls → Nat} (hh : Hosts K.M) {w : WSeq} {tail : List WOp} {st st' : CS}
    (h : CompSeq K w tail st st') : ∀ {b : Cls → Nat} {bs ts : List Cls} {L : List (List Cls)} {τ : Option (List Cls)}, NoRefSelect w →
      check K L w ts = some τ → AOk b bs st.alloc ts → st.dead = 0 → CWin K W st → CtxIn L st.ctrl W →
      (∀ c, st'.alloc.maxDepth c ≤ W c) → CompW K W b bs st' τ := by
  induction h with
  | done hd =>
    intro b bs ts L τ hn hck ha hd hW hx hw
    simp only [check, Option.some.injEq] at hck
    subst hck
    exact ⟨hW, ts, ha, fun t e => by cases e; exact ⟨rfl, hd⟩, (nomatch ·)⟩
  | dead h1 =>
    intro b bs ts L τ hn hck ha hd hW hx hw
    omega
  | @op o k tail st st1 st2 hd0 hb hc hk ih =>
    intro b bs ts L τ hn hck ha hd hW hx hw
    simp only [NoRefSelect] at hn
    have hw1 : ∀ c, st1.alloc.maxDepth c ≤ W c := fun c => Nat.le_trans (hk.ext.max c) (hw c)
    simp only [check] at hck
    split at hck
    · cases hck
    · rename_i ht
      cases hck
      obtain ⟨h1, h2, _⟩ := op_win hh hb hn.1 hW ha hx hw1 ht hc
      obtain ⟨h3, ts', h4⟩ := h2 rfl
      have e2 := hk.of_dead h3
      subst e2
      exact ⟨h1.skip _, ts', h4, (fun _ h => nomatch h), fun _ => h3⟩
    · rename_i ts1 ht
      obtain ⟨h1, _, h2⟩ := op_win hh hb hn.1 hW ha hx hw1 ht hc
      obtain ⟨h3, h4⟩ := h2 _ rfl
      exact ih hn.2 hck h3 (by omega) h1 (by rw [(Ext.plain hb hc).ctrl]; exact hx) hw
  | @fused o i k tail st st1 st2 hd0 hb hc hk ih =>
    intro b bs ts L τ hn hck ha hd hW hx hw
    simp only [NoRefSelect] at hn
    have hw1 : ∀ c, st1.alloc.maxDepth c ≤ W c := fun c => Nat.le_trans (hk.ext.max c) (hw c)
    have hw0 : ∀ c, st.alloc.maxDepth c ≤ W c := fun c => Nat.le_trans (compOp_max hc c) (hw1 c)
    have hco := fused_consumer hb hc
    simp only [check] at hck
    split at hck
    · cases hck
    · rename_i ht
      exfalso
      cases o <;> simp only [consumer, Bool.false_eq_true] at hco <;> simp [stepTy] at ht
    · rename_i ts1 ht
      have ht' := opTy_of_stepTy (by rintro d rfl; simp [consumer] at hco) ht
      obtain ⟨dc, ts0, rfl, htk⟩ := takesW_op hco ha hw0 hW.pend ht' hc
      split at hck
      · cases hck
      · rename_i h; simp [stepTy] at h
      · rename_i ts2 ht2
        obtain ⟨h1, h2, h3⟩ := takesW_fused hW (opTy_of_stepTy (by simp) ht2) htk
        exact ih hn.2.2 hck h2 (by omega) h1 (by rw [(Ext.plain hb hc).ctrl]; exact hx) hw
  | @block bt bb k tail st st1 st2 st3 st4 hd0 hc1 hb hc3 hk ihb ihk =>
    intro b bs ts L τ hn hck ha hd hW hx hw
    simp only [NoRefSelect] at hn
    have hw3 : ∀ c, st3.alloc.maxDepth c ≤ W c := fun c => Nat.le_trans (hk.ext.max c) (hw c)
    have hw2 : ∀ c, st2.alloc.maxDepth c ≤ W c := fun c => Nat.le_trans (compOp_max hc3 c) (hw3 c)
    simp only [check] at hck
    split at hck
    case h_2 => cases hck
    rename_i r τb hr hckb
    split at hck
    case isFalse => cases hck
    rename_i hfit
    have hts := popTys_some hr
    subst hts
    have e1 := compOp_block (isL := false) hc1
    obtain ⟨o1, o2, o3, o4, o5, o6, o7⟩ := open_win ha e1
    have m2 := hb.ext.mapCtl.trans o4
    have ct2 := hb.ext.ctrl.trans o2
    have sv2 := hb.ext.saved.trans o3
    have rw' := results_win o1 hb.ext.max ct2 rfl sv2 (close_win m2 hc3).2.1 hw3
    have hW1 : CWin K W st1 := hW.emit o5 (by rw [o6]; exact hW.pend) ⟨by simp [Instr.regs], by simp [Instr.locs]⟩
    obtain ⟨g1, tb, g2, _⟩ := ihb hn.1 hckb o1 (by omega) hW1 (by rw [o2]; exact hx.enter (fun _ => seqRegs_cls _ _) rw') hw2
    obtain ⟨k1, k2, k3⟩ := g1.close m2 hc3 o1 g2 ct2 sv2 hw3
    exact ihk hn.2 hck k2 (compOp_fin hc3).2 k1 (by rw [k3]; exact hx) hw
  | @loop bt bb k tail st st1 st2 st3 st4 hd0 hc1 hb hc3 hk ihb ihk =>
    intro b bs ts L τ hn hck ha hd hW hx hw
    simp only [NoRefSelect] at hn
    have hw3 : ∀ c, st3.alloc.maxDepth c ≤ W c := fun c => Nat.le_trans (hk.ext.max c) (hw c)
    have hw2 : ∀ c, st2.alloc.maxDepth c ≤ W c := fun c => Nat.le_trans (compOp_max hc3 c) (hw3 c)
    simp only [check] at hck
    split at hck
    case h_2 => cases hck
    rename_i r τb hr hckb
    split at hck
    case isFalse => cases hck
    rename_i hfit
    have hts := popTys_some hr
    subst hts
    have e1 := compOp_block (isL := true) hc1
    obtain ⟨o1, o2, o3, o4, o5, o6, o7⟩ := open_win ha e1
    have m2 := hb.ext.mapCtl.trans o4
    have ct2 := hb.ext.ctrl.trans o2
    have sv2 := hb.ext.saved.trans o3
    have rw' := results_win o1 hb.ext.max ct2 rfl sv2 (close_win m2 hc3).2.1 hw3
    have hW1 : CWin K W st1 := hW.emit o5 (by rw [o6]; exact hW.pend) ⟨by simp [Instr.regs], by simp [Instr.locs]⟩
    obtain ⟨g1, tb, g2, _⟩ := ihb hn.1 hckb o1 (by omega) hW1 (by rw [o2]; exact hx.enter (fun h => nomatch h) rw') hw2
    obtain ⟨k1, k2, k3⟩ := g1.close m2 hc3 o1 g2 ct2 sv2 hw3
    exact ihk hn.2 hck k2 (compOp_fin hc3).2 k1 (by rw [k3]; exact hx) hw
  | @ite bt bb k tail st st1 st2 st3 st4 hd0 hc1 hb hc3 hk ihb ihk =>
    intro b bs ts L τ hn hck ha hd hW hx hw
    simp only [NoRefSelect] at hn
    have hw3 : ∀ c, st3.alloc.maxDepth c ≤ W c := fun c => Nat.le_trans (hk.ext.max c) (hw c)
    have hw2 : ∀ c, st2.alloc.maxDepth c ≤ W c := fun c => Nat.le_trans (compOp_max hc3 c) (hw3 c)
    have hw1 : ∀ c, st1.alloc.maxDepth c ≤ W c := fun c => Nat.le_trans (hb.ext.max c) (hw2 c)
    have hw0 : ∀ c, st.alloc.maxDepth c ≤ W c := fun c => Nat.le_trans (compOp_max hc1 c) (hw1 c)
    simp only [check] at hck
    split at hck
    case h_2 => cases hck
    rename_i r τb hr hckb
    split at hck
    case isFalse => cases hck
    rename_i hfit
    have hts := popTys_some hr
    rw [List.reverse_append] at hts
    have hts : ts = .i32 :: ((K.M.blockParams bt).reverse ++ r) := hts
    subst hts
    have e1 := compOp_ite hc1
    obtain ⟨o1, o2, o3, o4, o5, o6, o7⟩ := open_win (AOk.pop ha) e1
    have m2 := hb.ext.mapCtl.trans o4
    have ct2 := hb.ext.ctrl.trans o2
    have sv2 := hb.ext.saved.trans o3
    have rw' := results_win o1 hb.ext.max ct2 rfl sv2 (close_win m2 hc3).2.1 hw3
    have hW1 : CWin K W st1 := hW.emit o5 (by rw [o6]; exact hW.pend) ⟨by simpa [Instr.regs] using AOk.pop_lt ha hw0, by simp [Instr.locs]⟩
    obtain ⟨g1, tb, g2, _⟩ := ihb hn.1 hckb o1 (by omega) hW1 (by rw [o2]; exact hx.enter (fun _ => seqRegs_cls _ _) rw') hw2
    obtain ⟨k1, k2, k3⟩ := g1.close m2 hc3 o1 g2 ct2 sv2 hw3
    exact ihk hn.2 hck k2 (compOp_fin hc3).2 k1 (by rw [k3]; exact hx) hw
  | @itee bt t e k tail st st1 st2 st3 st4 st5 st6 hd0 hc1 hb hc3 he hc5 hk ihb ihe ihk =>
    intro b bs ts L τ hn hck ha hd hW hx hw
    simp only [NoRefSelect] at hn
    have hw5 : ∀ c, st5.alloc.maxDepth c ≤ W c := fun c => Nat.le_trans (hk.ext.max c) (hw c)
    have hw4 : ∀ c, st4.alloc.maxDepth c ≤ W c := fun c => Nat.le_trans (compOp_max hc5 c) (hw5 c)
    have hw3 : ∀ c, st3.alloc.maxDepth c ≤ W c := fun c => Nat.le_trans (he.ext.max c) (hw4 c)
    have mx3 := compOp_max hc3
    have hw2 : ∀ c, st2.alloc.maxDepth c ≤ W c := fun c => Nat.le_trans (mx3 c) (hw3 c)
    have hw1 : ∀ c, st1.alloc.maxDepth c ≤ W c := fun c => Nat.le_trans (hb.ext.max c) (hw2 c)
    have hw0 : ∀ c, st.alloc.maxDepth c ≤ W c := fun c => Nat.le_trans (compOp_max hc1 c) (hw1 c)
    simp only [check] at hck
    split at hck
    case h_2 => cases hck
    rename_i r τb τe hr hckb hcke
    split at hck
    case isFalse => cases hck
    rename_i hfit
    have hts := popTys_some hr
    rw [List.reverse_append] at hts
    have hts : ts = .i32 :: ((K.M.blockParams bt).reverse ++ r) := hts
    subst hts
    have e1 := compOp_ite hc1
    obtain ⟨o1, o2, o3, o4, o5, o6, o7⟩ := open_win (AOk.pop ha) e1
    have m2 := hb.ext.mapCtl.trans o4
    have ct2 := hb.ext.ctrl.trans o2
    have sv2 := hb.ext.saved.trans o3
    have e3 := compOp_els' (st := { st2 with dead := 0 }) m2 hc3
    have c3 : st3.code = st2.code ++ [.jump 0] := by rw [e3]; rfl
    have m4 : st4.mapCtl = (st.code.length, true, some (st2.code.length + 1)) :: st.mapCtl := by rw [he.ext.mapCtl, e3]; rfl
    have ct3 : st3.ctrl = ⟨bt, false, Alloc.seqRegs (dep b r) (K.M.blockResults bt)⟩ :: st.ctrl := by rw [e3]; exact ct2
    have ct4 := he.ext.ctrl.trans ct3
    have sv4 : st4.saved = ⟨dep b r, (r ++ bs).length⟩ :: st.saved := by rw [he.ext.saved, e3]; exact sv2
    have rw' := results_win o1 (fun c => Nat.le_trans (hb.ext.max c) (Nat.le_trans (mx3 c) (he.ext.max c))) ct4 rfl sv4 (close_win m4 hc5).2.1 hw5
    have hW1 : CWin K W st1 := hW.emit o5 (by rw [o6]; exact hW.pend) ⟨by simpa [Instr.regs] using AOk.pop_lt ha hw0, by simp [Instr.locs]⟩
    obtain ⟨t1, tt, t2, _⟩ := ihb hn.1 hckb o1 (by omega) hW1 (by rw [o2]; exact hx.enter (fun _ => seqRegs_cls _ _) rw') hw2
    have a3 : AOk (dep b r) (r ++ bs) st3.alloc (K.M.blockParams bt).reverse := by
      have e : st3.alloc = (pushAll (st2.alloc.restore ⟨dep b r, (r ++ bs).length⟩) (K.M.blockParams bt)).2 := by
        rw [e3]; simp only [CS.emit, elseAlloc, sv2, ct2]
      rw [e]
      exact AOk.reopen (AOk.pushAll' _ t2.restore)
    have hW3 : CWin K W st3 := t1.emit c3 (by rw [e3]; exact t1.pend) ⟨by simp [Instr.regs], by simp [Instr.locs]⟩
    obtain ⟨g1, tb, g2, _⟩ := ihe hn.2.1 hcke a3 (by rw [e3]; rfl) hW3 (by rw [ct3]; exact hx.enter (fun _ => seqRegs_cls _ _) rw') hw4
    obtain ⟨k1, k2, k3⟩ := g1.close m4 hc5 o1 g2 ct4 sv4 hw5
    exact ihk hn.2.2 hck k2 (compOp_fin hc5).2 k1 (by rw [k3]; exact hx) hw

end Verif.Lemmas
