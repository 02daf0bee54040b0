import Verif.Lemmas.CompOp
/-
Every operator of reachable code, continued: operators without pending operands, branches and calls.
-/
namespace Verif.Lemmas
open Verif.Model Verif.Spec Verif.Props

theorem live_local {K : FnCtx} {fin : CS} {body : List Instr} {v : Lvl} {st stx st1 : CS} {o : WOp} {k : WSeq} {ts1 r : List Cls}
    {keep os : List SOp} {c : Cls} {i x : Nat} (fx : Fx K fin body) (hi : InL v st) (hx : stx.code = st.code) (hd : stx.dead = st.dead)
    (hp : stx.pend = []) (ha : AOk v.b v.bs stx.alloc ts1) (lat : Later st1 fin) (hlt : FnCtx.lty K i = some c)
    (h : storeLocal stx c x i = some st1)
    (ho : OpE K o [sr c x] keep (.op1 (.mov c) (.loc i) (.reg x)))
    (ho' : c = .ref → OpE K o [sr .ref x] keep (.refLocalSet x i))
    (hos : os = [sr c x] ++ sops v.b r) (hk : sops v.b ts1 = keep ++ sops v.b r) : Live K fin body v (.op o k) k os st st1 ts1 := by
  have hu := u16_eq fx (lty_type hlt).2
  cases c <;> simp only [storeLocal, hu, Option.some.injEq, reduceCtorEq] at h
  case ref => exact live_eff fx hi hx hd hp ha h.symm rfl lat (ho' rfl) hos hk
  all_goals exact live_eff fx hi hx hd hp ha h.symm rfl lat ho hos hk

theorem no_v128 {ts : List Cls} (h : (ts.all fun c => decide (c ≠ .v128)) = true) : ∀ c ∈ ts, c ≠ .v128 := by
  simpa using h

theorem sregs_cls_sqr (f : Cls → Nat) (ts : List Cls) : (sqr f ts).map (·.cls) = ts := sqr_cls ts f

theorem pops3 {b : Cls → Nat} {bs r : List Cls} {a : Alloc} {x y z : Cls} (h : AOk b bs a (x :: y :: z :: r)) (hs : Small a) :
    (a.pop x).1.idx = dep b (y :: z :: r) x ∧ ((a.pop x).2.pop y).1.idx = dep b (z :: r) y ∧
      (((a.pop x).2.pop y).2.pop z).1.idx = dep b r z ∧ AOk b bs (((a.pop x).2.pop y).2.pop z).2 r := by
  refine ⟨by rw [h.popReg hs], ?_, ?_, h.pop.pop.pop⟩
  · rw [AOk.popReg h.pop hs]
  · rw [AOk.popReg h.pop.pop hs]

theorem live_op {K : FnCtx} {fin : CS} {body : List Instr} {v : Lvl} {st st1 : CS} {o : WOp} {k : WSeq} {tail : List WOp}
    {ts ts1 : List Cls} {os : List SOp} {τ : Option (List Cls)} (fx : Fx K fin body) (hv : LvlOk K fin v) (hi : InL v st)
    (ha : AOk v.b v.bs st.alloc ts) (ps : PSt v.b st.pend (.op o k) ts os) (hbr : isBracket o = false)
    (ht : stepTy K v.L o ts = some (some ts1))
    (hck : check K v.L k ts1 = some τ) (hpl : plainOp K v.N ts o = true) (hcr : crossed K (.op o k) = false) (tl : TailOk tail)
    (lat : Later st1 fin)
    (hc : compOp K st o (k.flat ++ tail) = some (st1, k.flat ++ tail)) :
    Live K fin body v (.op o k) k os st st1 ts1 := by
  have hmax : ∀ c, st.alloc.maxDepth c ≤ fin.alloc.maxDepth c := fun c => Nat.le_trans (compOp_max hc c) (lat.max c)
  have hs : Small st.alloc := small_of_le fx.small hmax
  have hs1 : Small st1.alloc := small_of_le fx.small lat.max
  by_cases hco : consumer o = true
  · have ht' := opTy_of_stepTy (by rintro d rfl; simp [consumer] at hco) ht
    by_cases hh : Halves o st.pend
    · exact halves_live fx hv hi lat hh ha ps ht' hc
    obtain ⟨dc, ts0, rfl, h⟩ := takes_op hco hh ha hs ps ht' hc
    exact takes_live fx hv hi lat h
  · cases o <;> simp only [consumer, not_true_eq_false] at hco <;> simp only [isBracket, Bool.true_eq_false] at hbr
    case const c x => exact live_const fx hv hi ha ps (opTy_of_stepTy (by simp) ht) hck hcr tl lat hc
    case localGet i => exact live_localGet fx hv hi ha ps (opTy_of_stepTy (by simp) ht) hck hcr tl lat hc
    case localSet i =>
      obtain ⟨hp, rfl⟩ := ps.quiet rfl
      have ht := opTy_of_stepTy (by simp) ht
      simp only [opTy] at ht
      split at ht
      case h_2 => cases ht
      rename_i c hl
      obtain ⟨r, rfl, rfl⟩ := sig_some ht
      simp only [compOp, Option.map_eq_some_iff, (lty_type hl).1] at hc
      obtain ⟨y, hy, he⟩ := hc
      cases he
      rw [show (st.alloc.pop c).1 = ⟨c, dep v.b ts1 c⟩ from AOk.popReg ha hs] at hy
      exact live_local (r := ts1) (keep := []) fx hi (by rfl) (by rfl) (by exact hp) (AOk.pop (ts := ts1) ha) lat hl hy (.localSet hl) (fun e => by subst e; exact .localSetRef hl) rfl rfl
    case localTee i =>
      obtain ⟨hp, rfl⟩ := ps.quiet rfl
      have ht := opTy_of_stepTy (by simp) ht
      simp only [opTy] at ht
      split at ht
      case h_2 => cases ht
      rename_i c hl
      obtain ⟨r, rfl, rfl⟩ := sig_some ht
      simp only [compOp, (lty_type hl).1] at hc
      rw [show st.alloc.peek c = some ⟨c, dep v.b r c⟩ from AOk.peek ha hs] at hc
      simp only [Option.map_eq_some_iff] at hc
      obtain ⟨y, hy, he⟩ := hc
      cases he
      exact live_local (r := r) (keep := [sr c (dep v.b r c)]) fx hi rfl rfl hp ha lat hl hy (.localTee hl) (fun e => by subst e; exact .localTeeRef hl) rfl rfl
    case globalSet g =>
      obtain ⟨hp, rfl⟩ := ps.quiet rfl
      have ht := opTy_of_stepTy (by simp) ht
      simp only [opTy] at ht
      split at ht
      case h_2 => cases ht
      rename_i c hg
      obtain ⟨r, rfl, rfl⟩ := sig_some ht
      simp only [compOp, MInfo.globalType, hg, Option.getD_some] at hc
      split at hc
      · cases hc
      · rename_i d hd
        obtain ⟨rfl, hn⟩ := selectBank_some hd
        simp only [Option.some.injEq, Prod.mk.injEq, hp, take_nil, globalSrc] at hc
        rw [show (st.alloc.pop d).1 = ⟨d, dep v.b ts1 d⟩ from AOk.popReg ha hs] at hc
        exact live_eff (args := [sr d (dep v.b ts1 d)]) (keep := []) (r := ts1) fx hi (by rfl) (by rfl) (by rfl) (AOk.pop (ts := ts1) ha) hc.1.symm rfl lat
          (.globalSet hg hn) rfl rfl
    case store op off =>
      have ht := opTy_of_stepTy (by simp) ht
      simp only [opTy] at ht
      obtain ⟨r, hts, hr⟩ := sig_some ht
      have hr : ts1 = r := hr
      subst hr
      have hts : ts = op.cls :: .i32 :: ts1 := hts
      have ha' := ha
      rw [hts] at ha'
      have r2 := AOk.popReg ha' hs
      have a1 := AOk.pop ha'
      have r1 := AOk.popReg a1 hs
      have a0 := AOk.pop a1
      simp only [compOp, Option.some.injEq, Prod.mk.injEq] at hc
      generalize hpend : st.pend = pend at ps
      cases ps with
      | none =>
        subst hts
        rw [hpend, take_nil, r1, r2] at hc
        exact live_eff (args := [sr op.cls (dep v.b (.i32 :: ts1) op.cls), sr .i32 (dep v.b ts1 .i32)]) (keep := []) (r := ts1) fx hi
          (by rfl) (by rfl) (by rfl) a0 hc.1.symm rfl lat .store rfl rfl
      | now h =>
        rcases h with h | ⟨⟨op, off, h⟩, _⟩
        · simp [consumes] at h
        · cases h
      | wait h => simp [producerFor] at h
      | waitSt h => rcases h with ⟨c, v, h⟩ | ⟨i, h⟩ <;> cases h
      | waitUn h => simp [producerFor] at h
      | @st p c _ _ _ t hpc =>
        have e1 := (List.cons.inj hts).1
        have e2 := (List.cons.inj (List.cons.inj hts).2).2
        subst e1 e2
        obtain ⟨o', t', s'⟩ := take_hit hpc.symm [] ((st.alloc.pop op.cls).2.pop .i32).1.idx
        rw [hpend, t', r2] at hc
        rw [hpc, s']
        exact live_eff (args := [sr op.cls (dep v.b (.i32 :: _) op.cls), ⟨.i32, o'⟩]) (keep := []) (r := _) fx hi
          (by rfl) (by rfl) (by rfl) a0 hc.1.symm rfl lat .store rfl rfl
    case memSize =>
      obtain ⟨hp, rfl⟩ := ps.quiet rfl
      have ht := opTy_of_stepTy (by simp) ht
      simp only [opTy] at ht
      obtain ⟨r, rfl, rfl⟩ := sig_some ht
      simp only [compOp, Option.some.injEq, Prod.mk.injEq] at hc
      exact live_val (stx := st) (args := []) fx hv hi rfl rfl ha hc.1.symm rfl lat (fun e => by rw [e]; exact .memSize) rfl sops_lt (PSt.of_nil hp)
    case memGrow =>
      obtain ⟨hp, rfl⟩ := ps.quiet rfl
      have ht := opTy_of_stepTy (by simp) ht
      simp only [opTy] at ht
      obtain ⟨r, rfl, rfl⟩ := sig_some ht
      simp only [compOp, Option.some.injEq, Prod.mk.injEq] at hc
      exact live_val (stx := st) (args := [sr .i32 (dep v.b r .i32)]) fx hv hi rfl rfl (AOk.pop (ts := r) ha) hc.1.symm rfl lat
        (fun e => by rw [e, show (st.alloc.pop .i32).1 = ⟨.i32, dep v.b r .i32⟩ from AOk.popReg ha hs]; exact .memGrow) rfl sops_lt (PSt.of_nil hp)
    case memCopy =>
      obtain ⟨hp, rfl⟩ := ps.quiet rfl
      have ht := opTy_of_stepTy (by simp) ht
      simp only [opTy] at ht
      obtain ⟨r, rfl, rfl⟩ := sig_some ht
      obtain ⟨e1, e2, e3, a0⟩ := pops3 (r := ts1) ha hs
      simp only [compOp, Option.some.injEq, Prod.mk.injEq, e1, e2, e3] at hc
      exact live_eff (keep := []) (r := ts1) fx hi (by rfl) (by rfl) (by exact hp) a0 hc.1.symm rfl lat .memCopy rfl rfl
    case memInit n =>
      obtain ⟨hp, rfl⟩ := ps.quiet rfl
      have ht := opTy_of_stepTy (by simp) ht
      simp only [opTy] at ht
      obtain ⟨r, rfl, rfl⟩ := sig_some ht
      obtain ⟨e1, e2, e3, a0⟩ := pops3 (r := ts1) ha hs
      simp only [compOp, Option.some.injEq, Prod.mk.injEq, e1, e2, e3] at hc
      exact live_eff (keep := []) (r := ts1) fx hi (by rfl) (by rfl) (by exact hp) a0 hc.1.symm rfl lat .memInit rfl rfl
    case memFill =>
      obtain ⟨hp, rfl⟩ := ps.quiet rfl
      have ht := opTy_of_stepTy (by simp) ht
      simp only [opTy] at ht
      obtain ⟨r, rfl, rfl⟩ := sig_some ht
      obtain ⟨e1, e2, e3, a0⟩ := pops3 (r := ts1) ha hs
      simp only [compOp, Option.some.injEq, Prod.mk.injEq, e1, e2, e3] at hc
      exact live_eff (keep := []) (r := ts1) fx hi (by rfl) (by rfl) (by exact hp) a0 hc.1.symm rfl lat .memFill rfl rfl
    case dataDrop n =>
      obtain ⟨hp, rfl⟩ := ps.quiet rfl
      have ht := opTy_of_stepTy (by simp) ht
      simp only [opTy, Option.some.injEq] at ht
      subst ht
      simp only [compOp, Option.some.injEq, Prod.mk.injEq] at hc
      exact live_eff (keep := []) (args := []) (r := ts) fx hi (by rfl) (by rfl) hp ha hc.1.symm rfl lat .dataDrop rfl rfl
    case select =>
      obtain ⟨hp, rfl⟩ := ps.quiet rfl
      have ht := opTy_of_stepTy (by simp) ht
      simp only [opTy] at ht
      split at ht
      case h_2 => cases ht
      rename_i x y r ht0
      split at ht
      case isFalse => cases ht
      rename_i hxy
      obtain ⟨rfl, hn⟩ := hxy
      cases ht
      obtain ⟨e1, e2, e3, a0⟩ := pops3 (r := r) ha hs
      have et : (st.alloc.pop .i32).2.peekType.getD .i32 = x := by simp [Alloc.peekType, (AOk.pop ha).types]
      simp only [compOp] at hc
      rw [et, (selectBankT_num hn).2] at hc
      simp only [compSelect, Option.some.injEq, Prod.mk.injEq] at hc
      exact live_val (stx := st) (args := [sr .i32 (dep v.b (x :: x :: r) .i32), sr x (dep v.b (x :: r) x), sr x (dep v.b r x)])
        fx hv hi rfl rfl a0 hc.1.symm rfl lat (fun e => by rw [e, e1, e2, e3]; exact .select) rfl sops_lt (PSt.of_nil hp)
    case selectT x =>
      obtain ⟨hp, rfl⟩ := ps.quiet rfl
      have ht := opTy_of_stepTy (by simp) ht
      simp only [opTy] at ht
      obtain ⟨r, rfl, rfl⟩ := sig_some ht
      obtain ⟨e1, e2, e3, a0⟩ := pops3 (r := r) ha hs
      simp only [compOp] at hc
      rw [(selectBankT_num hpl).1] at hc
      simp only [compSelect, Option.some.injEq, Prod.mk.injEq] at hc
      exact live_val (stx := st) (args := [sr .i32 (dep v.b (x :: x :: r) .i32), sr x (dep v.b (x :: r) x), sr x (dep v.b r x)])
        fx hv hi rfl rfl a0 hc.1.symm rfl lat (fun e => by rw [e, e1, e2, e3]; exact .selectT) rfl sops_lt (PSt.of_nil hp)
    case refNull =>
      obtain ⟨hp, rfl⟩ := ps.quiet rfl
      have ht := opTy_of_stepTy (by simp) ht
      simp only [opTy] at ht
      obtain ⟨r, rfl, rfl⟩ := sig_some ht
      simp only [compOp, Option.some.injEq, Prod.mk.injEq] at hc
      exact live_val (stx := st) (args := []) fx hv hi rfl rfl ha hc.1.symm rfl lat (fun e => by rw [e]; exact .refNull) rfl sops_lt (PSt.of_nil hp)
    case refIsNull =>
      obtain ⟨hp, rfl⟩ := ps.quiet rfl
      have ht := opTy_of_stepTy (by simp) ht
      simp only [opTy] at ht
      obtain ⟨r, rfl, rfl⟩ := sig_some ht
      simp only [compOp, Option.some.injEq, Prod.mk.injEq] at hc
      exact live_val (stx := st) (args := [sr .ref (dep v.b r .ref)]) fx hv hi rfl rfl (AOk.pop (ts := r) ha) hc.1.symm rfl lat
        (fun e => by rw [e, show (st.alloc.pop .ref).1 = ⟨.ref, dep v.b r .ref⟩ from AOk.popReg ha hs]; exact .refIsNull) rfl sops_lt (PSt.of_nil hp)
    case tableGet t =>
      obtain ⟨hp, rfl⟩ := ps.quiet rfl
      have ht := opTy_of_stepTy (by simp) ht
      simp only [opTy] at ht
      obtain ⟨r, rfl, rfl⟩ := sig_some ht
      simp only [compOp, Option.some.injEq, Prod.mk.injEq] at hc
      exact live_val (stx := st) (args := [sr .i32 (dep v.b r .i32)]) fx hv hi rfl rfl (AOk.pop (ts := r) ha) hc.1.symm rfl lat
        (fun e => by rw [e, show (st.alloc.pop .i32).1 = ⟨.i32, dep v.b r .i32⟩ from AOk.popReg ha hs]; exact .tableGet) rfl sops_lt (PSt.of_nil hp)
    case tableSet t =>
      obtain ⟨hp, rfl⟩ := ps.quiet rfl
      have ht := opTy_of_stepTy (by simp) ht
      simp only [opTy] at ht
      obtain ⟨r, rfl, rfl⟩ := sig_some ht
      have r2 := AOk.popReg (ts := .i32 :: ts1) ha hs
      have a1 := AOk.pop (ts := .i32 :: ts1) ha
      have r1 := AOk.popReg a1 hs
      simp only [compOp, Option.some.injEq, Prod.mk.injEq, r2, r1] at hc
      exact live_eff (keep := []) (r := ts1) fx hi (by rfl) (by rfl) (by exact hp) (AOk.pop a1) hc.1.symm rfl lat .tableSet rfl rfl
    case tableFill t =>
      obtain ⟨hp, rfl⟩ := ps.quiet rfl
      have ht := opTy_of_stepTy (by simp) ht
      simp only [opTy] at ht
      obtain ⟨r, rfl, rfl⟩ := sig_some ht
      obtain ⟨e1, e2, e3, a0⟩ := pops3 (r := ts1) ha hs
      simp only [compOp, Option.some.injEq, Prod.mk.injEq, e1, e2, e3] at hc
      exact live_eff (keep := []) (r := ts1) fx hi (by rfl) (by rfl) (by exact hp) a0 hc.1.symm rfl lat .tableFill rfl rfl
    case drop =>
      obtain ⟨hp, rfl⟩ := ps.quiet rfl
      have ht := opTy_of_stepTy (by simp) ht
      simp only [opTy] at ht
      split at ht
      case h_2 => cases ht
      rename_i c r
      cases ht
      simp only [compOp, Option.some.injEq, Prod.mk.injEq, Alloc.popAny, ha.types, List.cons_append] at hc
      obtain ⟨rfl, _⟩ := hc
      exact ⟨⟨_, AOk.pop ha, PSt.of_nil hp, rfl, fun pc' out h => Sym.drop h⟩⟩
    case nop =>
      obtain ⟨hp, rfl⟩ := ps.quiet rfl
      have ht := opTy_of_stepTy (by simp) ht
      simp only [opTy, Option.some.injEq] at ht
      subst ht
      simp only [compOp, Option.some.injEq, Prod.mk.injEq] at hc
      obtain ⟨rfl, _⟩ := hc
      exact ⟨⟨_, ha, PSt.of_nil hp, rfl, fun pc' out h => Sym.nop h⟩⟩
    case brIf d =>
      obtain ⟨hp, rfl⟩ := ps.quiet rfl
      simp only [stepTy] at ht
      split at ht
      case h_2 => cases ht
      rename_i r hr
      split at ht
      case isFalse => cases ht
      rename_i hlab
      cases ht
      have hts := popTys_some hr
      subst hts
      have a0 := AOk.pop (ts := ts1) ha
      simp only [compOp, Option.some.injEq, Prod.mk.injEq] at hc
      rw [show st.alloc.peek .i32 = some ⟨.i32, dep v.b ts1 .i32⟩ from AOk.peek ha hs] at hc
      obtain ⟨rfl, _⟩ := hc
      have hi' : InL v { st with alloc := (st.alloc.pop .i32).2 } := ⟨hi.ctrl, hi.saved, hi.maps, hi.scan, hi.lt⟩
      obtain ⟨j, hj, hpat⟩ := body_at (i := .brIf d 0 (dep v.b ts1 .i32) (branchRegs { st with alloc := (st.alloc.pop .i32).2 } d).1
        (branchRegs { st with alloc := (st.alloc.pop .i32).2 } d).2) fx hi' lat.code
      refine ⟨⟨_, a0, PSt.of_nil hp, rfl, fun pc' out h => ?_⟩⟩
      simp only [CS.emit, List.length_append] at h
      simp only [patch, scanStep] at hpat
      obtain ⟨t, h5, h7⟩ := brOk_any fx hv hi' a0 hmax hlab hpl
      rw [h5] at hpat
      simp only [Option.map_some, Option.some.injEq] at hpat
      subst hpat
      exact Sym.brIf hj h7 h
    case call f =>
      obtain ⟨hp, rfl⟩ := ps.quiet rfl
      have ht := opTy_of_stepTy (by simp) ht
      simp only [opTy] at ht
      split at ht
      case h_2 => cases ht
      rename_i w t hf
      obtain ⟨r, rfl, rfl⟩ := sig_some ht
      simp only [plainOp, hf] at hpl
      simp only [compOp, MInfo.callee, hf, Option.getD_some] at hc
      cases w with
      | none =>
        simp only [Option.some.injEq, Prod.mk.injEq] at hc
        obtain ⟨rfl, _⟩ := hc
        obtain ⟨a0, e0⟩ := AOk.popParams t.params.reverse ha hs
        obtain ⟨a1, e1⟩ := AOk.pushAll t.results a0 hs1
        have hb := body_fixed fx hi (i := .call f (popParams st.alloc t.params.reverse).1 (pushAll (popParams st.alloc t.params.reverse).2 t.results).1) rfl lat.code
        rw [e0, e1, List.reverse_reverse] at hb
        refine ⟨⟨_, a1, PSt.of_nil hp, rfl, fun pc' out h => ?_⟩⟩
        simp only [CS.emit, List.length_append] at h
        rw [sops_sregs] at h ⊢
        refine Sym.call hf hb (sqr_cls _ _) (sqr_cls _ _) (fresh_sqr hv.low _ _ (fun c => ?_) (no_v128 hpl)) h
        have := a1.le c
        rw [a1.depth, dep_append, dep_reverse, ← dep_append] at this
        exact Nat.le_trans this (lat.max c)
      | some id =>
        simp only [Bool.and_eq_true, decide_eq_true_eq] at hpl
        simp only [Option.some.injEq, Prod.mk.injEq] at hc
        have htk : t.results.take 1 = t.results := List.take_of_length_le hpl.1
        rw [htk] at hc
        obtain ⟨rfl, _⟩ := hc
        have a0 := AOk.popAll t.params.reverse ha
        have e0 := AOk.peekRegs ha hs
        obtain ⟨a1, e1⟩ := AOk.pushAll t.results a0 hs1
        have hb := body_fixed fx hi (i := .callWasi id (st.alloc.peekRegs t.params) (pushAll (popAll st.alloc t.params.reverse) t.results).1.head?) rfl lat.code
        rw [e0, e1] at hb
        refine ⟨⟨_, a1, PSt.of_nil hp, rfl, fun pc' out h => ?_⟩⟩
        simp only [CS.emit, List.length_append] at h
        rw [sops_sregs] at h ⊢
        refine Sym.callWasi hf hb (sqr_cls _ _) (sqr_cls _ _) (by rw [sqr_length]; exact hpl.1)
          (fresh_sqr hv.low _ _ (fun c => ?_) (no_v128 hpl.2)) h
        have := a1.le c
        rw [a1.depth, dep_append, dep_reverse, ← dep_append] at this
        exact Nat.le_trans this (lat.max c)
    case callIndirect ty tbl =>
      obtain ⟨hp, rfl⟩ := ps.quiet rfl
      have ht := opTy_of_stepTy (by simp) ht
      simp only [opTy] at ht
      split at ht
      case h_2 => cases ht
      rename_i t hf
      obtain ⟨r, hts, rfl⟩ := sig_some ht
      rw [List.reverse_append] at hts
      have hts : ts = .i32 :: (t.params.reverse ++ r) := hts
      subst hts
      simp only [plainOp, hf] at hpl
      simp only [compOp, hf] at hc
      rw [show st.alloc.peek .i32 = some ⟨.i32, dep v.b (t.params.reverse ++ r) .i32⟩ from AOk.peek ha hs] at hc
      simp only [Option.some.injEq, Prod.mk.injEq] at hc
      obtain ⟨rfl, _⟩ := hc
      obtain ⟨a0, e0⟩ := AOk.popParams t.params.reverse (AOk.pop ha) hs
      obtain ⟨a1, e1⟩ := AOk.pushAll t.results a0 hs1
      have hb := body_fixed fx hi (i := .callIndirect ty tbl (dep v.b (t.params.reverse ++ r) .i32) (popParams (st.alloc.pop .i32).2 t.params.reverse).1
        (pushAll (popParams (st.alloc.pop .i32).2 t.params.reverse).2 t.results).1) rfl lat.code
      rw [e0, e1, List.reverse_reverse] at hb
      refine ⟨⟨_, a1, PSt.of_nil hp, rfl, fun pc' out h => ?_⟩⟩
      simp only [CS.emit, List.length_append] at h
      rw [sops_sregs] at h
      rw [sops, sops_sregs]
      refine Sym.callIndirect hf hb (sqr_cls _ _) (sqr_cls _ _) (fresh_sqr hv.low _ _ (fun c => ?_) (no_v128 hpl)) h
      have := a1.le c
      rw [a1.depth, dep_append, dep_reverse, ← dep_append] at this
      exact Nat.le_trans this (lat.max c)
    case other => simp [compOp] at hc
    all_goals
      simp only [stepTy] at ht
      first
        | (cases ht; done)
        | (split at ht <;> first | (cases ht; done) | (split at ht <;> cases ht))

end Verif.Lemmas
