import Verif.Lemmas.CompDead
/-
Compiling a structured sequence yields code that implements it.
-/
namespace Verif.Lemmas
open Verif.Model Verif.Spec Verif.Props

/-- what is known after compiling a sequence -/
structure Comp (K : FnCtx) (fin : CS) (body : List Instr) (v : Lvl) (w : WSeq) (os : List SOp) (st st' : CS) (τ : Option (List Cls)) : Prop where
  ex : ∃ out ts', Sym K body fin.alloc.maxDepth v.Γ w os st.code.length st'.code.length out ∧ st'.pend = [] ∧
    AOk v.b v.bs st'.alloc ts' ∧ (∀ t, τ = some t → out = some (sops v.b t) ∧ ts' = t) ∧ (τ = none → out = none)

theorem fin_ok {b : Cls → Nat} {bs ts' results : List Cls} {a : Alloc} {W : Cls → Nat} {τ : Option (List Cls)} {ob : Option (List SOp)}
    (ha : AOk b bs a ts') (hs : Small a) (hw : ∀ c, dep b results c ≤ W c) (h1 : ∀ t, τ = some t → ob = some (sops b t) ∧ ts' = t)
    (h2 : τ = none → ob = none) (hf : fits τ results = true) :
    ∀ os, ob = some os → os = sregs (a.peekRegs results) ∧ MoveOk W (a.peekRegs results) (sqr b results) := by
  intro os ho
  cases τ with
  | none => rw [h2 rfl] at ho; cases ho
  | some t =>
    obtain ⟨e1, rfl⟩ := h1 t rfl
    simp only [fits, decide_eq_true_eq] at hf
    subst hf
    rw [e1] at ho
    cases ho
    have := AOk.peekRegs (x := results) (ts := []) (by rw [List.append_nil]; exact ha) hs
    rw [dep_nil] at this
    rw [this]
    refine ⟨?_, moveOk_sqr _ (fun c => Nat.le_refl _) hw⟩
    have := sops_sregs results [] b
    simpa [dep_nil, sops] using this

theorem sops_rev (b : Cls → Nat) (x : List Cls) : sops b x.reverse = sregs (sqr b x) := by
  have := sops_sregs x [] b
  simpa [dep_nil, sops] using this

theorem els_later {st2 st3 fin : CS} {s : Nat} {m : List (Nat × Bool × Option Nat)} {a : Alloc} (hm : st2.mapCtl = (s, true, none) :: m)
    (e3 : st3 = { st2 with dead := 0, alloc := a, mapCtl := (s, true, some (st2.code.length + 1)) :: m }.emit (.jump 0))
    (hmx : ∀ c, st2.alloc.maxDepth c ≤ st3.alloc.maxDepth c) (lat : Later st3 fin) : Later st2 fin := by
  have c3 : st3.code = st2.code ++ [.jump 0] := by rw [e3]; rfl
  have m3 : st3.mapCtl.map (·.1) = st2.mapCtl.map (·.1) := by rw [e3, hm]; rfl
  have n3 : st3.ends = st2.ends := by rw [e3]; rfl
  have l3 : st3.elses = st2.elses := by rw [e3]; rfl
  have hl : st3.code.length = st2.code.length + 1 := by rw [c3]; simp
  refine ⟨?_, fun s hs hn => ?_, fun s hs hn => ?_, fun c => Nat.le_trans (hmx c) (lat.max c)⟩
  · obtain ⟨is, h⟩ := lat.code
    exact ⟨_, by rw [h, c3, List.append_assoc]⟩
  · rw [lat.ends s (by omega) (by rw [m3]; exact hn), n3]
  · rw [lat.elses s (by omega) (by rw [m3]; exact hn), l3]

theorem comp_sym {K : FnCtx} {fin : CS} {body : List Instr} (fx : Fx K fin body) {w : WSeq} {tail : List WOp} {st st' : CS}
    (h : CompSeq K w tail st st') : ∀ {v : Lvl} {ts : List Cls} {os : List SOp} {τ : Option (List Cls)}, TailOk tail → Later st' fin →
      st'.code.length < fin.code.length → uncrossed K w = true → plain K v.N w ts = true → check K v.L w ts = some τ → LvlOk K fin v →
      InL v st → AOk v.b v.bs st.alloc ts → st.dead = 0 → PSt v.b st.pend w ts os → Comp K fin body v w os st st' τ := by
  have hbl : body.length = fin.code.length := (patchFrom_get fx.patch).1
  induction h with
  | done hd =>
    intro v ts os τ tl lat hlt hu hpl hck hv hi ha hd ps
    obtain ⟨hp, rfl⟩ := ps.idle (by intro o k h; cases h)
    simp only [check, Option.some.injEq] at hck
    subst hck
    exact ⟨⟨_, ts, Sym.done, hp, ha, fun t ht => by cases ht; exact ⟨rfl, rfl⟩, fun h => by cases h⟩⟩
  | dead h1 =>
    intro v ts os τ tl lat hlt hu hpl hck hv hi ha hd ps
    omega
  | @op o k tail st st1 st2 hd0 hb hc hk ih =>
    intro v ts os τ tl lat hlt hu hpl hck hv hi ha hd ps
    have lat1 : Later st1 fin := hk.ext.later lat
    simp only [uncrossed, Bool.and_eq_true, Bool.not_eq_true', Bool.or_eq_true] at hu
    simp only [plain, Bool.and_eq_true, Bool.or_eq_true] at hpl
    simp only [check] at hck
    split at hck
    · cases hck
    · rename_i ht
      cases hck
      obtain ⟨h1, h2, ⟨ts', h3⟩, h4⟩ := dead_op (k := k) fx hv hi ha ps ht hpl.1 lat1 hc
      have e2 := hk.of_dead h1
      subst e2
      exact ⟨⟨none, ts', h4 _, h2, h3, fun t h => (nomatch h), fun _ => rfl⟩⟩
    · rename_i ts1 ht
      obtain ⟨os1, h1, h2, h3, h4⟩ := (live_op fx hv hi ha ps hb ht hck hpl.1 hu.1 tl lat1 hc).ex
      have hnt : isTerm o = false := by
        cases o <;> first | rfl | (simp only [stepTy] at ht; first | (cases ht; done) | (split at ht <;> first | (cases ht; done) | (split at ht <;> cases ht)))
      have hu' : uncrossed K k = true := by rcases hu.2 with h | h; rw [hnt] at h; cases h; exact h
      have hpl' : plain K v.N k ts1 = true := by have h := hpl.2; rw [show v.N.map (·.types) = v.L from rfl, ht] at h; exact h
      obtain ⟨out, ts', g1, g2, g3, g4, g5⟩ := (ih tl lat hlt hu' hpl' hck hv (hi.ext (Ext.plain hb hc)) h1 (by omega) h2).ex
      exact ⟨⟨out, ts', h4 _ _ g1, g2, g3, g4, g5⟩⟩
  | @fused o i k tail st st1 st2 hd0 hb hc hk ih =>
    intro v ts os τ tl lat hlt hu hpl hck hv hi ha hd ps
    have lat1 : Later st1 fin := hk.ext.later lat
    have hco := fused_consumer hb hc
    have hmax : ∀ c, st.alloc.maxDepth c ≤ fin.alloc.maxDepth c := fun c => Nat.le_trans (compOp_max hc c) (lat1.max c)
    have hs : Small st.alloc := small_of_le fx.small hmax
    have hnt : isTerm o = false := by cases o <;> simp_all [consumer, isTerm]
    simp only [uncrossed, Bool.and_eq_true, Bool.not_eq_true', Bool.or_eq_true, hnt, show isTerm (.localSet i) = false from rfl, Bool.false_eq_true, false_or] at hu
    simp only [plain, Bool.and_eq_true] at hpl
    simp only [check] at hck
    split at hck
    · cases hck
    · rename_i ht
      exfalso
      cases o <;> simp only [consumer, Bool.false_eq_true] at hco <;> simp [stepTy] at ht
    · rename_i ts1 ht
      have ht' := opTy_of_stepTy (by rintro d rfl; simp [consumer] at hco) ht
      have hh : ¬ Halves o st.pend := fun hh => by
        obtain ⟨_, _, _, _, _, _, _, _, e, _⟩ := ps.halves hh
        cases e
      obtain ⟨dc, ts0, rfl, htk⟩ := takes_op hco hh ha hs ps ht' hc
      split at hck
      · cases hck
      · rename_i h; simp [stepTy] at h
      · rename_i ts2 ht2
        have hpl2 : plain K v.N k ts2 = true := by
          have h := hpl.2
          rw [show v.N.map (·.types) = v.L from rfl, ht] at h
          simp only [ht2, Bool.and_eq_true] at h
          exact h.2
        obtain ⟨os1, h1, h2, h3, h4⟩ := (takes_fused (k := k) fx hi lat1 (opTy_of_stepTy (by simp) ht2) htk).ex
        obtain ⟨out, ts', g1, g2, g3, g4, g5⟩ := (ih tl lat hlt hu.2.2 hpl2 hck hv (hi.ext (Ext.plain hb hc)) h1 (by omega) h2).ex
        exact ⟨⟨out, ts', h4 _ _ g1, g2, g3, g4, g5⟩⟩
  | @block bt b k tail st st1 st2 st3 st4 hd0 hc1 hb hc3 hk ihb ihk =>
    intro v ts os τ tl lat hlt hu hpl hck hv hi ha hd ps
    obtain ⟨hp, rfl⟩ := ps.idle (by intro o k h; cases h)
    simp only [uncrossed, Bool.and_eq_true] at hu
    simp only [plain, Bool.and_eq_true] at hpl
    simp only [check] at hck
    split at hck
    case h_2 => cases hck
    rename_i r τb hr hckb
    split at hck
    case isFalse => cases hck
    rename_i hfit
    have hts := popTys_some hr
    subst hts
    rw [List.drop_left' (by simp)] at hpl
    have hd3 : st3.dead = 0 := (compOp_fin hc3).2
    have lat3 : Later st3 fin := hk.ext.later lat
    have hl34 := hk.ext.len
    have e1 := compOp_block (isL := false) hc1
    have ext : Ext st st3 := (CompSeq.block (k := .done) hd0 hc1 hb hc3 (.done hd3)).ext
    have s1 : Small st1.alloc := by
      refine small_of_le fx.small fun c => Nat.le_trans (hb.ext.max c) (Nat.le_trans ?_ (lat3.max c))
      exact compOp_max hc3 c
    obtain ⟨o1, o2, o3, o4, o5⟩ := open_ok ha e1 s1
    have hl12 := hb.ext.len
    rw [o5] at hl12
    simp only [List.length_append, List.length_cons, List.length_nil] at hl12
    have m2 : st2.mapCtl = (st.code.length, false, none) :: st.mapCtl := by rw [hb.ext.mapCtl, o4]
    have ct2 : st2.ctrl = ⟨bt, false, Alloc.seqRegs (dep v.b r) (K.M.blockResults bt)⟩ :: st.ctrl := by rw [hb.ext.ctrl, o2]
    have sv2 : st2.saved = ⟨dep v.b r, (r ++ v.bs).length⟩ :: st.saved := by rw [hb.ext.saved, o3]
    obtain ⟨lat2, hend, _, c3, a3, p3, _⟩ := close_ok hi (by omega) m2 hc3 lat3
    have bound := close_bound (W := fin.alloc.maxDepth) o1 hb.ext.max ct2 rfl sv2 a3 lat3.max
    have lo : LabOk K fin v r bt false st.code.length
        ⟨(sqr (dep v.b r) (K.M.blockResults bt)).length, sqr (dep v.b r) (K.M.blockResults bt), st2.code.length + 1, sops v.b r⟩ :=
      ⟨rfl, sqr_length _ _, rfl, by simpa [blockTarget] using hend, bound⟩
    obtain ⟨l1, l2, l3, l4, l5, _, _⟩ := enter_ok fx.small hv hi ha e1 (fun _ => rfl) s1 lo
    have hl3 : st3.code.length = st2.code.length + 1 := by rw [c3]; simp
    obtain ⟨ob, tb, g1, g2, g3, g4, g5⟩ := (ihb (v := v.enter K r bt false st.code.length _) ⟨_, Or.inl rfl⟩ lat2 (by omega) hu.1 hpl.1 (by rw [Lvl.enter_L]; exact hckb)
      l1 l2 l3 (by omega) (PSt.of_nil (by rw [l4]; exact hp))).ex
    have s2 : Small st2.alloc := small_of_le fx.small lat2.max
    have s3 : Small st3.alloc := small_of_le fx.small lat3.max
    have a4 := after_ok g3 ct2 rfl sv2 a3 s3
    obtain ⟨out, tk, k1, k2, k3, k4, k5⟩ := (ihk tl lat hlt hu.2 hpl.2 hck hv (hi.ext ext) a4 hd3 (PSt.of_nil (by rw [p3]; exact g2))).ex
    refine ⟨⟨out, tk, ?_, k2, k3, k4, k5⟩⟩
    rw [hl3, sops_sregs] at k1
    rw [sops_sregs]
    have hb0 : body[st.code.length]? = some (.block false) := body_fixed fx hi rfl (by rw [← o5]; exact (hb.ext.later lat2).code)
    have hbE := body_fixed fx (l2.ext hb.ext) (i := .fin (st2.alloc.peekRegs (endTypes K st2)) _) rfl (by rw [← c3]; exact lat3.code)
    have e2 : endTypes K st2 = K.M.blockResults bt := by simp only [endTypes, hb.ext.ctrl, o2]
    have e3 : endDst st2.ctrl = sqr (dep v.b r) (K.M.blockResults bt) := by
      rw [hb.ext.ctrl, o2]; exact seqRegs_sqr _ _ fun c => Nat.le_trans (bound c) (fx.small c)
    rw [e2, e3] at hbE
    rw [o5] at g1
    simp only [List.length_append, List.length_cons, List.length_nil] at g1
    rw [sops_rev] at g1
    refine Sym.block hb0 ?_ (sops_regs _ _) (sqr_length _ _) (fun x hx => free_sops hv.low r (sqr_mem hx).1) g1 hbE (by omega)
      (fin_ok g3 s2 bound g4 g5 hfit) k1
    rw [← sops_rev, sops_cls]
  | @loop bt b k tail st st1 st2 st3 st4 hd0 hc1 hb hc3 hk ihb ihk =>
    intro v ts os τ tl lat hlt hu hpl hck hv hi ha hd ps
    obtain ⟨hp, rfl⟩ := ps.idle (by intro o k h; cases h)
    simp only [uncrossed, Bool.and_eq_true] at hu
    simp only [plain, Bool.and_eq_true] at hpl
    simp only [check] at hck
    split at hck
    case h_2 => cases hck
    rename_i r τb hr hckb
    split at hck
    case isFalse => cases hck
    rename_i hfit
    have hts := popTys_some hr
    subst hts
    rw [List.drop_left' (by simp)] at hpl
    have hd3 : st3.dead = 0 := (compOp_fin hc3).2
    have lat3 : Later st3 fin := hk.ext.later lat
    have hl34 := hk.ext.len
    have e1 := compOp_block (isL := true) hc1
    have ext : Ext st st3 := (CompSeq.loop (k := .done) hd0 hc1 hb hc3 (.done hd3)).ext
    have s1 : Small st1.alloc := by
      refine small_of_le fx.small fun c => Nat.le_trans (hb.ext.max c) (Nat.le_trans ?_ (lat3.max c))
      exact compOp_max hc3 c
    obtain ⟨o1, o2, o3, o4, o5⟩ := open_ok ha e1 s1
    have hl12 := hb.ext.len
    rw [o5] at hl12
    simp only [List.length_append, List.length_cons, List.length_nil] at hl12
    have m2 : st2.mapCtl = (st.code.length, false, none) :: st.mapCtl := by rw [hb.ext.mapCtl, o4]
    have ct2 : st2.ctrl = ⟨bt, true, Alloc.seqRegs (dep v.b r) (K.M.blockResults bt)⟩ :: st.ctrl := by rw [hb.ext.ctrl, o2]
    have sv2 : st2.saved = ⟨dep v.b r, (r ++ v.bs).length⟩ :: st.saved := by rw [hb.ext.saved, o3]
    obtain ⟨lat2, hend, _, c3, a3, p3, _⟩ := close_ok hi (by omega) m2 hc3 lat3
    have bound := close_bound (W := fin.alloc.maxDepth) o1 hb.ext.max ct2 rfl sv2 a3 lat3.max
    have lo : LabOk K fin v r bt true st.code.length 
        ⟨(sqr (dep v.b r) (K.M.blockParams bt)).length, sqr (dep v.b r) (K.M.blockParams bt), st.code.length, sops v.b r⟩ :=
      ⟨rfl, sqr_length _ _, rfl, by simp [blockTarget], bound⟩
    obtain ⟨l1, l2, l3, l4, l5, _, _⟩ := enter_ok fx.small hv hi ha e1 (fun _ => rfl) s1 lo
    have hl3 : st3.code.length = st2.code.length + 1 := by rw [c3]; simp
    obtain ⟨ob, tb, g1, g2, g3, g4, g5⟩ := (ihb (v := v.enter K r bt true st.code.length _) ⟨_, Or.inl rfl⟩ lat2 (by omega) hu.1 hpl.1 (by rw [Lvl.enter_L]; exact hckb)
      l1 l2 l3 (by omega) (PSt.of_nil (by rw [l4]; exact hp))).ex
    have s2 : Small st2.alloc := small_of_le fx.small lat2.max
    have s3 : Small st3.alloc := small_of_le fx.small lat3.max
    have a4 := after_ok g3 ct2 rfl sv2 a3 s3
    obtain ⟨out, tk, k1, k2, k3, k4, k5⟩ := (ihk tl lat hlt hu.2 hpl.2 hck hv (hi.ext ext) a4 hd3 (PSt.of_nil (by rw [p3]; exact g2))).ex
    refine ⟨⟨out, tk, ?_, k2, k3, k4, k5⟩⟩
    rw [hl3, sops_sregs] at k1
    have hb0 : body[st.code.length]? = some (.block true) := body_fixed fx hi rfl (by rw [← o5]; exact (hb.ext.later lat2).code)
    have hbE := body_fixed fx (l2.ext hb.ext) (i := .fin (st2.alloc.peekRegs (endTypes K st2)) _) rfl (by rw [← c3]; exact lat3.code)
    have e2 : endTypes K st2 = K.M.blockResults bt := by simp only [endTypes, hb.ext.ctrl, o2]
    have e3 : endDst st2.ctrl = sqr (dep v.b r) (K.M.blockResults bt) := by
      rw [hb.ext.ctrl, o2]; exact seqRegs_sqr _ _ fun c => Nat.le_trans (bound c) (fx.small c)
    rw [e2, e3] at hbE
    rw [o5] at g1
    simp only [List.length_append, List.length_cons, List.length_nil] at g1
    rw [sops_rev] at g1
    rw [sops_sregs]
    exact Sym.loop hb0 (sqr_cls _ _) (sops_regs _ _) (fun x hx => free_sops hv.low r (sqr_mem hx).1) (sqr_length _ _)
      (fun x hx => free_sops hv.low r (sqr_mem hx).1) g1 hbE (by omega) (fin_ok g3 s2 bound g4 g5 hfit) k1
  | @ite bt b k tail st st1 st2 st3 st4 hd0 hc1 hb hc3 hk ihb ihk =>
    intro v ts os τ tl lat hlt hu hpl hck hv hi ha hd ps
    obtain ⟨hp, rfl⟩ := ps.idle (by intro o k h; cases h)
    simp only [uncrossed, Bool.and_eq_true] at hu
    simp only [plain, Bool.and_eq_true] at hpl
    simp only [check] at hck
    split at hck
    case h_2 => cases hck
    rename_i r τb hr hckb
    split at hck
    case isFalse => cases hck
    rename_i hfit
    have hts := popTys_some hr
    rw [List.reverse_append] at hts
    have hts : ts = .i32 :: ((K.M.blockParams bt).reverse ++ r) := hts
    subst hts
    rw [List.drop_succ_cons, List.drop_left' (by simp)] at hpl
    have hd3 : st3.dead = 0 := (compOp_fin hc3).2
    have lat3 : Later st3 fin := hk.ext.later lat
    have hl34 := hk.ext.len
    have e1 := compOp_ite hc1
    have ext : Ext st st3 := (CompSeq.ite (k := .done) hd0 hc1 hb hc3 (.done hd3)).ext
    have s0 : Small st.alloc := small_of_le fx.small fun c => Nat.le_trans (ext.max c) (lat3.max c)
    have s1 : Small st1.alloc := by
      refine small_of_le fx.small fun c => Nat.le_trans (hb.ext.max c) (Nat.le_trans ?_ (lat3.max c))
      exact compOp_max hc3 c
    have ap := AOk.pop ha
    have ci := AOk.popReg ha s0
    obtain ⟨o1, o2, o3, o4, o5⟩ := open_ok ap e1 s1
    have hl12 := hb.ext.len
    rw [o5] at hl12
    simp only [List.length_append, List.length_cons, List.length_nil] at hl12
    have m2 : st2.mapCtl = (st.code.length, true, none) :: st.mapCtl := by rw [hb.ext.mapCtl, o4]
    have ct2 : st2.ctrl = ⟨bt, false, Alloc.seqRegs (dep v.b r) (K.M.blockResults bt)⟩ :: st.ctrl := by rw [hb.ext.ctrl, o2]
    have sv2 : st2.saved = ⟨dep v.b r, (r ++ v.bs).length⟩ :: st.saved := by rw [hb.ext.saved, o3]
    obtain ⟨lat2, hend, hels, c3, a3, p3, _⟩ := close_ok hi (by omega) m2 hc3 lat3
    have bound := close_bound (W := fin.alloc.maxDepth) o1 hb.ext.max ct2 rfl sv2 a3 lat3.max
    have lo : LabOk K fin v r bt false st.code.length
        ⟨(sqr (dep v.b r) (K.M.blockResults bt)).length, sqr (dep v.b r) (K.M.blockResults bt), st2.code.length + 1, sops v.b r⟩ :=
      ⟨rfl, sqr_length _ _, rfl, by simpa [blockTarget] using hend, bound⟩
    obtain ⟨l1, l2, l3, l4, l5, _, _⟩ := enter_ok fx.small hv hi ap e1 (fun _ => rfl) s1 lo
    have hl3 : st3.code.length = st2.code.length + 1 := by rw [c3]; simp
    obtain ⟨ob, tb, g1, g2, g3, g4, g5⟩ := (ihb (v := v.enter K r bt false st.code.length _) ⟨_, Or.inl rfl⟩ lat2 (by omega) hu.1 hpl.1 (by rw [Lvl.enter_L]; exact hckb)
      l1 l2 l3 (by omega) (PSt.of_nil (by rw [l4]; exact hp))).ex
    have s2 : Small st2.alloc := small_of_le fx.small lat2.max
    have s3 : Small st3.alloc := small_of_le fx.small lat3.max
    have a4 := after_ok g3 ct2 rfl sv2 a3 s3
    obtain ⟨out, tk, k1, k2, k3, k4, k5⟩ := (ihk tl lat hlt hu.2 hpl.2 hck hv (hi.ext ext) a4 hd3 (PSt.of_nil (by rw [p3]; exact g2))).ex
    refine ⟨⟨out, tk, ?_, k2, k3, k4, k5⟩⟩
    rw [hl3, sops_sregs] at k1
    have hb0 : body[st.code.length]? = some (.ite (dep v.b ((K.M.blockParams bt).reverse ++ r) .i32) (st2.code.length + 1) false) := by
      obtain ⟨j, hj, hpat⟩ := body_at fx hi (by rw [← o5]; exact (hb.ext.later lat2).code)
      simp only [patch, scanStep, List.getElem?_cons_zero, blockTarget, Bool.false_eq_true, if_false, hend, hels rfl, Option.getD_none,
        Option.map_some, Option.getD_some, ne_eq, not_true_eq_false, decide_false, Option.some.injEq, ci] at hpat
      subst hpat
      exact hj
    have hbE := body_fixed fx (l2.ext hb.ext) (i := .fin (st2.alloc.peekRegs (endTypes K st2)) _) rfl (by rw [← c3]; exact lat3.code)
    have e2 : endTypes K st2 = K.M.blockResults bt := by simp only [endTypes, hb.ext.ctrl, o2]
    have e3 : endDst st2.ctrl = sqr (dep v.b r) (K.M.blockResults bt) := by
      rw [hb.ext.ctrl, o2]; exact seqRegs_sqr _ _ fun c => Nat.le_trans (bound c) (fx.small c)
    rw [e2, e3] at hbE
    rw [o5] at g1
    simp only [List.length_append, List.length_cons, List.length_nil] at g1
    rw [sops_rev, hfit.2] at g1
    rw [sops, sops_sregs]
    have hb0' := hb0
    rw [hfit.2] at hb0' ⊢
    exact Sym.ite hb0' (by rw [sqr_cls, hfit.2]) (sops_regs _ _) (sqr_length _ _) (fun x hx => free_sops hv.low r (sqr_mem hx).1) g1 hbE (by omega)
      (fin_ok g3 s2 bound g4 g5 hfit.1) k1
  | @itee bt t e k tail st st1 st2 st3 st4 st5 st6 hd0 hc1 hb hc3 he hc5 hk ihb ihe ihk =>
    intro v ts os τ tl lat hlt hu hpl hck hv hi ha hd ps
    obtain ⟨hp, rfl⟩ := ps.idle (by intro o k h; cases h)
    simp only [uncrossed, Bool.and_eq_true] at hu
    simp only [plain, Bool.and_eq_true] at hpl
    simp only [check] at hck
    split at hck
    case h_2 => cases hck
    rename_i r τb τe hr hckb hcke
    split at hck
    case isFalse => cases hck
    rename_i hfit
    have hts := popTys_some hr
    rw [List.reverse_append] at hts
    have hts : ts = .i32 :: ((K.M.blockParams bt).reverse ++ r) := hts
    subst hts
    rw [List.drop_succ_cons, List.drop_left' (by simp)] at hpl
    have hd5 : st5.dead = 0 := (compOp_fin hc5).2
    have lat5 : Later st5 fin := hk.ext.later lat
    have hl56 := hk.ext.len
    have e1 := compOp_ite hc1
    have ext : Ext st st5 := (CompSeq.itee (k := .done) hd0 hc1 hb hc3 he hc5 (.done hd5)).ext
    have s0 : Small st.alloc := small_of_le fx.small fun c => Nat.le_trans (ext.max c) (lat5.max c)
    have mx3 := compOp_max hc3
    have s4 : Small st4.alloc := small_of_le fx.small fun c => Nat.le_trans (compOp_max hc5 c) (lat5.max c)
    have s3 : Small st3.alloc := small_of_le s4 he.ext.max
    have s2 : Small st2.alloc := small_of_le s3 mx3
    have s1 : Small st1.alloc := small_of_le s2 hb.ext.max
    have ap := AOk.pop ha
    have ci := AOk.popReg ha s0
    obtain ⟨o1, o2, o3, o4, o5⟩ := open_ok ap e1 s1
    have hl12 := hb.ext.len
    rw [o5] at hl12
    simp only [List.length_append, List.length_cons, List.length_nil] at hl12
    have m2 : st2.mapCtl = (st.code.length, true, none) :: st.mapCtl := by rw [hb.ext.mapCtl, o4]
    have ct2 : st2.ctrl = ⟨bt, false, Alloc.seqRegs (dep v.b r) (K.M.blockResults bt)⟩ :: st.ctrl := by rw [hb.ext.ctrl, o2]
    have sv2 : st2.saved = ⟨dep v.b r, (r ++ v.bs).length⟩ :: st.saved := by rw [hb.ext.saved, o3]
    have e3 := compOp_els' (st := { st2 with dead := 0 }) m2 hc3
    have c3 : st3.code = st2.code ++ [.jump 0] := by rw [e3]; rfl
    have hl3 : st3.code.length = st2.code.length + 1 := by rw [c3]; simp
    have m4 : st4.mapCtl = (st.code.length, true, some (st2.code.length + 1)) :: st.mapCtl := by rw [he.ext.mapCtl, e3]; rfl
    have ct4 : st4.ctrl = ⟨bt, false, Alloc.seqRegs (dep v.b r) (K.M.blockResults bt)⟩ :: st.ctrl := by rw [he.ext.ctrl, e3]; exact ct2
    have sv4 : st4.saved = ⟨dep v.b r, (r ++ v.bs).length⟩ :: st.saved := by rw [he.ext.saved, e3]; exact sv2
    have hl34 := he.ext.len
    obtain ⟨lat4, hend, hels, c5, a5, p5, _⟩ := close_ok hi (by omega) m4 hc5 lat5
    have lat3 : Later st3 fin := he.ext.later lat4
    have lat2 : Later st2 fin := els_later m2 e3 mx3 lat3
    have bound := close_bound (W := fin.alloc.maxDepth) o1
      (fun c => Nat.le_trans (hb.ext.max c) (Nat.le_trans (mx3 c) (he.ext.max c))) ct4 rfl sv4 a5 lat5.max
    have lo : LabOk K fin v r bt false st.code.length
        ⟨(sqr (dep v.b r) (K.M.blockResults bt)).length, sqr (dep v.b r) (K.M.blockResults bt), st4.code.length + 1, sops v.b r⟩ :=
      ⟨rfl, sqr_length _ _, rfl, by simpa [blockTarget] using hend, bound⟩
    obtain ⟨l1, l2, l3, l4, l5, _, _⟩ := enter_ok fx.small hv hi ap e1 (fun _ => rfl) s1 lo
    have hl5 : st5.code.length = st4.code.length + 1 := by rw [c5]; simp
    obtain ⟨ot, tt, t1, t2, t3, t4, t5⟩ := (ihb (v := v.enter K r bt false st.code.length _) ⟨_, Or.inr rfl⟩ lat2 (by omega) hu.1.1 hpl.1.1 (by rw [Lvl.enter_L]; exact hckb)
      l1 l2 l3 (by omega) (PSt.of_nil (by rw [l4]; exact hp))).ex
    -- the second branch starts like the first
    have i2 := l2.ext hb.ext
    have i3 : InL (v.enter K r bt false st.code.length
        ⟨(sqr (dep v.b r) (K.M.blockResults bt)).length, sqr (dep v.b r) (K.M.blockResults bt), st4.code.length + 1, sops v.b r⟩) st3 := by
      refine ⟨by rw [e3]; exact i2.ctrl, by rw [e3]; exact i2.saved, ?_, ?_, fun x hx => by have := i2.lt x hx; omega⟩
      · rw [← i2.maps, e3, m2]; rfl
      · rw [c3, scanL_append, i2.scan, Nat.zero_add]; rfl
    have a3 : AOk (dep v.b r) (r ++ v.bs) st3.alloc (K.M.blockParams bt).reverse := by
      have e : st3.alloc = (pushAll (st2.alloc.restore ⟨dep v.b r, (r ++ v.bs).length⟩) (K.M.blockParams bt)).2 := by
        rw [e3]; simp only [CS.emit, elseAlloc, sv2, ct2]
      rw [e] at s3 ⊢
      exact AOk.reopen (AOk.pushAll _ t3.restore s3).1
    have p3 : st3.pend = [] := by rw [e3]; exact t2
    have d3 : st3.dead = 0 := by rw [e3]; rfl
    obtain ⟨ob, tb, g1, g2, g3, g4, g5⟩ := (ihe (v := v.enter K r bt false st.code.length _) ⟨_, Or.inl rfl⟩ lat4 (by omega) hu.1.2 hpl.1.2 (by rw [Lvl.enter_L]; exact hcke)
      l1 i3 a3 d3 (PSt.of_nil p3)).ex
    have s5 : Small st5.alloc := small_of_le fx.small lat5.max
    have a6 := after_ok g3 ct4 rfl sv4 a5 s5
    obtain ⟨out, tk, k1, k2, k3, k4, k5⟩ := (ihk tl lat hlt hu.2 hpl.2 hck hv (hi.ext ext) a6 hd5 (PSt.of_nil (by rw [p5]; exact g2))).ex
    refine ⟨⟨out, tk, ?_, k2, k3, k4, k5⟩⟩
    rw [hl5, sops_sregs] at k1
    have hb0 : body[st.code.length]? = some (.ite (dep v.b ((K.M.blockParams bt).reverse ++ r) .i32) (st2.code.length + 1) true) := by
      obtain ⟨j, hj, hpat⟩ := body_at fx hi (by rw [← o5]; exact (hb.ext.later lat2).code)
      have hne : st2.code.length + 1 ≠ st4.code.length + 1 := by omega
      simp only [patch, scanStep, List.getElem?_cons_zero, blockTarget, Bool.false_eq_true, if_false, hend, hels rfl,
        Option.map_some, Option.getD_some, ne_eq, hne, not_false_eq_true, decide_true, Option.some.injEq, ci] at hpat
      subst hpat
      exact hj
    have hbJ : body[st2.code.length]? = some (.jump (st4.code.length + 1)) := by
      obtain ⟨j, hj, hpat⟩ := body_at fx i2 (by rw [← c3]; exact lat3.code)
      simp only [patch, scanStep, Lvl.enter, List.getElem?_cons_zero, blockTarget, Bool.false_eq_true, if_false, hend,
        Option.map_some, Option.some.injEq] at hpat
      subst hpat
      exact hj
    have hbE := body_fixed fx (i3.ext he.ext) (i := .fin (st4.alloc.peekRegs (endTypes K st4)) _) rfl (by rw [← c5]; exact lat5.code)
    have e4 : endTypes K st4 = K.M.blockResults bt := by simp only [endTypes, ct4]
    have e5 : endDst st4.ctrl = sqr (dep v.b r) (K.M.blockResults bt) := by
      rw [ct4]; exact seqRegs_sqr _ _ fun c => Nat.le_trans (bound c) (fx.small c)
    rw [e4, e5] at hbE
    rw [o5] at t1
    rw [hl3] at g1
    simp only [List.length_append, List.length_cons, List.length_nil] at t1
    rw [sops_rev] at t1 g1
    rw [sops, sops_sregs]
    refine Sym.itee hb0 ?_ (sops_regs _ _) (sqr_length _ _) (fun x hx => free_sops hv.low r (sqr_mem hx).1) t1 hbJ ?_ g1 hbE (by omega)
      (fin_ok g3 s4 bound g4 g5 hfit.2) k1
    · rw [← sops_rev, sops_cls]
    · intro os ho
      cases τb with
      | none => rw [t5 rfl] at ho; cases ho
      | some x =>
        have hf := hfit.1
        simp only [fits, decide_eq_true_eq] at hf
        subst hf
        rw [(t4 _ rfl).1] at ho
        cases ho
        exact sops_rev _ _

end Verif.Lemmas
