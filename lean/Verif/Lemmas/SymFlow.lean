import Verif.Lemmas.SymSim
/-
Symbolic code does what the source means: blocks, loops, conditionals and the end of a function.
-/
namespace Verif.Lemmas
open Verif.Model Verif.Spec Verif.Props

variable {S : Wasi}

/-- the block a label belongs to ends at `pcE` -/
theorem Rel.fin {cx : Cx S} (ok : CxOk cx) {Γ : List Lab} {l : Lab} {pcE : Nat} {src dst : List Reg} {r : List SOp}
    {vs rs : List Val} {vsegs : List (List Val)} {s : SSt S.W} {c : Conf S} (hseg : l.seg = r)
    (hi : cx.body[pcE]? = some (.fin src dst)) (hlt : pcE + 1 < cx.body.length) (hm : MoveOk cx.W src dst)
    (hfree : ∀ x ∈ dst, Free Γ r x) (h : Rel cx (l :: Γ) pcE (sregs src) vs (rs :: vsegs) s c) :
    ∃ j c', CPath cx.E j c c' ∧ Rel cx Γ (pcE + 1) (sregs dst ++ r) (vs ++ rs) vsegs s c' := by
  subst hseg
  obtain ⟨rf, h1, h2, h3⟩ := rd_move h.win hm
  have hlab := h.labels
  simp only [List.length_cons] at hlab
  obtain ⟨h4, h5⟩ := h3 { c.vm with rf := rf, labels := c.vm.labels.tail, pc := pcE + 1 } rfl rfl
  have hsegs := h.segs
  simp only [List.map_cons, List.cons.injEq] at hsegs
  refine ⟨1, ⟨c.m, { c.vm with rf := rf, labels := c.vm.labels.tail, pc := pcE + 1 }⟩,
    Rel.step ok h.frame (h.at hi) ?_, h.frame, h.world, rfl, ?_, h.ret,
    ⟨h.here.locals, h.here.ltys, h.here.store, h.here.ptr, h.here.gtys⟩, h2, ?_, ?_⟩
  · simp only [Model.step]
    rw [if_neg (by omega)]
    simp only [h1, Res.bind_ok]
    rw [if_neg (by simp only [h.pc]; omega)]
    simp only [Res.pure_eq, VM.next, h.pc]
  · simp only [List.length_tail, hlab]; omega
  · rw [List.map_append, List.map_append, h4, h.os, ← hsegs.1]
    congr 1
    exact rds_congr fun x hx => h5 x fun y hy e => (hfree y hy).1 (e ▸ hx)
  · rw [← hsegs.2]
    exact segs_congr fun l' hl' x hx => h5 x fun y hy e => (hfree y hy).2 l' hl' (e ▸ hx)

/-- the `jump` at the end of the `then` branch -/
theorem Rel.jump {cx : Cx S} (ok : CxOk cx) {Γ : List Lab} {l : Lab} {pcJ t : Nat} {os r : List SOp}
    {vs rs : List Val} {vsegs : List (List Val)} {s : SSt S.W} {c : Conf S} (hseg : l.seg = r)
    (hi : cx.body[pcJ]? = some (.jump t))
    (h : Rel cx (l :: Γ) pcJ os vs (rs :: vsegs) s c) :
    ∃ j c', CPath cx.E j c c' ∧ Rel cx Γ t (os ++ r) (vs ++ rs) vsegs s c' := by
  subst hseg
  have hlab := h.labels
  simp only [List.length_cons] at hlab
  have hsegs := h.segs
  simp only [List.map_cons, List.cons.injEq] at hsegs
  refine ⟨1, ⟨c.m, { c.vm with labels := c.vm.labels.tail, pc := t }⟩,
    Rel.step ok h.frame (h.at hi) ?_, h.frame, h.world, rfl, ?_, h.ret,
    ⟨h.here.locals, h.here.ltys, h.here.store, h.here.ptr, h.here.gtys⟩, h.win, ?_, hsegs.2⟩
  · simp only [Model.step]
    rw [if_pos (by omega)]
  · simp only [List.length_tail, hlab]; omega
  · rw [List.map_append, List.map_append, ← hsegs.1, ← h.os]; rfl

/-- leaving a block -/
theorem Match.land {cx : Cx S} {n m : Nat} {Γ : List Lab} {dst : List Reg} {r : List SOp} {rs : List Val}
    {vsegs : List (List Val)} {pcE pc' pcO : Nat} {ob out : Option (List SOp)} {o : SOut S.W} {c : Conf S}
    {f : List Val → SSt S.W → SOut S.W}
    (h : Match cx (⟨dst.length, dst, pcE, r⟩ :: Γ) (rs :: vsegs) pcO ob n o c) (hm : m = dst.length)
    (hn : ∀ os vs s c, ob = some os → Rel cx (⟨dst.length, dst, pcE, r⟩ :: Γ) pcO os vs (rs :: vsegs) s c →
      ∃ j c', CPath cx.E j c c' ∧ Rel cx Γ pcE (sregs dst ++ r) (vs ++ rs) vsegs s c')
    (hk : Goes cx n Γ (sregs dst ++ r) pcE pc' out f) :
    Match cx Γ vsegs pc' out n (o.land m rs f) c := by
  subst hm
  cases o with
  | norm vs s =>
    obtain ⟨os, j, c', h1, h2, h3⟩ := h
    obtain ⟨k, c'', h4, h5⟩ := hn os vs s c' h1 h3
    exact (hk _ _ _ _ h5).prepend (h2.append h4) (by omega)
  | br d vs s =>
    obtain ⟨j, c', h1, h2⟩ := h
    cases d with
    | zero => exact (hk _ _ _ _ h2).prepend h1 (by omega)
    | succ d => exact ⟨j, c', h1, h2⟩
  | ret vs s => exact h
  | fail f st w => exact h
  | stuck => exact h
  | timeout => exact h
  | gap => exact h

theorem Match.weaken {cx : Cx S} {Γ : List Lab} {vsegs : List (List Val)} {pc' : Nat} {out : Option (List SOp)}
    {n n' : Nat} {o : SOut S.W} {c : Conf S} (h : Match cx Γ vsegs pc' out n o c) (hn : n' ≤ n) :
    Match cx Γ vsegs pc' out n' o c := h.prepend (.nil c) (by omega)

/-- leaving a loop, or starting it again -/
theorem Match.turn {cx : Cx S} {n : Nat} {Γ : List Lab} {ps dst : List Reg} {r : List SOp} {rs : List Val}
    {vsegs : List (List Val)} {pc pcE pc' : Nat} {ob out : Option (List SOp)} {o : SOut S.W} {c : Conf S}
    {f again : List Val → SSt S.W → SOut S.W}
    (h : Match cx (⟨ps.length, ps, pc, r⟩ :: Γ) (rs :: vsegs) pcE ob n o c)
    (hn : ∀ os vs s c, ob = some os → Rel cx (⟨ps.length, ps, pc, r⟩ :: Γ) pcE os vs (rs :: vsegs) s c →
      ∃ j c', CPath cx.E j c c' ∧ Rel cx Γ (pcE + 1) (sregs dst ++ r) (vs ++ rs) vsegs s c')
    (ha : ∀ vs s c, Rel cx Γ pc (sregs ps ++ r) vs vsegs s c → Match cx Γ vsegs pc' out n (again vs s) c)
    (hk : Goes cx n Γ (sregs dst ++ r) (pcE + 1) pc' out f) :
    Match cx Γ vsegs pc' out n (o.turn ps.length rs f again) c := by
  cases o with
  | norm vs s =>
    obtain ⟨os, j, c', h1, h2, h3⟩ := h
    obtain ⟨k, c'', h4, h5⟩ := hn os vs s c' h1 h3
    exact (hk _ _ _ _ h5).prepend (h2.append h4) (by omega)
  | br d vs s =>
    obtain ⟨j, c', h1, h2⟩ := h
    cases d with
    | zero =>
      simp only [BrRel, List.getElem?_cons_zero] at h2
      simpa [SOut.turn] using (ha _ _ _ (by simpa using h2)).prepend h1 (by omega)
    | succ d => exact ⟨j, c', h1, h2⟩
  | ret vs s => exact h
  | fail f st w => exact h
  | stuck => exact h
  | timeout => exact h
  | gap => exact h

/-- a bracket opens: the operands split, a label is pushed -/
theorem Rel.open {cx : Cx S} {Γ : List Lab} {pc pc1 : Nat} {ps r : List SOp} {stk : List Val}
    {vsegs : List (List Val)} {s : SSt S.W} {c : Conf S} (h : Rel cx Γ pc (ps ++ r) stk vsegs s c) (l : Lab) (hl : l.seg = r)
    (lab : Label) :
    ∃ vp vr, stk = vp ++ vr ∧ ps.map (rd c.vm) = vp.map .ok ∧ r.map (rd c.vm) = vr.map .ok ∧
      Rel cx (l :: Γ) pc1 ps vp (vr :: vsegs) s ⟨c.m, { c.vm with labels := lab :: c.vm.labels, pc := pc1 }⟩ := by
  obtain ⟨vp, vr, rfl, hp, hr⟩ := rds_append h.os
  refine ⟨vp, vr, rfl, hp, hr, h.frame, h.world, rfl, by simp [h.labels], h.ret,
    ⟨h.here.locals, h.here.ltys, h.here.store, h.here.ptr, h.here.gtys⟩, h.win, hp, ?_⟩
  simp only [List.map_cons, hl]
  have h1 := h.segs
  rw [← h1, ← hr]
  rfl

theorem popVs_of {vm : VM} {ps : List SOp} {ts : List Cls} {vp vr : List Val} (hp : ps.map (rd vm) = vp.map .ok)
    (hc : ps.map (·.cls) = ts.reverse) : popVs ts (vp ++ vr) = some (vp.reverse, vr) := by
  have hl : vp.length = ts.length := by
    rw [rds_length hp]; have := congrArg List.length hc; simpa using this
  unfold popVs
  rw [← hl, List.take_left, List.drop_left, rds_cls hp, hc, if_pos rfl]

theorem popVs_sregs {vm : VM} {rs : List Reg} {ts : List Cls} {vp vr : List Val} (hp : (sregs rs).map (rd vm) = vp.map .ok)
    (hc : rs.map (·.cls) = ts) : popVs ts (vp ++ vr) = some (vp.reverse, vr) := by
  refine popVs_of hp ?_
  rw [sregs, List.map_map, ← hc, ← List.map_reverse]
  rfl

theorem goes_block {cx : Cx S} (ok : CxOk cx) {n : Nat} {Γ : List Lab} {bt : BlockTy} {ps r : List SOp}
    {src dst : List Reg} {pc pcE pc' : Nat} {ob out : Option (List SOp)} {fb f : List Val → SSt S.W → SOut S.W}
    (hi : cx.body[pc]? = some (.block false)) (hps : ps.map (·.cls) = (cx.K.M.blockParams bt).reverse)
    (hres : dst.length = (cx.K.M.blockResults bt).length) (hfree : ∀ x ∈ dst, Free Γ r x)
    (hb : Goes cx n (⟨dst.length, dst, pcE + 1, r⟩ :: Γ) ps (pc + 1) pcE ob fb)
    (hfin : cx.body[pcE]? = some (.fin src dst)) (hlt : pcE + 1 < cx.body.length)
    (hob : ∀ os, ob = some os → os = sregs src ∧ MoveOk cx.W src dst)
    (hk : Goes cx n Γ (sregs dst ++ r) (pcE + 1) pc' out f) :
    Goes cx n Γ (ps ++ r) pc pc' out fun stk s =>
      match popVs (cx.K.M.blockParams bt) stk with
      | none => .stuck
      | some (ps, r) => (fb ps.reverse s).land (cx.K.M.blockResults bt).length r f := by
  intro stk vsegs s c h
  obtain ⟨vp, vr, rfl, hp, hr, h'⟩ := h.open (pc1 := pc + 1) ⟨dst.length, dst, pcE + 1, r⟩ rfl ⟨false, c.vm.pc + 1, c.vm.pc + 1⟩
  simp only [popVs_of hp hps, List.reverse_reverse]
  have hm := (hb _ _ _ _ h').land (pc' := pc') (out := out) (f := f) hres.symm (fun os vs s c ho hr => by
    obtain ⟨rfl, hm⟩ := hob os ho
    exact hr.fin ok rfl hfin hlt hm hfree) hk
  exact hm.prepend (Rel.step ok h.frame (h.at hi) (by simp only [step, h.pc])) (by omega)

theorem goes_loop {cx : Cx S} (ok : CxOk cx) {n : Nat} {Γ : List Lab} {bt : BlockTy} {r : List SOp}
    {ps src dst : List Reg} {pc pcE pc' : Nat} {ob out : Option (List SOp)} {fb f again : List Val → SSt S.W → SOut S.W}
    (hi : cx.body[pc]? = some (.block true)) (hps : ps.map (·.cls) = cx.K.M.blockParams bt) (hfree : ∀ x ∈ dst, Free Γ r x)
    (hb : Goes cx (n + 1) (⟨ps.length, ps, pc, r⟩ :: Γ) (sregs ps) (pc + 1) pcE ob fb)
    (hfin : cx.body[pcE]? = some (.fin src dst)) (hlt : pcE + 1 < cx.body.length)
    (hob : ∀ os, ob = some os → os = sregs src ∧ MoveOk cx.W src dst)
    (ha : Goes cx n Γ (sregs ps ++ r) pc pc' out again)
    (hk : Goes cx (n + 1) Γ (sregs dst ++ r) (pcE + 1) pc' out f) :
    Goes cx (n + 1) Γ (sregs ps ++ r) pc pc' out fun stk s =>
      match popVs (cx.K.M.blockParams bt) stk with
      | none => .stuck
      | some (ps, r) => (fb ps.reverse s).turn (cx.K.M.blockParams bt).length r f again := by
  intro stk vsegs s c h
  obtain ⟨vp, vr, rfl, hp, hr, h'⟩ := Rel.open (pc1 := pc + 1) h ⟨ps.length, ps, pc, r⟩ rfl ⟨true, c.vm.pc + 1, c.vm.pc + 1⟩
  have hl : (cx.K.M.blockParams bt).length = ps.length := by rw [← hps, List.length_map]
  simp only [popVs_sregs hp hps, List.reverse_reverse, hl]
  have hm := ((hb _ _ _ _ h').weaken (Nat.le_succ n)).turn (pc' := pc') (out := out) (f := f) (again := again) (dst := dst)
    (fun os vs s c ho hr => by
      obtain ⟨rfl, hm⟩ := hob os ho
      exact hr.fin ok rfl hfin hlt hm hfree)
    (fun vs s c hr => ha _ _ _ _ hr) (fun stk vsegs s c hr => (hk stk vsegs s c hr).weaken (Nat.le_succ n))
  exact hm.prepend (Rel.step ok h.frame (h.at hi) (by simp only [step, h.pc])) (by omega)

theorem goes_ite {cx : Cx S} (ok : CxOk cx) {n : Nat} {Γ : List Lab} {bt : BlockTy} {r : List SOp}
    {src dst : List Reg} {cd pc pcE pc' : Nat} {ob out : Option (List SOp)} {fb f : List Val → SSt S.W → SOut S.W}
    (hi : cx.body[pc]? = some (.ite cd (pcE + 1) false)) (hps : dst.map (·.cls) = cx.K.M.blockParams bt)
    (hres : dst.length = (cx.K.M.blockResults bt).length) (hfree : ∀ x ∈ dst, Free Γ r x)
    (hb : Goes cx n (⟨dst.length, dst, pcE + 1, r⟩ :: Γ) (sregs dst) (pc + 1) pcE ob fb)
    (hfin : cx.body[pcE]? = some (.fin src dst)) (hlt : pcE + 1 < cx.body.length)
    (hob : ∀ os, ob = some os → os = sregs src ∧ MoveOk cx.W src dst)
    (hk : Goes cx n Γ (sregs dst ++ r) (pcE + 1) pc' out f) :
    Goes cx n Γ (sr .i32 cd :: (sregs dst ++ r)) pc pc' out fun stk s =>
      match popV .i32 stk with
      | none => .stuck
      | some (c, stk) =>
        match popVs (cx.K.M.blockParams bt) stk with
        | none => .stuck
        | some (ps, r) =>
          (if c ≠ (0 : BitVec 32) then fb ps.reverse s else .norm ps.reverse s).land (cx.K.M.blockResults bt).length r f := by
  intro stk vsegs s c h
  obtain ⟨a, stk, rfl, ha, h0⟩ := h.pop
  simp only [VM.read] at ha
  simp only [popV_cons]
  obtain ⟨vp, vr, rfl, hp, hr, h'⟩ := h0.open (pc1 := pc + 1) ⟨dst.length, dst, pcE + 1, r⟩ rfl
    ⟨false, pcE + 1, c.vm.pc + 1⟩
  simp only [popVs_sregs hp hps, List.reverse_reverse]
  split
  · rename_i hne
    have hm := (hb _ _ _ _ h').land (pc' := pc') (out := out) (f := f) hres.symm (fun os vs s c ho hr => by
      obtain ⟨rfl, hm⟩ := hob os ho
      exact hr.fin ok rfl hfin hlt hm hfree) hk
    refine hm.prepend (Rel.step ok h.frame (h.at hi) ?_) (by omega)
    simp only [step, ha, Res.bind_ok, Res.pure_eq, h.pc]
    rw [if_pos hne]
  · rename_i he
    simp only [SOut.land]
    refine (hk _ _ _ _ (h0.goto (pcE + 1))).prepend (Rel.step ok h.frame (h.at hi) ?_) (by omega)
    simp only [step, ha, Res.bind_ok, Res.pure_eq, Bool.false_eq_true, if_false]
    rw [if_neg he]

theorem goes_itee {cx : Cx S} (ok : CxOk cx) {n : Nat} {Γ : List Lab} {bt : BlockTy} {ps r : List SOp}
    {src dst : List Reg} {cd pc pcJ pcE pc' : Nat} {ot ob out : Option (List SOp)} {ft fe f : List Val → SSt S.W → SOut S.W}
    (hi : cx.body[pc]? = some (.ite cd (pcJ + 1) true)) (hps : ps.map (·.cls) = (cx.K.M.blockParams bt).reverse)
    (hres : dst.length = (cx.K.M.blockResults bt).length) (hfree : ∀ x ∈ dst, Free Γ r x)
    (ht : Goes cx n (⟨dst.length, dst, pcE + 1, r⟩ :: Γ) ps (pc + 1) pcJ ot ft)
    (hj : cx.body[pcJ]? = some (.jump (pcE + 1))) (hot : ∀ os, ot = some os → os = sregs dst)
    (he : Goes cx n (⟨dst.length, dst, pcE + 1, r⟩ :: Γ) ps (pcJ + 1) pcE ob fe)
    (hfin : cx.body[pcE]? = some (.fin src dst)) (hlt : pcE + 1 < cx.body.length)
    (hob : ∀ os, ob = some os → os = sregs src ∧ MoveOk cx.W src dst)
    (hk : Goes cx n Γ (sregs dst ++ r) (pcE + 1) pc' out f) :
    Goes cx n Γ (sr .i32 cd :: (ps ++ r)) pc pc' out fun stk s =>
      match popV .i32 stk with
      | none => .stuck
      | some (c, stk) =>
        match popVs (cx.K.M.blockParams bt) stk with
        | none => .stuck
        | some (ps, r) =>
          (if c ≠ (0 : BitVec 32) then ft ps.reverse s else fe ps.reverse s).land (cx.K.M.blockResults bt).length r f := by
  intro stk vsegs s c h
  obtain ⟨a, stk, rfl, ha, h0⟩ := h.pop
  simp only [VM.read] at ha
  simp only [popV_cons]
  obtain ⟨vp, vr, rfl, hp, hr, h'⟩ := h0.open (pc1 := pc + 1) ⟨dst.length, dst, pcE + 1, r⟩ rfl
    ⟨false, pcJ + 1, c.vm.pc + 1⟩
  obtain ⟨vp', vr', e, hp', hr', h''⟩ := h0.open (pc1 := pcJ + 1) ⟨dst.length, dst, pcE + 1, r⟩ rfl
    ⟨false, pcJ + 1, pcJ + 1⟩
  obtain ⟨rfl, rfl⟩ := List.append_inj e (by rw [rds_length hp, rds_length hp'])
  simp only [popVs_of hp hps, List.reverse_reverse]
  split
  · rename_i hne
    have hm := (ht _ _ _ _ h').land (pc' := pc') (out := out) (f := f) hres.symm (fun os vs s c ho hr => by
      cases hot os ho
      exact hr.jump ok rfl hj) hk
    refine hm.prepend (Rel.step ok h.frame (h.at hi) ?_) (by omega)
    simp only [step, ha, Res.bind_ok, Res.pure_eq, h.pc]
    rw [if_pos hne]
  · rename_i hz
    have hm := (he _ _ _ _ h'').land (pc' := pc') (out := out) (f := f) hres.symm (fun os vs s c ho hr => by
      obtain ⟨rfl, hm⟩ := hob os ho
      exact hr.fin ok rfl hfin hlt hm hfree) hk
    refine hm.prepend (Rel.step ok h.frame (h.at hi) ?_) (by omega)
    simp only [step, ha, Res.bind_ok, Res.pure_eq, if_true]
    rw [if_neg hz]

/-! ## The end of a function -/

/-- what an activation does for each outcome of the call -/
def CallMatch (cx : Cx S) (n : Nat) (o : COut S.W) (c : Conf S) : Prop :=
  match o with
  | .ok vs st w => ∃ j c', CPath cx.E j c c' ∧ RetAt cx vs st w c'
  | .fail f st w => ∃ j c' l, CPath cx.E j c c' ∧ CEndL cx.E c' f.res l ∧ l.1.store = st ∧ l.2 = w ∧
    st.globals.map (·.value.cls) = cx.K.M.globals
  | .stuck => False
  | .timeout => ∃ j c', n ≤ j ∧ CPath cx.E j c c'
  | .gap => ∃ j c', CPath cx.E j c c' ∧ CEnd cx.E c' (.trap .executionFailed)

theorem Match.finish {cx : Cx S} (ok : CxOk cx) {n pcE : Nat} {out : Option (List SOp)} {src dst : List Reg}
    {o : SOut S.W} {c : Conf S} (h : Match cx [] [] pcE out n o c) (hfin : cx.body[pcE]? = some (.fin src dst))
    (hlen : cx.body.length = pcE + 1) (hout : ∀ os, out = some os → os = sregs src ∧ src.map (·.cls) = cx.K.results) :
    CallMatch cx n (finishCall cx.K.results.length o) c := by
  cases o with
  | norm vs s =>
    obtain ⟨os, j, c', h1, h2, h3⟩ := h
    obtain ⟨rfl, hc⟩ := hout os h1
    have hl : src.length = cx.K.results.length := by simpa using congrArg List.length hc
    have hlab := h3.labels
    simp only [List.length_nil, Nat.zero_add] at hlab
    have hst : Model.step cx.E.H cx.E.P cx.body.length c'.vm (.fin src dst) =
        .ok (.cont { c'.vm with retRegs := src, pc := cx.body.length }) := by
      simp only [Model.step]
      rw [if_pos (by omega)]
      simp only [cap8_ok (by rw [hl]; exact ok.cap), Res.bind_ok, Res.pure_eq]
    refine ⟨_, _, h2.append (Rel.step ok h3.frame (h3.at hfin) hst), ⟨{ c'.vm with retRegs := src, pc := cx.body.length },
      .halt (by simp) (by simp only [hlab]; omega), h3.win, h3.here.store, getVals_sregs h3.os, hl⟩, h3.frame, h3.world, ?_,
      h3.here.gtys⟩
    rw [sregs_cls h3.os, hc]
  | br d vs s =>
    obtain ⟨j, c', h1, h2⟩ := h
    simp only [BrRel, List.getElem?_nil] at h2
    obtain ⟨hr, h2⟩ := h2
    have hlab := h2.labels
    simp only [List.length_nil, Nat.zero_add] at hlab
    simp only [finishCall, hr, List.length_nil, List.take_zero, List.reverse_nil]
    refine ⟨j, c', h1, ⟨c'.vm, .halt (by rw [h2.pc]; simp) (by omega), h2.win, h2.here.store, by rw [h2.ret]; rfl,
      by rw [h2.ret, hr]; rfl⟩, h2.frame, h2.world, by simp [hr], h2.here.gtys⟩
  | ret vs s => exact h
  | fail f st w => exact h
  | stuck => exact h
  | timeout => exact h
  | gap => exact h

end Verif.Lemmas
