import Verif.Lemmas.SymRel
/-
Symbolic code does what the source means: the cases that stay inside one activation.
-/
namespace Verif.Lemmas
open Verif.Model Verif.Spec Verif.Props

variable {S : Wasi}

/-- from the given operands at `pc` the machine follows `f` -/
def Goes (cx : Cx S) (n : Nat) (Γ : List Lab) (os : List SOp) (pc pc' : Nat) (out : Option (List SOp))
    (f : List Val → SSt S.W → SOut S.W) : Prop :=
  ∀ stk vsegs s c, Rel cx Γ pc os stk vsegs s c → Match cx Γ vsegs pc' out n (f stk s) c

/-- the instruction at the present position -/
theorem Rel.at {cx : Cx S} {Γ : List Lab} {pc : Nat} {os : List SOp} {stk : List Val} {vsegs : List (List Val)}
    {s : SSt S.W} {c : Conf S} (h : Rel cx Γ pc os stk vsegs s c) {i : Instr} (hi : cx.body[pc]? = some i) :
    cx.body[c.vm.pc]? = some i := by rw [h.pc]; exact hi

/-- abnormal end of an operator -/
theorem Match.fails {cx : Cx S} (ok : CxOk cx) {Γ : List Lab} {vsegs : List (List Val)} {pc' : Nat} {out : Option (List SOp)}
    {n : Nat} {c : Conf S} {i : Instr} {f : Fail} {Γ' : List Lab} {pc : Nat} {os : List SOp} {stk : List Val}
    {vsegs' : List (List Val)} {s : SSt S.W} (h : Rel cx Γ' pc os stk vsegs' s c)
    (hi : cx.body[c.vm.pc]? = some i) (hs : Model.step cx.E.H cx.E.P cx.body.length c.vm i = f.res) :
    Match cx Γ vsegs pc' out n (.fail f s.st s.world) c :=
  ⟨0, c, _, .nil c, Rel.fails ok h.frame hi hs, h.here.store, h.world, h.here.gtys⟩

theorem SOut.cont_fail {W : Type} (s : SSt W) (f : Fail) (k : List Val → SSt W → SOut W) :
    SOut.cont s (some f.res) k = .fail f s.st s.world := by
  cases f <;> rfl

/-- reading registers does not depend on anything but the register file -/
theorem regs_rd {a b : VM} (h : a.rf = b.rf) {r : List SOp} (hr : RegsOnly r) : r.map (rd a) = r.map (rd b) :=
  rds_congr fun x hx => rd_congrReg h (hr x hx)

theorem segs_rd {W : Cls → Nat} {a b : VM} (h : a.rf = b.rf) {Γ : List Lab} (hg : WfG W Γ) :
    Γ.map (fun l => l.seg.map (rd a)) = Γ.map (fun l => l.seg.map (rd b)) :=
  segs_congr fun l hl x hx => rd_congrReg h (wfG_regs hg l hl x hx)

/-- a register write keeps everything that does not use the register -/
theorem Rel.write {cx : Cx S} {Γ : List Lab} {pc pc1 : Nat} {r : List SOp} {rs : List Val} {vsegs : List (List Val)}
    {s s' : SSt S.W} {c : Conf S} {vm' : VM} {dc : Cls} {d : Nat} {v : dc.Carrier} {os : List SOp} {stk : List Val}
    (h : Rel cx Γ pc os stk vsegs s c) (hr : r.map (rd c.vm) = rs.map .ok) (hfree : Free Γ r ⟨dc, d⟩)
    (hset : c.vm.rf.set dc d v = .ok vm'.rf) (hl : vm'.locals = c.vm.locals) (hh : Here cx.K vm' s')
    (hw : s'.world = s.world) (hpc : vm'.pc = pc1) (hlab : vm'.labels = c.vm.labels) (hret : vm'.retRegs = c.vm.retRegs) :
    Rel cx Γ pc1 (sr dc d :: r) (⟨dc, v⟩ :: rs) vsegs s' ⟨c.m, vm'⟩ := by
  obtain ⟨h1, h2⟩ := rd_set hset vm' rfl hl
  refine ⟨h.frame, h.world.trans hw.symm, hpc, ?_, by rw [hret]; exact h.ret, hh, h.win.set hset, ?_, ?_⟩
  · show vm'.labels.length = _
    rw [hlab]; exact h.labels
  · simp only [List.map_cons, h1]
    rw [← hr]
    congr 1
    exact rds_congr fun x hx => h2 x (fun e => hfree.1 (e ▸ hx))
  · rw [← h.segs]
    exact segs_congr fun l hl x hx => h2 x (fun e => hfree.2 l hl (e ▸ hx))

/-- operator with a register result -/
theorem goes_val {cx : Cx S} (ok : CxOk cx) {n : Nat} {Γ : List Lab} {o : WOp} {args r : List SOp} {d : Nat} {dc : Cls}
    {i : Instr} {pc pc' : Nat} {out : Option (List SOp)} {f : List Val → SSt S.W → SOut S.W}
    (ho : OpI cx.K o args (.reg d) dc i) (hi : cx.body[pc]? = some i) (hfree : Free Γ r ⟨dc, d⟩) (hd : d < cx.W dc)
    (hk : Goes cx n Γ (sr dc d :: r) (pc + 1) pc' out f) :
    Goes cx n Γ (args ++ r) pc pc' out fun stk s => SOut.cont s (opSem cx.Q.H o stk s) f := by
  intro stk vsegs s c h
  obtain ⟨vals, rs, rfl, ha, hr⟩ := rds_append h.os
  obtain ⟨x, hx, hv⟩ := opI_sem ho cx.E.H cx.E.P cx.body.length (rs := rs) h.here ha
  rw [ok.H] at hx
  simp only [hx]
  generalize hst : step cx.E.H cx.E.P cx.body.length c.vm i = st at hv
  cases hv with
  | fail g =>
    rw [SOut.cont_fail]
    exact Match.fails ok h (h.at hi) hst
  | ok h1 h2 h3 h4 h5 h6 h7 =>
    rename_i v s' vm1
    obtain ⟨rf, hrf⟩ := h.win.set_ok hd v
    rw [VM.write, h4, hrf] at hst
    have hl : vm1.locals = c.vm.locals := by rw [h3.locals, h1, h.here.locals]
    have hrel := h.write (vm' := { vm1 with rf := rf }.next) (pc1 := pc + 1) (s' := s') (v := v) hr hfree hrf hl
      ⟨h3.locals, h3.ltys, h3.store, h3.ptr, h3.gtys⟩ h2 (by simp [VM.next, h5, h.pc]) h6 h7
    exact (hk _ _ _ _ hrel).prepend (Rel.step ok h.frame (h.at hi) hst) (by omega)

/-- operator fused with the `local.set` that follows -/
theorem goes_valL {cx : Cx S} (ok : CxOk cx) {n : Nat} {Γ : List Lab} (hg : WfG cx.W Γ) {o : WOp} {args r : List SOp}
    {l : Nat} {dc : Cls} {i : Instr} {pc pc' : Nat} {out : Option (List SOp)} {f : List Val → SSt S.W → SOut S.W}
    (ho : OpI cx.K o args (.loc l) dc i) (hi : cx.body[pc]? = some i) (hl : FnCtx.lty cx.K l = some dc) (hreg : RegsOnly r)
    (hk : Goes cx n Γ r (pc + 1) pc' out f) :
    Goes cx n Γ (args ++ r) pc pc' out fun stk s =>
      SOut.cont s (opSem cx.Q.H o stk s) fun stk s => SOut.cont s (opSem cx.Q.H (.localSet l) stk s) f := by
  intro stk vsegs s c h
  obtain ⟨vals, rs, rfl, ha, hr⟩ := rds_append h.os
  obtain ⟨x, hx, hv⟩ := opI_sem ho cx.E.H cx.E.P cx.body.length (rs := rs) h.here ha
  rw [ok.H] at hx
  simp only [hx]
  generalize hst : step cx.E.H cx.E.P cx.body.length c.vm i = st at hv
  cases hv with
  | fail g =>
    rw [SOut.cont_fail]
    exact Match.fails ok h (h.at hi) hst
  | ok h1 h2 h3 h4 h5 h6 h7 =>
    rename_i v s' vm1
    obtain ⟨v0, _, hlv, _⟩ := h3.local hl
    have hlt := (List.getElem?_eq_some_iff.1 hlv).1
    simp only [VM.write, hlt, if_true, Res.bind_ok, Res.pure_eq] at hst
    have h8 := h3.setLocal (v := ⟨dc, v⟩) hl
    simp only [SOut.cont, opSem]
    have hrel : Rel cx Γ (pc + 1) r rs vsegs { s' with locals := s'.locals.set l ⟨dc, v⟩ }
        ⟨c.m, { vm1 with locals := vm1.locals.set l ⟨dc, v⟩ }.next⟩ := by
      refine ⟨h.frame, h.world.trans h2.symm, by simp [VM.next, h5, h.pc], by simpa [VM.next, h6] using h.labels,
        by simpa [VM.next, h7] using h.ret, h8.next, by simpa [VM.next, h4] using h.win, ?_, ?_⟩
      · rw [← hr]; exact regs_rd (by simp [VM.next, h4]) hreg
      · rw [← h.segs]; exact segs_rd (by simp [VM.next, h4]) hg
    exact (hk _ _ _ _ hrel).prepend (Rel.step ok h.frame (h.at hi) hst) (by omega)

/-- operator without a new result -/
theorem goes_eff {cx : Cx S} (ok : CxOk cx) {n : Nat} {Γ : List Lab} (hg : WfG cx.W Γ) {o : WOp} {args keep r : List SOp}
    {i : Instr} {pc pc' : Nat} {out : Option (List SOp)} {f : List Val → SSt S.W → SOut S.W}
    (ho : OpE cx.K o args keep i) (hi : cx.body[pc]? = some i) (hreg : RegsOnly r)
    (hk : Goes cx n Γ (keep ++ r) (pc + 1) pc' out f) :
    Goes cx n Γ (args ++ r) pc pc' out fun stk s => SOut.cont s (opSem cx.Q.H o stk s) f := by
  intro stk vsegs s c h
  obtain ⟨vals, rs, rfl, ha, hr⟩ := rds_append h.os
  obtain ⟨x, kv, hx, hv, hkv⟩ := opE_sem ho cx.E.H cx.E.P cx.body.length (rs := rs) h.here ha
  have hkr : RegsOnly keep := by
    cases ho <;> intro y hy <;> simp only [List.mem_cons, List.not_mem_nil, or_false] at hy
    all_goals (subst hy; exact ⟨⟨_, _⟩, rfl⟩)
  rw [ok.H] at hx
  simp only [hx]
  generalize hst : step cx.E.H cx.E.P cx.body.length c.vm i = st at hv
  cases hv with
  | fail g =>
    rw [SOut.cont_fail]
    exact Match.fails ok h (h.at hi) hst
  | ok h2 h3 h4 h5 h6 h7 =>
    rename_i s' vm1
    have hrel : Rel cx Γ (pc + 1) (keep ++ r) (kv ++ rs) vsegs s' ⟨c.m, vm1⟩ := by
      refine ⟨h.frame, h.world.trans h2.symm, by simp [h5, h.pc], by simpa [h6] using h.labels,
        by simpa [h7] using h.ret, h3, by simpa [h4] using h.win, ?_, ?_⟩
      · rw [List.map_append, List.map_append, ← hr, ← hkv]
        congr 1
        · exact regs_rd h4 hkr
        · exact regs_rd h4 hreg
      · rw [← h.segs]; exact segs_rd h4 hg
    exact (hk _ _ _ _ hrel).prepend (Rel.step ok h.frame (h.at hi) hst) (by omega)

/-- operators that emit nothing -/
theorem goes_prod {cx : Cx S} {n : Nat} {Γ : List Lab} {o : WOp} {p : SOp} {os : List SOp} {pc pc' : Nat}
    {out : Option (List SOp)} {f : List Val → SSt S.W → SOut S.W} (ho : Prod cx.K o p)
    (hk : Goes cx n Γ (p :: os) pc pc' out f) :
    Goes cx n Γ os pc pc' out fun stk s => SOut.cont s (opSem cx.Q.H o stk s) f := by
  intro stk vsegs s c h
  cases ho with
  | const =>
    rename_i cc v
    refine hk _ _ _ _ ⟨h.frame, h.world, h.pc, h.labels, h.ret, h.here, h.win, ?_, h.segs⟩
    simp only [List.map_cons, h.os, rd, VM.read, Res.bind]
  | localGet hl =>
    rename_i j cc
    obtain ⟨v, h1, h2, h3⟩ := h.here.local hl
    simp only [opSem, h1, SOut.cont]
    refine hk _ _ _ _ ⟨h.frame, h.world, h.pc, h.labels, h.ret, h.here, h.win, ?_, h.segs⟩
    simp only [List.map_cons, h.os, rd, VM.read, Res.bind, h2, as_eq h3]

theorem goes_drop {cx : Cx S} {n : Nat} {Γ : List Lab} {x : SOp} {os : List SOp} {pc pc' : Nat}
    {out : Option (List SOp)} {f : List Val → SSt S.W → SOut S.W} (hk : Goes cx n Γ os pc pc' out f) :
    Goes cx n Γ (x :: os) pc pc' out fun stk s => SOut.cont s (opSem cx.Q.H .drop stk s) f := by
  intro stk vsegs s c h
  obtain ⟨cc, o⟩ := x
  obtain ⟨a, vs, rfl, ha, hr⟩ := rds_cons h.os
  exact hk _ _ _ _ ⟨h.frame, h.world, h.pc, h.labels, h.ret, h.here, h.win, hr, h.segs⟩

theorem goes_nop {cx : Cx S} {n : Nat} {Γ : List Lab} {os : List SOp} {pc pc' : Nat}
    {out : Option (List SOp)} {f : List Val → SSt S.W → SOut S.W} (hk : Goes cx n Γ os pc pc' out f) :
    Goes cx n Γ os pc pc' out fun stk s => SOut.cont s (opSem cx.Q.H .nop stk s) f := hk

/-! ## Branches -/

theorem Free.of_dst {W : Cls → Nat} : ∀ {Γ : List Lab} {d : Nat} {l : Lab}, WfG W Γ → Γ[d]? = some l →
    ∀ x ∈ l.dst, Free (Γ.drop (d + 1)) l.seg x
  | [], d, l, _, h => by simp at h
  | a :: Γ, 0, l, hg, h => by
    simp only [List.getElem?_cons_zero, Option.some.injEq] at h
    subst h
    simpa using hg.2.1
  | a :: Γ, d + 1, l, hg, h => by
    simp only [List.getElem?_cons_succ] at h
    simpa using Free.of_dst hg.2.2 h

theorem copyIf_move {low : RegFile} {W : Cls → Nat} {rf : RegFile} {src dst : List Reg} (hl : src.length = dst.length) :
    rf.copyIf src dst = rf.copyRegs src dst := by
  unfold RegFile.copyIf
  split
  · rfl
  · rename_i h
    have : src = [] := by
      cases src with
      | nil => rfl
      | cons a as =>
        cases dst with
        | nil => simp at hl
        | cons b bs => exact absurd ⟨by simp, by simp⟩ h
    subst this
    rfl

/-- taking a branch -/
theorem Rel.branch {cx : Cx S} {Γ : List Lab} (hg : WfG cx.W Γ) {pc : Nat} {os : List SOp} {stk : List Val}
    {vsegs : List (List Val)} {s : SSt S.W} {c : Conf S} (h : Rel cx Γ pc os stk vsegs s c) {d t : Nat} {src dst : List Reg}
    (hb : BrOk cx.K cx.body.length cx.W Γ d os src dst t) :
    ∃ vm', c.vm.branch d t src dst = .ok vm' ∧ BrRel cx Γ vsegs d stk s ⟨c.m, vm'⟩ := by
  unfold BrOk at hb
  have hsl := h.seglen
  cases hd : Γ[d]? with
  | none =>
    rw [hd] at hb
    obtain ⟨rfl, hres, rfl, rfl, rfl⟩ := hb
    refine ⟨{ c.vm with labels := c.vm.labels.drop (c.vm.labels.length - 1), pc := cx.body.length }, ?_, ?_⟩
    · simp only [VM.branch, RegFile.copyIf, ne_eq, not_true_eq_false, and_self, if_false, Res.bind_ok, Res.pure_eq, h.labels]
      have : max (Γ.length + 1 - 1 - Γ.length) 1 = 1 := by omega
      rw [this]
    · have hv : vsegs[Γ.length]? = none := by rw [← hsl]; simp
      simp only [BrRel, hd, hv]
      refine ⟨hres, h.frame, h.world, rfl, ?_, h.ret,
        ⟨h.here.locals, h.here.ltys, h.here.store, h.here.ptr, h.here.gtys⟩, h.win, rfl, rfl⟩
      simp only [List.length_drop, h.labels, List.length_nil]; omega
  | some l =>
    rw [hd] at hb
    obtain ⟨rfl, cs, ⟨r, rfl⟩, hlen, hm⟩ := hb
    have hdlt := (List.getElem?_eq_some_iff.1 hd).1
    rcases hm with ⟨rfl, rfl, hm⟩ | ⟨rfl, hm⟩
    case inr =>
      have hc : c.vm.rf.copyIf src dst = .ok c.vm.rf := by
        rw [RegFile.copyIf, if_neg]
        rintro ⟨h1, h2⟩
        exact hm.elim h1 h2
      refine ⟨{ c.vm with labels := c.vm.labels.drop (c.vm.labels.length - (Γ.length - d)), pc := l.pc }, ?_, ?_⟩
      · simp only [VM.branch, hc, Res.bind_ok, Res.pure_eq, h.labels]
        have : max (Γ.length + 1 - 1 - d) 1 = Γ.length - d := by omega
        rw [this]
      · have hdv : d < vsegs.length := by omega
        simp only [BrRel, hd, List.getElem?_eq_getElem hdv]
        obtain ⟨va, vb, rfl, ha, _⟩ := rds_append h.os
        have hva : va.length = l.arity := by rw [rds_length ha, sregs_length, hlen]
        have hseg : l.seg.map (rd c.vm) = vsegs[d].map .ok := by
          have := congrArg (fun x => x[d]?) h.segs
          simp only [List.getElem?_map, hd, List.getElem?_eq_getElem hdv, Option.map_some, Option.some.injEq] at this
          exact this
        refine ⟨h.frame, h.world, rfl, ?_, h.ret, ⟨h.here.locals, h.here.ltys, h.here.store, h.here.ptr, h.here.gtys⟩, h.win, ?_, ?_⟩
        · simp only [List.length_drop, h.labels]; omega
        · rw [List.map_append, List.map_append, ← hva, List.take_left]
          exact congr (congrArg _ ha) hseg
        · have hs' := congrArg (List.drop (d + 1)) h.segs
          rw [← List.map_drop, ← List.map_drop] at hs'
          exact hs'
    obtain ⟨rf, h1, h2, h3⟩ := rd_move h.win hm
    have hll : src.length = l.dst.length := by simpa using congrArg List.length hm.cls
    refine ⟨{ c.vm with rf := rf, labels := c.vm.labels.drop (c.vm.labels.length - (Γ.length - d)), pc := l.pc }, ?_, ?_⟩
    · simp only [VM.branch, copyIf_move (low := cx.low) (W := cx.W) hll, h1, Res.bind_ok, Res.pure_eq, h.labels]
      have : max (Γ.length + 1 - 1 - d) 1 = Γ.length - d := by omega
      rw [this]
    · have hdv : d < vsegs.length := by omega
      simp only [BrRel, hd, List.getElem?_eq_getElem hdv]
      obtain ⟨h4, h5⟩ := h3 { c.vm with rf := rf, labels := c.vm.labels.drop (c.vm.labels.length - (Γ.length - d)), pc := l.pc }
        rfl rfl
      have hfree := Free.of_dst hg hd
      obtain ⟨va, vb, rfl, ha, _⟩ := rds_append h.os
      have hva : va.length = l.arity := by rw [rds_length ha, sregs_length, hlen]
      have hseg : l.seg.map (rd c.vm) = vsegs[d].map .ok := by
        have := congrArg (fun x => x[d]?) h.segs
        simp only [List.getElem?_map, hd, List.getElem?_eq_getElem hdv, Option.map_some, Option.some.injEq] at this
        exact this
      refine ⟨h.frame, h.world, rfl, ?_, h.ret, ⟨h.here.locals, h.here.ltys, h.here.store, h.here.ptr, h.here.gtys⟩, h2, ?_, ?_⟩
      · simp only [List.length_drop, h.labels]; omega
      · rw [List.map_append, List.map_append, h4, ha, ← hseg, ← hva, List.take_left]
        congr 1
        exact rds_congr fun x hx => h5 x fun y hy e => (hfree y hy).1 (e ▸ hx)
      · have hs' := congrArg (List.drop (d + 1)) h.segs
        rw [← List.map_drop, ← List.map_drop] at hs'
        rw [← hs']
        exact segs_congr fun l' hl' x hx => h5 x fun y hy e => (hfree y hy).2 l' hl' (e ▸ hx)

theorem goes_br {cx : Cx S} (ok : CxOk cx) {n : Nat} {Γ : List Lab} (hg : WfG cx.W Γ) {d t : Nat} {src dst : List Reg}
    {os : List SOp} {pc pc' : Nat} {out : Option (List SOp)} (hi : cx.body[pc]? = some (.br d t src dst))
    (hb : BrOk cx.K cx.body.length cx.W Γ d os src dst t) : Goes cx n Γ os pc pc' out fun stk s => .br d stk s := by
  intro stk vsegs s c h
  obtain ⟨vm', h1, h2⟩ := h.branch hg hb
  exact ⟨1, _, Rel.step ok h.frame (h.at hi) (by simp only [step, h1, Res.bind_ok, Res.pure_eq]), h2⟩

/-- popping an operand changes nothing else -/
theorem Rel.pop {cx : Cx S} {Γ : List Lab} {pc : Nat} {cc : Cls} {o : Opnd cc} {os : List SOp} {stk : List Val}
    {vsegs : List (List Val)} {s : SSt S.W} {c : Conf S} (h : Rel cx Γ pc (⟨cc, o⟩ :: os) stk vsegs s c) :
    ∃ a r, stk = ⟨cc, a⟩ :: r ∧ c.vm.read cc o = .ok a ∧ Rel cx Γ pc os r vsegs s c := by
  obtain ⟨a, vs, rfl, ha, hr⟩ := rds_cons h.os
  exact ⟨a, vs, rfl, ha, h.frame, h.world, h.pc, h.labels, h.ret, h.here, h.win, hr, h.segs⟩

/-- only the program counter moves -/
theorem Rel.goto {cx : Cx S} {Γ : List Lab} {pc : Nat} {os : List SOp} {stk : List Val}
    {vsegs : List (List Val)} {s : SSt S.W} {c : Conf S} (h : Rel cx Γ pc os stk vsegs s c) (pc1 : Nat) :
    Rel cx Γ pc1 os stk vsegs s ⟨c.m, { c.vm with pc := pc1 }⟩ :=
  ⟨h.frame, h.world, rfl, h.labels, h.ret, ⟨h.here.locals, h.here.ltys, h.here.store, h.here.ptr, h.here.gtys⟩, h.win,
    h.os, h.segs⟩

theorem goes_brIf {cx : Cx S} (ok : CxOk cx) {n : Nat} {Γ : List Lab} (hg : WfG cx.W Γ) {d t cd : Nat} {src dst : List Reg}
    {os : List SOp} {pc pc' : Nat} {out : Option (List SOp)} {f : List Val → SSt S.W → SOut S.W}
    (hi : cx.body[pc]? = some (.brIf d t cd src dst))
    (hb : BrOk cx.K cx.body.length cx.W Γ d os src dst t) (hk : Goes cx n Γ os (pc + 1) pc' out f) :
    Goes cx n Γ (sr .i32 cd :: os) pc pc' out fun stk s =>
      match popV .i32 stk with
      | none => .stuck
      | some (c, r) => if c = (0 : BitVec 32) then f r s else .br d r s := by
  intro stk vsegs s c h
  obtain ⟨a, r, rfl, ha, h'⟩ := h.pop
  simp only [VM.read] at ha
  simp only [popV_cons]
  split
  · rename_i e
    refine (hk _ _ _ _ (h'.goto (pc + 1))).prepend (Rel.step ok h.frame (h.at hi) ?_) (by omega)
    simp only [step, ha, Res.bind_ok, e, if_true, Res.pure_eq, VM.next, h.pc]
  · rename_i e
    obtain ⟨vm', h1, h2⟩ := h'.branch hg hb
    exact ⟨1, _, Rel.step ok h.frame (h.at hi)
      (by simp only [step, ha, Res.bind_ok, e, if_false, h1, Res.pure_eq]), h2⟩

theorem goes_brTable {cx : Cx S} (ok : CxOk cx) {n : Nat} {Γ : List Lab} (hg : WfG cx.W Γ) {ds : List Nat} {d cd : Nat}
    {ts : List (Nat × Nat × List Reg)} {dt : Nat × Nat × List Reg} {src : List Reg} {os : List SOp} {pc pc' : Nat}
    {out : Option (List SOp)} (hi : cx.body[pc]? = some (.brTable ts dt cd src)) (hds : ts.map (·.1) = ds) (hd : dt.1 = d)
    (hb : ∀ t ∈ dt :: ts, t.1 < Γ.length ∧ BrOk cx.K cx.body.length cx.W Γ t.1 os src t.2.2 t.2.1) :
    Goes cx n Γ (sr .i32 cd :: os) pc pc' out fun stk s =>
      match popV .i32 stk with
      | none => .stuck
      | some (i, r) => .br (pick ds d i) r s := by
  intro stk vsegs s c h
  obtain ⟨a, r, rfl, ha, h'⟩ := h.pop
  simp only [VM.read] at ha
  simp only [popV_cons]
  have hp : pick ds d a = ((ts[BitVec.toNat (w := 32) a]?).getD dt).1 := by
    simp only [pick, ← hds, ← hd, List.getElem?_map]
    cases ts[BitVec.toNat (w := 32) a]? <;> rfl
  have hmem : (ts[BitVec.toNat (w := 32) a]?).getD dt ∈ dt :: ts := by
    cases he : ts[BitVec.toNat (w := 32) a]? with
    | none => simp
    | some t => exact List.mem_cons_of_mem _ (List.mem_of_getElem? he)
  obtain ⟨vm', h1, h2⟩ := h'.branch hg (hb _ hmem).2
  rw [hp]
  exact ⟨1, _, Rel.step ok h.frame (h.at hi) (by simp only [step, ha, Res.bind_ok, h1, Res.pure_eq]), h2⟩

/-! ## Return -/

theorem getVals_rd {vm : VM} : ∀ {rs : List Reg} {vs : List Val}, rs.map (fun r => rd vm (SOp.ofReg r)) = vs.map .ok →
    vm.rf.getVals rs = .ok vs
  | [], [], _ => rfl
  | [], _ :: _, h => by simp at h
  | _ :: _, [], h => by simp at h
  | r :: rs, v :: vs, h => by
    simp only [List.map_cons, List.cons.injEq, rd_reg] at h
    simp only [RegFile.getVals, h.1, Res.bind_ok, getVals_rd h.2, Res.pure_eq]

/-- operands in declared order -/
theorem getVals_sregs {vm : VM} {rs : List Reg} {vs : List Val} (h : (sregs rs).map (rd vm) = vs.map .ok) :
    vm.rf.getVals rs = .ok vs.reverse := by
  apply getVals_rd
  have := congrArg List.reverse h
  simpa [sregs, Function.comp_def] using this

theorem sregs_cls {vm : VM} {rs : List Reg} {vs : List Val} (h : (sregs rs).map (rd vm) = vs.map .ok) :
    vs.reverse.map (·.cls) = rs.map (·.cls) := by
  rw [List.map_reverse, rds_cls h, sregs, List.map_map, ← List.map_reverse, List.reverse_reverse]
  rfl

theorem cap8_ok {rs : List Reg} (h : rs.length ≤ 8) : cap8 rs = .ok rs := by simp [cap8, h]

theorem goes_ret {cx : Cx S} (ok : CxOk cx) {n : Nat} {Γ : List Lab} {src : List Reg}
    {r : List SOp} {pc pc' : Nat} {out : Option (List SOp)} (hi : cx.body[pc]? = some (.ret src))
    (hc : src.map (·.cls) = cx.K.results) : Goes cx n Γ (sregs src ++ r) pc pc' out fun stk s => .ret stk s := by
  intro stk vsegs s c h
  obtain ⟨va, vb, rfl, ha, _⟩ := rds_append h.os
  have hl : src.length = cx.K.results.length := by simpa using congrArg List.length hc
  have hva : va.length = cx.K.results.length := by rw [rds_length ha, sregs_length, hl]
  refine ⟨0, c, .nil c, ⟨⟨{ c.vm with retRegs := src }, .ret (h.at hi) ?_, h.win, h.here.store, ?_, hl⟩, h.frame, h.world, ?_, h.here.gtys⟩⟩
  · simp only [step, cap8_ok (by rw [hl]; exact ok.cap), Res.bind_ok, Res.pure_eq]
  · rw [← hva, List.take_left]; exact getVals_sregs ha
  · rw [← hva, List.take_left, sregs_cls ha, hc]

end Verif.Lemmas
