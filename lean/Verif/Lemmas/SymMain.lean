import Verif.Lemmas.SymCall
/-
The simulation: symbolic code follows the meaning of the source, for every amount of fuel.
-/
namespace Verif.Lemmas
open Verif.Model Verif.Spec Verif.Props

variable {S : Wasi}

theorem goes_call {cx : Cx S} (ok : CxOk cx) (lk : Linked S cx.E cx.Q cx.K.M) {n : Nat} (ih : SimFn S n) {Γ : List Lab}
    {f : Nat} {t : FuncType} {ps rs : List Reg} {r : List SOp} {pc pc' : Nat} {out : Option (List SOp)}
    {k : List Val → SSt S.W → SOut S.W} (hM : cx.K.M.funcs[f]? = some (none, t))
    (hi : cx.body[pc]? = some (.call f ps rs)) (hps : ps.map (·.cls) = t.params) (hrs : rs.map (·.cls) = t.results)
    (hfresh : Fresh cx.W Γ r rs) (hk : Goes cx (n + 1) Γ (sregs rs ++ r) (pc + 1) pc' out k) :
    Goes cx (n + 1) Γ (sregs ps ++ r) pc pc' out fun stk s => callTo cx.Q (callWith S (run S cx.Q cx.K.M n)) f stk s k := by
  intro stk vsegs s c h
  obtain ⟨vp, vr, rfl, hp, hr⟩ := rds_append h.os
  cases hF : cx.Q.funcs[f]? with
  | none => rw [(lk.missing f hF).2] at hM; cases hM
  | some F =>
    cases F with
    | wasi t' id => rw [(lk.wasi f t' id hF).1] at hM; cases hM
    | wasm t' ls b =>
      obtain ⟨hM', hcl, hcap, body, W, hP, hsym⟩ := lk.wasm f t' ls b hF
      rw [hM] at hM'
      cases hM'
      have hl : rs.length ≤ 8 := by
        have := congrArg List.length hrs
        simp only [List.length_map] at this; omega
      have ha : vp.reverse.map (·.cls) = t.params := by rw [sregs_cls hp, hps]
      simp only [callTo, hF, SFunc.type, popVs_sregs hp hps]
      refine match_invoke ok lk ih h hi ?_ hF ha hr hrs hfresh hk
      simp only [Model.step, hP, getVals_sregs hp, cap8_ok hl, Res.bind_ok, Res.pure_eq]

theorem goes_callWasi {cx : Cx S} (ok : CxOk cx) (lk : Linked S cx.E cx.Q cx.K.M) {n : Nat} {Γ : List Lab}
    {f id : Nat} {t : FuncType} {ps rs : List Reg} {r : List SOp} {pc pc' : Nat} {out : Option (List SOp)}
    {k : List Val → SSt S.W → SOut S.W} {run : WSeq → List Val → SSt S.W → SOut S.W}
    (hM : cx.K.M.funcs[f]? = some (some id, t))
    (hi : cx.body[pc]? = some (.callWasi id ps rs.head?)) (hps : ps.map (·.cls) = t.params) (hrs : rs.map (·.cls) = t.results)
    (hlen : rs.length ≤ 1)
    (hfresh : Fresh cx.W Γ r rs) (hk : Goes cx n Γ (sregs rs ++ r) (pc + 1) pc' out k) :
    Goes cx n Γ (sregs ps ++ r) pc pc' out fun stk s => callTo cx.Q (callWith S run) f stk s k := by
  intro stk vsegs s c h
  obtain ⟨vp, vr, rfl, hp, hr⟩ := rds_append h.os
  cases hF : cx.Q.funcs[f]? with
  | none => rw [(lk.missing f hF).2] at hM; cases hM
  | some F =>
    cases F with
    | wasm t' ls b => rw [(lk.wasm f t' ls b hF).1] at hM; cases hM
    | wasi t' id' =>
      have hM' := (lk.wasi f t' id' hF).1
      rw [hM] at hM'
      cases hM'
      have ha : vp.reverse.map (·.cls) = t.params := by rw [sregs_cls hp, hps]
      simp only [callTo, hF, SFunc.type, popVs_sregs hp hps]
      refine match_wasi ok lk h hi ?_ hF ha hr hrs hlen hfresh hk
      simp only [Model.step, getVals_sregs hp, Res.bind_ok, Res.pure_eq]

theorem goes_callIndirect {cx : Cx S} (ok : CxOk cx) (lk : Linked S cx.E cx.Q cx.K.M) {n : Nat} (ih : SimFn S n)
    {Γ : List Lab} {ty tbl x : Nat} {t : FuncType} {ps rs : List Reg} {r : List SOp} {pc pc' : Nat} {out : Option (List SOp)}
    {k : List Val → SSt S.W → SOut S.W} (hT : cx.K.M.types[ty]? = some t)
    (hi : cx.body[pc]? = some (.callIndirect ty tbl x ps rs)) (hps : ps.map (·.cls) = t.params)
    (hrs : rs.map (·.cls) = t.results)
    (hfresh : Fresh cx.W Γ r rs) (hk : Goes cx (n + 1) Γ (sregs rs ++ r) (pc + 1) pc' out k) :
    Goes cx (n + 1) Γ (sr .i32 x :: (sregs ps ++ r)) pc pc' out fun stk s =>
      callThrough cx.Q (callWith S (run S cx.Q cx.K.M n)) ty tbl stk s k := by
  intro stk vsegs s c h0
  obtain ⟨a, stk, rfl, ha, h⟩ := h0.pop
  obtain ⟨vp, vr, rfl, hp, hr⟩ := rds_append h.os
  simp only [VM.read] at ha
  simp only [callThrough, popV_cons, h.here.tables]
  rw [lk.mtypes] at hT
  have hPT : cx.E.P.types[ty]? = some t := by rw [lk.types]; exact hT
  cases hb : c.vm.inst.tables[tbl]? with
  | none =>
    refine Match.fails ok h (h.at hi) (f := .trap .tableNotFound) ?_
    simp only [Model.step, ha, Res.bind_ok, hb, Fail.res]
  | some tb =>
    simp only
    cases he : tb[BitVec.toNat (w := 32) a]? with
    | none =>
      refine Match.fails ok h (h.at hi) (f := .panic) ?_
      simp only [Model.step, ha, Res.bind_ok, hb, he, Fail.res]
    | some e =>
      cases e with
      | null =>
        refine Match.fails ok h (h.at hi) (f := .panic) ?_
        simp only [Model.step, ha, Res.bind_ok, hb, he, Fail.res]
      | «extern» y =>
        refine Match.fails ok h (h.at hi) (f := .panic) ?_
        simp only [Model.step, ha, Res.bind_ok, hb, he, Fail.res]
      | func f =>
        simp only [hT]
        cases hF : cx.Q.funcs[f]? with
        | none =>
          refine Match.fails ok h (h.at hi) (f := .panic) ?_
          simp only [Model.step, ha, Res.bind_ok, hb, he, (lk.missing f hF).1, Fail.res]
        | some F =>
          simp only
          split
          · rename_i hty
            cases F with
            | wasi t' id =>
              obtain ⟨_, hP, _, hl, _⟩ := lk.wasi f t' id hF
              simp only [SFunc.type] at hty
              subst hty
              have hl8 : rs.length ≤ 8 := by
                have := congrArg List.length hrs
                simp only [List.length_map] at this; omega
              obtain ⟨fr, h1, h2, h3⟩ := h.frame
              refine ⟨0, c, .nil c, .yield (i := .callIndirect ty tbl x ps rs) (vm' := c.vm.next) (y := .invoke f vp.reverse rs) h1 ?_ ?_ ?_⟩
              · rw [h2, ok.body]; exact h.at hi
              · simp only [Model.step, ha, Res.bind_ok, hb, he, hP, hPT, FuncInst.type, getVals_sregs hp, cap8_ok hl8, Res.pure_eq,
                  if_true]
              · simp only [Machine.react, Machine.doInvoke, hP, Round.ended]
            | wasm t' ls b =>
              obtain ⟨hM', hcl, hcap, body, W, hP, hsym⟩ := lk.wasm f t' ls b hF
              simp only [SFunc.type] at hty
              subst hty
              have hl : rs.length ≤ 8 := by
                have := congrArg List.length hrs
                simp only [List.length_map] at this; omega
              simp only [popVs_sregs hp hps]
              refine match_invoke ok lk ih h hi ?_ hF (by rw [sregs_cls hp, hps]) hr hrs hfresh hk
              simp only [Model.step, ha, Res.bind_ok, hb, he, hP, hPT, FuncInst.type, getVals_sregs hp, cap8_ok hl, Res.pure_eq,
                if_true]
          · rename_i hty
            refine Match.fails ok h (h.at hi) (f := .trap .indirectCallTypeMismatch) ?_
            have : ∃ fi, cx.E.P.funcs[f]? = some fi ∧ fi.type = F.type := by
              cases F with
              | wasi t' id => exact ⟨_, (lk.wasi f t' id hF).2.1, rfl⟩
              | wasm t' ls b =>
                obtain ⟨_, _, _, body, W, hP, _⟩ := lk.wasm f t' ls b hF
                exact ⟨_, hP, rfl⟩
            obtain ⟨fi, hfi, hft⟩ := this
            simp only [Model.step, ha, Res.bind_ok, hb, he, hfi, hPT, hft, Fail.res]
            rw [if_neg hty]

/-- a sequence, given the simulation at smaller fuel -/
theorem sim_step {cx : Cx S} (ok : CxOk cx) (lk : Linked S cx.E cx.Q cx.K.M) {n : Nat} (ihf : SimFn S n)
    (ihs : ∀ Γ w os pc pc' out, WfG cx.W Γ → Sym cx.K cx.body cx.W Γ w os pc pc' out →
      Goes cx n Γ os pc pc' out (run S cx.Q cx.K.M n w))
    {Γ : List Lab} {w : WSeq} {os : List SOp} {pc pc' : Nat} {out : Option (List SOp)}
    (hw : Sym cx.K cx.body cx.W Γ w os pc pc' out) : WfG cx.W Γ →
      Goes cx (n + 1) Γ os pc pc' out (ev cx.Q cx.K.M (run S cx.Q cx.K.M n) (callWith S (run S cx.Q cx.K.M n)) w) := by
  induction hw with
  | done =>
    intro hg stk vsegs s c h
    exact ⟨_, 0, c, rfl, .nil c, h⟩
  | prod hp _ ih =>
    intro hg
    have := goes_prod hp (ih hg)
    cases hp <;> exact this
  | drop _ ih => intro hg; exact goes_drop (ih hg)
  | nop _ ih => intro hg; exact goes_nop (ih hg)
  | val ho hi hfree hd _ ih =>
    intro hg
    have := goes_val ok ho hi hfree hd (ih hg)
    cases ho <;> exact this
  | valL ho hi hl hreg _ ih =>
    intro hg
    have := goes_valL ok hg ho hi hl hreg (ih hg)
    cases ho <;> exact this
  | eff ho hi hreg _ ih =>
    intro hg
    have := goes_eff ok hg ho hi hreg (ih hg)
    cases ho <;> exact this
  | unreachable hi =>
    intro hg stk vsegs s c h
    exact Match.fails ok h (h.at hi) (f := .panic) rfl
  | br hi hb => intro hg; exact goes_br ok hg hi hb
  | brIf hi hb _ ih => intro hg; exact goes_brIf ok hg hi hb (ih hg)
  | brTable hi h1 h2 hb => intro hg; exact goes_brTable ok hg hi h1 h2 hb
  | ret hi hc => intro hg; exact goes_ret ok hi hc
  | call h1 h2 h3 h4 h5 _ ih => intro hg; exact goes_call ok lk ihf h1 h2 h3 h4 h5 (ih hg)
  | callWasi h1 h2 h3 h4 h5 h6 _ ih => intro hg; exact goes_callWasi ok lk h1 h2 h3 h4 h5 h6 (ih hg)
  | callIndirect h1 h2 h3 h4 h5 _ ih => intro hg; exact goes_callIndirect ok lk ihf h1 h2 h3 h4 h5 (ih hg)
  | block hi hps hreg hres hfree _ hfin hlt hob _ ihb ihk =>
    intro hg
    exact goes_block ok hi hps hres hfree (ihb ⟨hreg, hfree, hg⟩) hfin hlt hob (ihk hg)
  | loop hi hps hreg hpf hres hfree hb hfin hlt hob hk ihb ihk =>
    intro hg
    exact goes_loop ok hi hps hfree (ihb ⟨hreg, hpf, hg⟩) hfin hlt hob
      (ihs _ _ _ _ _ _ hg (.loop hi hps hreg hpf hres hfree hb hfin hlt hob hk)) (ihk hg)
  | ite hi hps hreg hres hfree _ hfin hlt hob _ ihb ihk =>
    intro hg
    exact goes_ite ok hi hps hres hfree (ihb ⟨hreg, hfree, hg⟩) hfin hlt hob (ihk hg)
  | itee hi hps hreg hres hfree _ hj hot _ hfin hlt hob _ iht ihe ihk =>
    intro hg
    exact goes_itee ok hi hps hres hfree (iht ⟨hreg, hfree, hg⟩) hj hot (ihe ⟨hreg, hfree, hg⟩) hfin hlt hob (ihk hg)

theorem sim_seq (n : Nat) : ∀ (cx : Cx S), CxOk cx → Linked S cx.E cx.Q cx.K.M → ∀ Γ w os pc pc' out, WfG cx.W Γ →
    Sym cx.K cx.body cx.W Γ w os pc pc' out → Goes cx n Γ os pc pc' out (run S cx.Q cx.K.M n w) := by
  have fn : ∀ n, (∀ (cx : Cx S), CxOk cx → Linked S cx.E cx.Q cx.K.M → ∀ Γ w os pc pc' out, WfG cx.W Γ →
      Sym cx.K cx.body cx.W Γ w os pc pc' out → Goes cx n Γ os pc pc' out (run S cx.Q cx.K.M n w)) → SimFn S n := by
    intro n h cx ok lk b hsym s c hrel
    obtain ⟨pcE, out, src, dst, h1, h2, h3, h4⟩ := hsym.sym
    exact (h cx ok lk [] b [] 0 pcE out trivial h1 _ _ _ _ hrel).finish ok h2 h3 h4
  induction n with
  | zero =>
    intro cx ok lk Γ w os pc pc' out hg hw stk vsegs s c h
    exact ⟨0, c, Nat.le_refl _, .nil c⟩
  | succ n ih =>
    intro cx ok lk Γ w os pc pc' out hg hw
    exact sim_step ok lk (fn n ih) (ih cx ok lk) hw hg

/-- a compiled function does what its source means -/
theorem sim_fn (n : Nat) : SimFn S n := by
  intro cx ok lk b hsym s c hrel
  obtain ⟨pcE, out, src, dst, h1, h2, h3, h4⟩ := hsym.sym
  exact (sim_seq n cx ok lk [] b [] 0 pcE out trivial h1 _ _ _ _ hrel).finish ok h2 h3 h4

end Verif.Lemmas
