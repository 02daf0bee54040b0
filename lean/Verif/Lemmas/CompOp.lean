import Verif.Lemmas.CompStep
/-
Every operator of reachable code.
-/
namespace Verif.Lemmas
open Verif.Model Verif.Spec Verif.Props

theorem selectBank_some {c d : Cls} (h : selectBank c = some d) : d = c ∧ numeric c = true := by
  cases c <;> simp [selectBank] at h <;> subst h <;> exact ⟨rfl, rfl⟩

theorem selectBankT_num {c : Cls} (h : numeric c = true) : selectBankT c = some c ∧ selectBank c = some c := by
  cases c <;> simp [numeric] at h <;> exact ⟨rfl, rfl⟩

/-- consumers of pending operands, and `global.get` -/
def consumer : WOp → Bool
  | .globalGet _ | .un _ | .bin _ | .load _ _ => true
  | _ => false

theorem noMov {K : FnCtx} {st : CS} {op : Op1} {rest : List WOp} {x : CS × List WOp} (h : compOp K st (.un op) rest = some x) :
    ∀ c, op ≠ .mov c := by
  rintro c rfl; simp [compOp] at h

theorem foldUn_takes {op : Op1} (h : foldUn op = true) : takesPending op = true := by
  cases op <;> simp_all [foldUn, takesPending]

/-- an operator with one result: operands taken from the stack, pending ones directly -/
structure Takes (K : FnCtx) (v : Lvl) (st : CS) (o : WOp) (os : List SOp) (rest : List WOp) (x : CS × List WOp) (dc : Cls) (ts0 : List Cls) : Prop where
  ex : ∃ (stx : CS) (a : Alloc) (fold : Bool) (mk : Dst → Instr) (args : List SOp), x = finish K stx a dc fold mk rest ∧
    stx.code = st.code ∧ stx.dead = st.dead ∧ stx.pend = [] ∧ AOk v.b v.bs a ts0 ∧ (∀ d, isFixed (mk d) = true) ∧
    (∀ d, OpI K o args d dc (mk d)) ∧ os = args ++ sops v.b ts0

/-- an operator with two pending operands of which it takes one -/
def Halves : WOp → List Pend → Prop
  | .un _, [_, _] => True
  | _, _ => False

theorem PSt.halves {b : Cls → Nat} {pend : List Pend} {o : WOp} {k : WSeq} {ts : List Cls} {os : List SOp}
    (h : PSt b pend (.op o k) ts os) (hh : Halves o pend) : ∃ q p op so off k' r, o = .un op ∧ k = .op (.store so off) k' ∧
      pend = [q, p] ∧ foldUn op = true ∧ op.src = q.cls ∧ p.cls = .i32 ∧ ts = q.cls :: p.cls :: r ∧
      os = q.sop :: p.sop :: sops b r := by
  cases h with
  | bothUn h1 h2 h3 => exact ⟨_, _, _, _, _, _, _, rfl, rfl, rfl, h1, h2, h3, rfl, rfl⟩
  | none => cases o <;> exact hh.elim
  | now => cases o <;> exact hh.elim
  | wait => cases o <;> exact hh.elim
  | waitSt => cases o <;> exact hh.elim
  | both => exact hh.elim
  | st => exact hh.elim
  | waitUn => cases o <;> exact hh.elim

theorem takes_op {K : FnCtx} {v : Lvl} {st : CS} {o : WOp} {k : WSeq} {rest : List WOp} {x : CS × List WOp} {ts ts1 : List Cls}
    {os : List SOp} (hco : consumer o = true) (hh : ¬ Halves o st.pend) (ha : AOk v.b v.bs st.alloc ts) (hs : Small st.alloc)
    (ps : PSt v.b st.pend (.op o k) ts os) (ht : opTy K o ts = some ts1) (hc : compOp K st o rest = some x) :
    ∃ dc ts0, ts1 = dc :: ts0 ∧ Takes K v st o os rest x dc ts0 := by
  cases o <;> simp only [consumer, Bool.false_eq_true] at hco
  case globalGet g =>
    obtain ⟨hp, rfl⟩ := ps.quiet rfl
    simp only [opTy] at ht
    split at ht
    · rename_i c hg
      obtain ⟨r, rfl, rfl⟩ := sig_some ht
      refine ⟨c, ts, rfl, ?_⟩
      simp only [compOp, MInfo.globalType, hg, Option.getD_some] at hc
      split at hc
      · cases hc
      · rename_i d hd
        obtain ⟨rfl, _⟩ := selectBank_some hd
        simp only [Option.some.injEq] at hc
        exact ⟨⟨st, st.alloc, true, _, [], hc.symm, rfl, rfl, hp, ha, fun _ => rfl, fun d => .globalGet hg, rfl⟩⟩
    · cases ht
  case un op =>
    simp only [opTy] at ht
    obtain ⟨r, rfl, rfl⟩ := sig_some ht
    refine ⟨op.dst, r, rfl, ?_⟩
    have hm := noMov hc
    have hc' : (if takesPending op then
        some (finish K { st with pend := (take st.pend op.src (st.alloc.pop op.src).1.idx).2 } (st.alloc.pop op.src).2 op.dst (un_folds op)
          (fun d => .op1 op d (take st.pend op.src (st.alloc.pop op.src).1.idx).1) rest)
        else some (finish K st (st.alloc.pop op.src).2 op.dst true (fun d => .op1 op d (.reg (st.alloc.pop op.src).1.idx)) rest)) = some x := by
      rw [← hc]
      cases op <;> first | rfl | exact absurd rfl (hm _)
    have hr := AOk.popReg (ts := r) ha hs
    generalize hpend : st.pend = pend at ps hc'
    generalize hT : [op.src].reverse ++ r = T at ps
    cases ps with
    | none =>
      subst hT
      rw [take_nil, hr] at hc'
      split at hc'
      · simp only [Option.some.injEq] at hc'
        exact ⟨⟨_, _, _, _, [sr op.src (dep v.b r op.src)], hc'.symm, rfl, rfl, rfl, AOk.pop ha, fun _ => rfl, fun d => .un, rfl⟩⟩
      · simp only [Option.some.injEq] at hc'
        exact ⟨⟨_, _, _, _, [sr op.src (dep v.b r op.src)], hc'.symm, rfl, rfl, hpend, AOk.pop ha, fun _ => rfl, fun d => .un, rfl⟩⟩
    | @now p _ _ t h =>
      have hT2 : r = t := (List.cons.inj hT).2
      subst hT2
      rcases h with h | ⟨⟨op, off, h⟩, _⟩
      · simp only [consumes, Bool.and_eq_true, decide_eq_true_eq] at h
        rw [if_pos (foldUn_takes h.1)] at hc'
        obtain ⟨o', ht, hsop⟩ := take_hit h.2 [] (st.alloc.pop op.src).1.idx
        rw [ht] at hc'
        simp only [Option.some.injEq] at hc'
        exact ⟨⟨_, _, _, _, [⟨op.src, o'⟩], hc'.symm, rfl, rfl, rfl, AOk.pop ha, fun _ => rfl, fun d => .un, by rw [hsop]; rfl⟩⟩
      · cases h
    | wait h => simp [producerFor] at h
    | waitSt h => rcases h with ⟨c, v, h⟩ | ⟨i, h⟩ <;> cases h
    | waitUn h => simp [producerFor] at h
    | bothUn => exact (hh (by rw [hpend]; trivial)).elim
  case bin op =>
    simp only [opTy] at ht
    obtain ⟨r, rfl, rfl⟩ := sig_some ht
    refine ⟨op.dst, r, rfl, ?_⟩
    have hr2 := AOk.popReg (ts := op.src :: r) ha hs
    have ha1 := AOk.pop (ts := op.src :: r) ha
    have hr1 := AOk.popReg (ts := r) ha1 hs
    have ha0 := AOk.pop (ts := r) ha1
    simp only [compOp, Option.some.injEq] at hc
    generalize hpend : st.pend = pend at ps hc
    generalize hT : [op.src, op.src].reverse ++ r = T at ps
    cases ps with
    | none =>
      subst hT
      rw [take_nil, take_nil, hr1, hr2] at hc
      exact ⟨⟨_, _, _, _, [sr op.src (dep v.b (op.src :: r) op.src), sr op.src (dep v.b r op.src)], hc.symm, rfl, rfl, rfl, ha0,
        fun _ => rfl, fun d => .bin, rfl⟩⟩
    | @now p _ _ t h =>
      have hT2 : op.src :: r = t := (List.cons.inj hT).2
      subst hT2
      rcases h with h | ⟨⟨op, off, h⟩, _⟩
      · simp only [consumes, decide_eq_true_eq] at h
        obtain ⟨o', ht, hsop⟩ := take_hit h [] (st.alloc.pop op.src).1.idx
        rw [ht, take_nil, hr1] at hc
        exact ⟨⟨_, _, _, _, [⟨op.src, o'⟩, sr op.src (dep v.b r op.src)], hc.symm, rfl, rfl, rfl, ha0,
          fun _ => rfl, fun d => .bin, by rw [hsop]; rfl⟩⟩
      · cases h
    | wait h => simp [producerFor] at h
    | waitSt h => rcases h with ⟨c, v, h⟩ | ⟨i, h⟩ <;> cases h
    | waitUn h => simp [producerFor] at h
    | @both q p _ _ t h1 h2 =>
      have hT2 : r = t := (List.cons.inj (List.cons.inj hT).2).2
      subst hT2
      obtain ⟨o2, t2, s2⟩ := take_hit h1 [p] (st.alloc.pop op.src).1.idx
      obtain ⟨o1, t1, s1⟩ := take_hit h2 [] ((st.alloc.pop op.src).2.pop op.src).1.idx
      rw [t2, t1] at hc
      exact ⟨⟨_, _, _, _, [⟨op.src, o2⟩, ⟨op.src, o1⟩], hc.symm, rfl, rfl, rfl, ha0, fun _ => rfl, fun d => .bin, by rw [s2, s1]; rfl⟩⟩
  case load op off =>
    simp only [opTy] at ht
    obtain ⟨r, rfl, rfl⟩ := sig_some ht
    refine ⟨op.cls, r, rfl, ?_⟩
    have hr := AOk.popReg (ts := r) ha hs
    have ha0 := AOk.pop (ts := r) ha
    simp only [compOp, Option.some.injEq] at hc
    generalize hpend : st.pend = pend at ps hc
    generalize hT : [Cls.i32].reverse ++ r = T at ps
    cases ps with
    | none =>
      subst hT
      rw [take_nil, hr] at hc
      exact ⟨⟨_, _, _, _, [sr .i32 (dep v.b r .i32)], hc.symm, rfl, rfl, rfl, ha0, fun _ => rfl, fun d => .load, rfl⟩⟩
    | @now p _ _ t h =>
      have hT2 : r = t := (List.cons.inj hT).2
      subst hT2
      have h' : Cls.i32 = p.cls := by
        rcases h with h | ⟨_, h⟩
        · simp [consumes] at h
        · exact h.symm
      obtain ⟨o', ht, hsop⟩ := take_hit h' [] (st.alloc.pop .i32).1.idx
      rw [ht] at hc
      exact ⟨⟨_, _, _, _, [⟨.i32, o'⟩], hc.symm, rfl, rfl, rfl, ha0, fun _ => rfl, fun d => .load, by rw [hsop]; rfl⟩⟩
    | wait h => simp [producerFor] at h
    | waitSt h => rcases h with ⟨c, v, h⟩ | ⟨i, h⟩ <;> cases h
    | waitUn h => simp [producerFor] at h

/-- a unary operator on a pending operand whose result is stored at a pending address -/
theorem halves_live {K : FnCtx} {fin : CS} {body : List Instr} {v : Lvl} {st st1 : CS} {o : WOp} {k : WSeq} {rest : List WOp}
    {ts ts1 : List Cls} {os : List SOp} (fx : Fx K fin body) (hv : LvlOk K fin v) (hi : InL v st) (lat : Later st1 fin)
    (hh : Halves o st.pend) (ha : AOk v.b v.bs st.alloc ts)
    (ps : PSt v.b st.pend (.op o k) ts os) (ht : opTy K o ts = some ts1) (hc : compOp K st o rest = some (st1, rest)) :
    Live K fin body v (.op o k) k os st st1 ts1 := by
  obtain ⟨q, p, op, so, off, k', r, rfl, rfl, hpend, hf, hq, hp, rfl, rfl⟩ := ps.halves hh
  have hm := noMov hc
  have hc' : (if takesPending op then
      some (finish K { st with pend := (take st.pend op.src (st.alloc.pop op.src).1.idx).2 } (st.alloc.pop op.src).2 op.dst (un_folds op)
        (fun d => .op1 op d (take st.pend op.src (st.alloc.pop op.src).1.idx).1) rest)
      else some (finish K st (st.alloc.pop op.src).2 op.dst true (fun d => .op1 op d (.reg (st.alloc.pop op.src).1.idx)) rest)) = some (st1, rest) := by
    rw [← hc]
    cases op <;> first | rfl | exact absurd rfl (hm _)
  rw [if_pos (foldUn_takes hf)] at hc'
  simp only [opTy] at ht
  obtain ⟨r', e1, rfl⟩ := sig_some ht
  have e1 : q.cls :: p.cls :: r = op.src :: r' := e1
  simp only [List.cons.injEq] at e1
  obtain ⟨_, rfl⟩ := e1
  obtain ⟨o', htk, hsop⟩ := take_hit hq [p] (st.alloc.pop op.src).1.idx
  rw [hpend, htk] at hc'
  simp only [Option.some.injEq] at hc'
  have e := finish_live hc'
  rw [← hq] at ha
  refine live_val (stx := { st with pend := [p] }) (a := (st.alloc.pop op.src).2) (dc := op.dst)
    (i := .op1 op (.reg ((st.alloc.pop op.src).2.push op.dst).1.idx) o') (ts0 := p.cls :: r) (args := [⟨op.src, o'⟩]) (r := p.sop :: sops v.b r) fx hv hi rfl rfl (AOk.pop ha) e rfl lat
    (fun he => by rw [he]; exact .un) (by rw [hsop]; rfl) (fun x hx d j e => ?_) (.st hp)
  rcases List.mem_cons.1 hx with rfl | hx
  · cases p <;> simp only [Pend.sop, Pend.cls, Pend.opnd, SOp.mk.injEq] at e <;> obtain ⟨rfl, e⟩ := e <;> cases e
  · have := sops_lt x hx d j e
    simp only [dep, List.count_cons] at this ⊢
    omega

theorem takes_live {K : FnCtx} {fin : CS} {body : List Instr} {v : Lvl} {st st1 : CS} {o : WOp} {k : WSeq} {rest : List WOp} {ts0 : List Cls}
    {os : List SOp} {dc : Cls} (fx : Fx K fin body) (hv : LvlOk K fin v) (hi : InL v st) (lat : Later st1 fin)
    (h : Takes K v st o os rest (st1, rest) dc ts0) : Live K fin body v (.op o k) k os st st1 (dc :: ts0) := by
  obtain ⟨stx, a, fold, mk, args, hx, h1, h2, h3, h4, h5, h6, h7⟩ := h.ex
  have e := finish_live hx.symm
  exact live_val fx hv hi h1 h2 h4 e (h5 _) lat (fun he => by rw [he]; exact h6 _) h7 sops_lt (PSt.of_nil h3)

theorem takes_fused {K : FnCtx} {fin : CS} {body : List Instr} {v : Lvl} {st st1 : CS} {o : WOp} {k : WSeq} {r : List WOp} {ts0 ts2 : List Cls}
    {os : List SOp} {dc : Cls} {i : Nat} (fx : Fx K fin body) (hi : InL v st) (lat : Later st1 fin)
    (ht : opTy K (.localSet i) (dc :: ts0) = some ts2)
    (h : Takes K v st o os (.localSet i :: r) (st1, r) dc ts0) : Live K fin body v (.op o (.op (.localSet i) k)) k os st st1 ts2 := by
  obtain ⟨stx, a, fold, mk, args, hx, h1, h2, h3, h4, h5, h6, h7⟩ := h.ex
  obtain ⟨e0, e⟩ := finish_fused hx.symm
  simp only [opTy] at ht
  split at ht
  · rename_i c hl
    obtain ⟨r, hr, rfl⟩ := sig_some ht
    simp only [List.reverse_singleton, List.singleton_append, List.cons.injEq] at hr
    obtain ⟨rfl, rfl⟩ := hr
    have hlt : FnCtx.lty K i = some dc := hl
    rw [u16_eq fx (lty_type hlt).2] at e
    exact live_valL fx hi h1 h2 h3 h4 e (h5 _) lat hlt (h6 _) h7
  · cases ht

/-- only consumers are fused with a following `local.set` -/
theorem fused_consumer {K : FnCtx} {st st1 : CS} {o : WOp} {i : Nat} {r : List WOp} (hb : isBracket o = false)
    (h : compOp K st o (.localSet i :: r) = some (st1, r)) : consumer o = true := by
  have key : ∀ {x : CS × List WOp}, some x = some (st1, r) → x.2 = .localSet i :: r → False := by
    intro x hx he
    cases hx
    have := congrArg List.length he
    simp at this
  have key' : ∀ {x : Option CS}, x.map (·, WOp.localSet i :: r) = some (st1, r) → False := by
    intro x hx
    simp only [Option.map_eq_some_iff, Prod.mk.injEq] at hx
    obtain ⟨y, _, _, he⟩ := hx
    have := congrArg List.length he
    simp at this
  cases o <;> simp only [isBracket, reduceCtorEq, Bool.true_eq_false] at hb <;> first | rfl | skip
  case localGet j => exact (key' h).elim
  case localSet j => exact (key' h).elim
  case const c v => exact (key' h).elim
  case localTee j =>
    simp only [compOp] at h
    split at h
    · cases h
    · exact (key' h).elim
  case globalSet g =>
    simp only [compOp] at h
    split at h
    · cases h
    · exact (key h rfl).elim
  case selectT c =>
    simp only [compOp] at h
    split at h
    · cases h
    · exact (key h rfl).elim
  case select =>
    simp only [compOp] at h
    split at h
    · cases h
    · exact (key h rfl).elim
  case call f =>
    simp only [compOp] at h
    split at h <;> exact (key h rfl).elim
  case callIndirect ty t =>
    simp only [compOp] at h
    split at h
    · cases h
    · exact (key h rfl).elim
  case other => simp [compOp] at h
  all_goals exact (key h rfl).elim

theorem opTy_of_stepTy {K : FnCtx} {L : List (List Cls)} {o : WOp} {ts ts1 : List Cls} (ho : ∀ d, o ≠ .brIf d)
    (h : stepTy K L o ts = some (some ts1)) : opTy K o ts = some ts1 := by
  unfold stepTy at h
  split at h
  · cases h
  · split at h <;> cases h
  · split at h
    · split at h <;> cases h
    · cases h
  · split at h <;> cases h
  · exact absurd rfl (ho _)
  · simpa using h

/-- constants and `local.get` -/
theorem live_const {K : FnCtx} {fin : CS} {body : List Instr} {v : Lvl} {st st1 : CS} {c : Cls} {x : c.Carrier} {k : WSeq} {tail : List WOp}
    {ts ts1 : List Cls} {os : List SOp} {τ : Option (List Cls)} (fx : Fx K fin body) (hv : LvlOk K fin v) (hi : InL v st)
    (ha : AOk v.b v.bs st.alloc ts) (ps : PSt v.b st.pend (.op (.const c x) k) ts os) (ht : opTy K (.const c x) ts = some ts1)
    (hck : check K v.L k ts1 = some τ) (hcr : crossed K (.op (.const c x) k) = false) (tl : TailOk tail) (lat : Later st1 fin)
    (hc : compOp K st (.const c x) (k.flat ++ tail) = some (st1, k.flat ++ tail)) :
    Live K fin body v (.op (.const c x) k) k os st st1 ts1 := by
  simp only [opTy] at ht
  obtain ⟨r, rfl, rfl⟩ := sig_some ht
  simp only [compOp, compConst, Option.map_eq_some_iff] at hc
  obtain ⟨y, hy, he⟩ := hc
  cases he
  refine live_leaf (.const c x) fx hv hi ha ps rfl .const hck hcr tl lat (ins := .op1 (.mov c) (.reg (st.alloc.push c).1.idx) (.const x)) rfl
    (fun e => by
      rw [show (st.alloc.push c).1.idx = dep v.b ts c from e]; exact OpI.const) ?_
  split at hy
  · cases hy
  · split at hy
    · rename_i hf; cases hy; exact Or.inl ⟨hf, rfl⟩
    · rename_i hf; cases hy; exact Or.inr ⟨eq_false_of_ne_true hf, rfl⟩

theorem live_localGet {K : FnCtx} {fin : CS} {body : List Instr} {v : Lvl} {st st1 : CS} {i : Nat} {k : WSeq} {tail : List WOp}
    {ts ts1 : List Cls} {os : List SOp} {τ : Option (List Cls)} (fx : Fx K fin body) (hv : LvlOk K fin v) (hi : InL v st)
    (ha : AOk v.b v.bs st.alloc ts) (ps : PSt v.b st.pend (.op (.localGet i) k) ts os) (ht : opTy K (.localGet i) ts = some ts1)
    (hck : check K v.L k ts1 = some τ) (hcr : crossed K (.op (.localGet i) k) = false) (tl : TailOk tail) (lat : Later st1 fin)
    (hc : compOp K st (.localGet i) (k.flat ++ tail) = some (st1, k.flat ++ tail)) :
    Live K fin body v (.op (.localGet i) k) k os st st1 ts1 := by
  simp only [opTy] at ht
  split at ht
  case h_2 => cases ht
  rename_i c hl
  obtain ⟨r, rfl, rfl⟩ := sig_some ht
  have hlt : FnCtx.lty K i = some c := hl
  obtain ⟨hlc, hlen⟩ := lty_type hlt
  have hu := u16_eq fx hlen
  simp only [compOp, Option.map_eq_some_iff] at hc
  obtain ⟨y, hy, he⟩ := hc
  cases he
  have hnum : ∀ d, c = d → (d = .i32 ∨ d = .i64 ∨ d = .f32 ∨ d = .f64) →
      (compLocalGet K st i (k.flat ++ tail) = if canFoldOperand d (k.flat ++ tail) then
        some { st with pend := .loc d (u16 i) :: st.pend, alloc := (st.alloc.push d).2 }
        else some ({ st with alloc := (st.alloc.push d).2 }.emit (.op1 (.mov d) (.reg (st.alloc.push d).1.idx) (.param (u16 i))))) →
      Live K fin body v (.op (.localGet i) k) k os st st1 (c :: ts) := by
    intro d hd _ e
    subst hd
    rw [hu] at e
    rw [e] at hy
    refine live_leaf (.loc c i) fx hv hi ha ps hl (.localGet hlt) hck hcr tl lat
      (ins := .op1 (.mov c) (.reg (st.alloc.push c).1.idx) (.param i)) rfl
      (fun e => by
        rw [show (st.alloc.push c).1.idx = dep v.b ts c from e]; exact OpI.localGet hlt) ?_
    split at hy
    · rename_i hf; cases hy; exact Or.inl ⟨hf, rfl⟩
    · rename_i hf; cases hy; exact Or.inr ⟨eq_false_of_ne_true hf, rfl⟩
  cases c with
  | i32 => exact hnum _ rfl (by simp) (by unfold compLocalGet; generalize K.localType i = z at hlc; subst hlc; rfl)
  | i64 => exact hnum _ rfl (by simp) (by unfold compLocalGet; generalize K.localType i = z at hlc; subst hlc; rfl)
  | f32 => exact hnum _ rfl (by simp) (by unfold compLocalGet; generalize K.localType i = z at hlc; subst hlc; rfl)
  | f64 => exact hnum _ rfl (by simp) (by unfold compLocalGet; generalize K.localType i = z at hlc; subst hlc; rfl)
  | v128 => simp only [compLocalGet, hlc] at hy; cases hy
  | ref =>
    simp only [compLocalGet, hlc, hu, Option.some.injEq] at hy
    refine live_leaf (.loc .ref i) fx hv hi ha ps hl (.localGet hlt) hck hcr tl lat
      (ins := .refLocalGet (st.alloc.push .ref).1.idx i) rfl
      (fun e => by
        rw [show (st.alloc.push .ref).1.idx = dep v.b ts .ref from e]; exact OpI.refLocalGet hlt) (Or.inr ⟨rfl, hy.symm⟩)

end Verif.Lemmas
