import Verif.Lemmas.CompLev
import Verif.Props.CompileBugs
/-
One operator of reachable code: the instruction emitted for it (or the pending operand left behind) implements it.
-/
namespace Verif.Lemmas
open Verif.Model Verif.Spec Verif.Props

/-- a pending operand as a stack entry -/
def _root_.Verif.Model.Pend.sop (p : Pend) : SOp := ⟨p.cls, p.opnd⟩

/-- Pending operands and what comes next.  `w` is the sequence still to be compiled, `ts` the types of the stack, `os` where
its entries are. -/
inductive PSt (b : Cls → Nat) : List Pend → WSeq → List Cls → List SOp → Prop
  | none {w : WSeq} {ts : List Cls} : PSt b [] w ts (sops b ts)
  | now {p : Pend} {u : WOp} {k : WSeq} {ts : List Cls} : consumes p.cls u = true ∨ (∃ op off, u = .load op off) ∧ p.cls = .i32 →
      PSt b [p] (.op u k) (p.cls :: ts) (p.sop :: sops b ts)
  | wait {p : Pend} {u : WOp} {op : Op2} {k : WSeq} {ts : List Cls} : producerFor p.cls u = true → op.src = p.cls →
      PSt b [p] (.op u (.op (.bin op) k)) (p.cls :: ts) (p.sop :: sops b ts)
  | waitSt {p : Pend} {u : WOp} {op : StoreOp} {off : BitVec 64} {k : WSeq} {ts : List Cls} :
      (∃ c v, u = .const c v) ∨ (∃ i, u = .localGet i) → p.cls = .i32 →
      PSt b [p] (.op u (.op (.store op off) k)) (p.cls :: ts) (p.sop :: sops b ts)
  | both {q p : Pend} {op : Op2} {k : WSeq} {ts : List Cls} : op.src = q.cls → op.src = p.cls →
      PSt b [q, p] (.op (.bin op) k) (q.cls :: p.cls :: ts) (q.sop :: p.sop :: sops b ts)
  | st {p : Pend} {c : Cls} {op : StoreOp} {off : BitVec 64} {k : WSeq} {ts : List Cls} : p.cls = .i32 →
      PSt b [p] (.op (.store op off) k) (c :: p.cls :: ts) (sr c (dep b (p.cls :: ts) c) :: p.sop :: sops b ts)
  | waitUn {p : Pend} {u : WOp} {op : Op1} {so : StoreOp} {off : BitVec 64} {k : WSeq} {ts : List Cls} :
      producerFor p.cls u = true → foldUn op = true → op.src = p.cls → p.cls = .i32 →
      PSt b [p] (.op u (.op (.un op) (.op (.store so off) k))) (p.cls :: ts) (p.sop :: sops b ts)
  | bothUn {q p : Pend} {op : Op1} {so : StoreOp} {off : BitVec 64} {k : WSeq} {ts : List Cls} :
      foldUn op = true → op.src = q.cls → p.cls = .i32 →
      PSt b [q, p] (.op (.un op) (.op (.store so off) k)) (q.cls :: p.cls :: ts) (q.sop :: p.sop :: sops b ts)

theorem PSt.of_nil {b : Cls → Nat} {pend : List Pend} {w : WSeq} {ts : List Cls} (h : pend = []) : PSt b pend w ts (sops b ts) := by
  subst h; exact .none

/-- operators that deal with pending operands -/
def usesPend : WOp → Bool
  | .const _ _ | .localGet _ | .un _ | .bin _ | .load _ _ | .store _ _ => true
  | _ => false

theorem PSt.quiet {b : Cls → Nat} {pend : List Pend} {o : WOp} {k : WSeq} {ts : List Cls} {os : List SOp}
    (h : PSt b pend (.op o k) ts os) (hq : usesPend o = false) : pend = [] ∧ os = sops b ts := by
  cases h with
  | none => exact ⟨rfl, rfl⟩
  | now h =>
    rcases h with h | ⟨⟨op, off, rfl⟩, _⟩
    · cases o <;> simp_all [usesPend, consumes]
    · simp [usesPend] at hq
  | wait h => cases o <;> simp_all [usesPend, producerFor]
  | waitSt h => rcases h with ⟨c, v, rfl⟩ | ⟨i, rfl⟩ <;> simp [usesPend] at hq
  | both => simp [usesPend] at hq
  | st => simp [usesPend] at hq
  | waitUn h => cases o <;> simp_all [usesPend, producerFor]
  | bothUn => simp [usesPend] at hq

theorem PSt.idle {b : Cls → Nat} {pend : List Pend} {w : WSeq} {ts : List Cls} {os : List SOp}
    (h : PSt b pend w ts os) (hw : ∀ o k, w ≠ .op o k) : pend = [] ∧ os = sops b ts := by
  cases h <;> first | exact ⟨rfl, rfl⟩ | exact absurd rfl (hw _ _)

/-! ## Types -/

theorem sig_some {pops pushes ts ts1 : List Cls} (h : sig pops pushes ts = some ts1) :
    ∃ r, ts = pops.reverse ++ r ∧ ts1 = pushes.reverse ++ r := by
  unfold sig at h
  split at h
  · rename_i r hr
    cases h
    exact ⟨r, popTys_some hr, rfl⟩
  · cases h

theorem lty_type {K : FnCtx} {i : Nat} {c : Cls} (h : FnCtx.lty K i = some c) : K.localType i = c ∧ i < (localTypes K.params K.locals).length := by
  have hi : i < (localTypes K.params K.locals).length := (List.getElem?_eq_some_iff.1 h).1
  have := local_types_resolved K.params K.locals i hi
  rw [FnCtx.lty] at h
  rw [this, Option.some.injEq] at h
  exact ⟨h, hi⟩

theorem u16_eq {K : FnCtx} {fin : CS} {body : List Instr} (fx : Fx K fin body) {i : Nat} (hi : i < (localTypes K.params K.locals).length) :
    u16 i = i := Nat.mod_eq_of_lt (by have := fx.locs; omega)

theorem take_hit {p : Pend} {c : Cls} (h : c = p.cls) (r : List Pend) (i : Nat) :
    ∃ o : Opnd c, take (p :: r) c i = (o, r) ∧ p.sop = ⟨c, o⟩ := by
  subst h
  exact ⟨p.opnd, by simp [take], rfl⟩

theorem take_nil (c : Cls) (i : Nat) : take [] c i = (.reg i, []) := rfl

/-! ## Value producers -/

theorem foldDst_some {K : FnCtx} {c : Cls} {rest : List WOp} {l : Nat} (h : foldDst K c rest = some l) :
    ∃ i r, rest = .localSet i :: r ∧ K.localType i = c ∧ l = u16 i := by
  unfold foldDst at h
  split at h
  · split at h
    · cases h; exact ⟨_, _, rfl, by assumption, rfl⟩
    · cases h
  · cases h

theorem finish_live {K : FnCtx} {stx st1 : CS} {a : Alloc} {c : Cls} {fold : Bool} {mk : Dst → Instr} {rest : List WOp}
    (h : finish K stx a c fold mk rest = (st1, rest)) :
    st1 = { stx with alloc := (a.push c).2 }.emit (mk (.reg (a.push c).1.idx)) := by
  unfold finish at h
  split at h
  · rename_i l hl
    split at hl
    · obtain ⟨i, r, rfl, _, _⟩ := foldDst_some hl
      simp only [Prod.mk.injEq, List.tail_cons] at h
      have := congrArg List.length h.2
      simp at this
    · cases hl
  · exact (Prod.mk.inj h).1.symm

theorem finish_fused {K : FnCtx} {stx st1 : CS} {a : Alloc} {c : Cls} {fold : Bool} {mk : Dst → Instr} {i : Nat} {r : List WOp}
    (h : finish K stx a c fold mk (.localSet i :: r) = (st1, r)) :
    K.localType i = c ∧ st1 = { stx with alloc := ((a.push c).2.pop c).2 }.emit (mk (.loc (u16 i))) := by
  unfold finish at h
  split at h
  · rename_i l hl
    split at hl
    · obtain ⟨j, s, e, h1, h2⟩ := foldDst_some hl
      cases e
      exact ⟨h1, by rw [← h2]; exact (Prod.mk.inj h).1.symm⟩
    · cases hl
  · have := congrArg List.length (Prod.mk.inj h).2
    simp at this

/-- the state after an operator that falls through -/
structure Live (K : FnCtx) (fin : CS) (body : List Instr) (v : Lvl) (w k : WSeq) (os : List SOp) (st st1 : CS) (ts1 : List Cls) : Prop where
  ex : ∃ os1, AOk v.b v.bs st1.alloc ts1 ∧ PSt v.b st1.pend k ts1 os1 ∧ st1.dead = st.dead ∧
    ∀ pc' out, Sym K body fin.alloc.maxDepth v.Γ k os1 st1.code.length pc' out →
      Sym K body fin.alloc.maxDepth v.Γ w os st.code.length pc' out

/-- an instruction that writes a new register -/
theorem live_val {K : FnCtx} {fin : CS} {body : List Instr} {v : Lvl} {st stx st1 : CS} {a : Alloc} {o : WOp} {k : WSeq} {ts0 : List Cls}
    {r args os : List SOp} {dc : Cls} {i : Instr} (fx : Fx K fin body) (hv : LvlOk K fin v) (hi : InL v st) (hx : stx.code = st.code)
    (hd : stx.dead = st.dead) (ha : AOk v.b v.bs a ts0)
    (e1 : st1 = { stx with alloc := (a.push dc).2 }.emit i) (hfix : isFixed i = true) (lat : Later st1 fin)
    (ho : (a.push dc).1.idx = dep v.b ts0 dc → OpI K o args (.reg (dep v.b ts0 dc)) dc i)
    (hos : os = args ++ r) (hr : ∀ x ∈ r, ∀ d j, x = sr d j → j < dep v.b ts0 d)
    (hp : PSt v.b stx.pend k (dc :: ts0) (sr dc (dep v.b ts0 dc) :: r)) :
    Live K fin body v (.op o k) k os st st1 (dc :: ts0) := by
  subst e1 hos
  have hs : Small (a.push dc).2 := small_of_le fx.small lat.max
  have hb := body_fixed fx hi hfix (by have := lat.code; simp only [CS.emit, hx] at this; exact this)
  refine ⟨⟨_, ha.push dc, hp, hd, fun pc' out h => ?_⟩⟩
  simp only [CS.emit, hx, List.length_append] at h
  refine Sym.val (ho (by rw [ha.pushReg hs])) hb ?_ ?_ h
  · exact free_of hv.low (fun x hx d j e hd => by subst hd; exact hr x hx d j e) (by simp [dep])
  · exact Nat.lt_of_lt_of_le (ha.push dc).lt (lat.max dc)

theorem sops_lt {b : Cls → Nat} {ts : List Cls} : ∀ x ∈ sops b ts, ∀ d j, x = sr d j → j < dep b ts d := by
  intro x hx d j e
  obtain ⟨c, i, rfl, _, h⟩ := sops_mem hx
  obtain ⟨rfl, rfl⟩ := sr_inj e
  exact h

/-- the same followed by a folded `local.set` -/
theorem live_valL {K : FnCtx} {fin : CS} {body : List Instr} {v : Lvl} {st stx st1 : CS} {a : Alloc} {o : WOp} {k : WSeq} {ts0 : List Cls}
    {args os : List SOp} {dc : Cls} {i : Nat} {ins : Instr} (fx : Fx K fin body) (hi : InL v st) (hx : stx.code = st.code)
    (hd : stx.dead = st.dead) (hp : stx.pend = []) (ha : AOk v.b v.bs a ts0)
    (e1 : st1 = { stx with alloc := ((a.push dc).2.pop dc).2 }.emit ins) (hfix : isFixed ins = true) (lat : Later st1 fin)
    (hl : FnCtx.lty K i = some dc) (ho : OpI K o args (.loc i) dc ins) (hos : os = args ++ sops v.b ts0) :
    Live K fin body v (.op o (.op (.localSet i) k)) k os st st1 ts0 := by
  subst e1 hos
  have hb := body_fixed fx hi hfix (by have := lat.code; simp only [CS.emit, hx] at this; exact this)
  refine ⟨⟨_, (ha.push dc).pop, PSt.of_nil hp, hd, fun pc' out h => ?_⟩⟩
  simp only [CS.emit, hx, List.length_append] at h
  exact Sym.valL ho hb hl (sops_regs _ _) h

/-- an instruction without a new value -/
theorem live_eff {K : FnCtx} {fin : CS} {body : List Instr} {v : Lvl} {st stx st1 : CS} {o : WOp} {k : WSeq} {ts1 r : List Cls}
    {args keep os : List SOp} {i : Instr} (fx : Fx K fin body) (hi : InL v st) (hx : stx.code = st.code) (hd : stx.dead = st.dead)
    (hp : stx.pend = []) (ha : AOk v.b v.bs stx.alloc ts1) (e1 : st1 = stx.emit i) (hfix : isFixed i = true) (lat : Later st1 fin)
    (ho : OpE K o args keep i) (hos : os = args ++ sops v.b r) (hk : sops v.b ts1 = keep ++ sops v.b r) :
    Live K fin body v (.op o k) k os st st1 ts1 := by
  subst e1 hos
  have hb := body_fixed fx hi hfix (by have := lat.code; simp only [CS.emit, hx] at this; exact this)
  refine ⟨⟨_, ha, PSt.of_nil hp, hd, fun pc' out h => ?_⟩⟩
  simp only [CS.emit, hx, List.length_append] at h
  rw [hk] at h
  exact Sym.eff ho hb (sops_regs _ _) h

/-! ## Constants and locals -/

theorem flat_head {k : WSeq} {tail : List WOp} {u : WOp} {r : List WOp} (h : k.flat ++ tail = u :: r) (hu : isBracket u = false)
    (ht : TailOk tail) : ∃ k', k = .op u k' ∧ r = k'.flat ++ tail := by
  cases k with
  | done =>
    obtain ⟨r', rfl | rfl⟩ := ht <;> simp only [WSeq.flat, List.nil_append, List.cons.injEq] at h <;> rw [← h.1] at hu <;>
      simp [isBracket] at hu
  | op o k =>
    simp only [WSeq.flat, List.cons_append, List.cons.injEq] at h
    obtain ⟨rfl, rfl⟩ := h
    exact ⟨k, rfl, rfl⟩
  | block bt b k => simp only [WSeq.flat, List.cons_append, List.cons.injEq] at h; rw [← h.1] at hu; simp [isBracket] at hu
  | loop bt b k => simp only [WSeq.flat, List.cons_append, List.cons.injEq] at h; rw [← h.1] at hu; simp [isBracket] at hu
  | ite bt b k => simp only [WSeq.flat, List.cons_append, List.cons.injEq] at h; rw [← h.1] at hu; simp [isBracket] at hu
  | itee bt b e k => simp only [WSeq.flat, List.cons_append, List.cons.injEq] at h; rw [← h.1] at hu; simp [isBracket] at hu

theorem consumes_plain {c : Cls} {u : WOp} (h : consumes c u = true) : isBracket u = false := by
  cases u <;> simp_all [consumes, isBracket]

theorem producerFor_leaf {c : Cls} {u : WOp} (h : producerFor c u = true) : (∃ d v, u = .const d v) ∨ (∃ i, u = .localGet i) := by
  cases u
  case const d v => exact Or.inl ⟨d, v, rfl⟩
  case localGet i => exact Or.inr ⟨i, rfl⟩
  all_goals simp [producerFor] at h

theorem leafUn_eq (op : Op1) : leafUn op = foldUn op := by
  cases op <;> first | rfl | (rename_i s o; cases o <;> rfl)

theorem leaf_typed {K : FnCtx} {L : List (List Cls)} {u : WOp} {k : WSeq} {ts : List Cls} {τ : Option (List Cls)}
    (hu : (∃ d v, u = .const d v) ∨ (∃ i, u = .localGet i)) (h : check K L (.op u k) ts = some τ) : (leafCls K u).isSome = true := by
  rcases hu with ⟨d, v, rfl⟩ | ⟨i, rfl⟩
  · rfl
  · simp only [check, stepTy, opTy] at h
    simp only [leafCls]
    cases hl : (localTypes K.params K.locals)[i]? with
    | some c => rfl
    | none => rw [hl] at h; simp at h

/-- below a leaf, an operator and the store of its result there is an address -/
theorem store_typed {K : FnCtx} {L : List (List Cls)} {u : WOp} {op : Op1} {so : StoreOp} {off : BitVec 64} {k : WSeq} {c : Cls}
    {ts : List Cls} {τ : Option (List Cls)} (hu : (∃ d v, u = .const d v) ∨ (∃ i, u = .localGet i))
    (h : check K L (.op u (.op (.un op) (.op (.store so off) k))) (c :: ts) = some τ) : c = .i32 := by
  have h1 : ∃ d, check K L (.op (.un op) (.op (.store so off) k)) (d :: c :: ts) = some τ := by
    rcases hu with ⟨d, v, rfl⟩ | ⟨i, rfl⟩
    · exact ⟨d, h⟩
    · rw [check] at h
      simp only [stepTy, opTy] at h
      cases hl : (localTypes K.params K.locals)[i]? with
      | some d => rw [hl] at h; exact ⟨d, h⟩
      | none => rw [hl] at h; simp at h
  obtain ⟨d, h1⟩ := h1
  rw [check] at h1
  simp only [stepTy, opTy] at h1
  cases hs : sig [op.src] [op.dst] (d :: c :: ts) with
  | none => rw [hs] at h1; simp at h1
  | some t =>
    rw [hs] at h1
    obtain ⟨r, e1, e2⟩ := sig_some hs
    have e1 : d :: c :: ts = op.src :: r := e1
    have e2 : t = op.dst :: r := e2
    simp only [List.cons.injEq] at e1
    obtain ⟨_, rfl⟩ := e1
    subst e2
    simp only [Option.map_some, check, stepTy, opTy] at h1
    cases hs' : sig [.i32, so.cls] [] (op.dst :: c :: ts) with
    | none => rw [hs'] at h1; simp at h1
    | some t =>
      obtain ⟨r, e, _⟩ := sig_some hs'
      have e : op.dst :: c :: ts = so.cls :: .i32 :: r := e
      simp only [List.cons.injEq] at e
      exact e.2.1

theorem canFold_un {c : Cls} {op : Op1} (hf : foldUn op = true) (h : op.src = c) (hc : c = .i32) (r : List WOp) :
    canFoldOperand c (.un op :: r) = true := by
  subst hc
  simp [canFoldOperand, canFold, consumes, h, hf]

theorem un_typed {K : FnCtx} {L : List (List Cls)} {op : Op1} {k : WSeq} {ts : List Cls} {τ : Option (List Cls)}
    (h : check K L (.op (.un op) k) ts = some τ) : ∃ r, ts = op.src :: r := by
  simp only [check, stepTy, opTy] at h
  cases hs : sig [op.src] [op.dst] ts with
  | none => rw [hs] at h; simp at h
  | some t =>
    obtain ⟨r, rfl, _⟩ := sig_some hs
    exact ⟨r, rfl⟩

theorem canFold_state {K : FnCtx} {b : Cls → Nat} {L : List (List Cls)} {o : WOp} {k : WSeq} {tail : List WOp} {ts : List Cls}
    {τ : Option (List Cls)} (p : Pend) (hf : canFold p.cls (k.flat ++ tail) = true) (ho : leafCls K o = some p.cls)
    (hcr : crossed K (.op o k) = false) (hck : check K L k (p.cls :: ts) = some τ) (tl : TailOk tail) :
    PSt b [p] k (p.cls :: ts) (p.sop :: sops b ts) := by
  unfold canFold at hf
  split at hf
  · cases hf
  · rename_i u rest he
    split at hf
    · rename_i hu
      obtain ⟨k', rfl, rfl⟩ := flat_head he (consumes_plain hu) tl
      exact .now (Or.inl hu)
    · split at hf
      · rename_i hu
        have hu' : isBracket u = false := by rcases producerFor_leaf hu with ⟨d, v, rfl⟩ | ⟨i, rfl⟩ <;> rfl
        obtain ⟨k', rfl, rfl⟩ := flat_head he hu' tl
        split at hf
        · rename_i w rest' he'
          obtain ⟨k'', rfl, rfl⟩ := flat_head he' (consumes_plain hf) tl
          cases w with
          | un op =>
            simp only [consumes, Bool.and_eq_true, decide_eq_true_eq] at hf
            rw [crossed, leafUn_eq, hf.1, ho, hf.2, leaf_typed (producerFor_leaf hu) hck] at hcr
            simp only [decide_true, Bool.and_self, Bool.true_and, Bool.not_eq_false'] at hcr
            obtain ⟨so, off, k3, rfl⟩ : ∃ so off k3, k'' = .op (.store so off) k3 := by
              unfold storesNext at hcr
              split at hcr
              · exact ⟨_, _, _, rfl⟩
              · cases hcr
            exact .waitUn hu hf.1 hf.2 (store_typed (producerFor_leaf hu) hck)
          | bin op =>
            simp only [consumes, decide_eq_true_eq] at hf
            exact .wait hu hf
          | _ => simp [consumes] at hf
        · cases hf
      · cases hf

theorem fold_state {K : FnCtx} {b : Cls → Nat} {L : List (List Cls)} {o : WOp} {k : WSeq} {tail : List WOp} {ts : List Cls}
    {τ : Option (List Cls)} (p : Pend) (hf : canFoldOperand p.cls (k.flat ++ tail) = true) (ho : leafCls K o = some p.cls)
    (hcr : crossed K (.op o k) = false) (hck : check K L k (p.cls :: ts) = some τ) (tl : TailOk tail) :
    PSt b [p] k (p.cls :: ts) (p.sop :: sops b ts) := by
  have key : canFold p.cls (k.flat ++ tail) = true → PSt b [p] k (p.cls :: ts) (p.sop :: sops b ts) :=
    fun h => canFold_state p h ho hcr hck tl
  unfold canFoldOperand at hf
  split at hf
  · rename_i hi
    simp only [Bool.or_eq_true] at hf
    rcases hf with (hf | hf) | hf
    · exact key (by rw [hi]; exact hf)
    · unfold canFoldLoad at hf
      split at hf
      · rename_i op off r he
        obtain ⟨k', rfl, rfl⟩ := flat_head he rfl tl
        exact .now (Or.inr ⟨⟨_, _, rfl⟩, hi⟩)
      · cases hf
    · unfold canFoldStore at hf
      split at hf
      · rename_i c x op off r he
        obtain ⟨k', rfl, he'⟩ := flat_head he rfl tl
        obtain ⟨k'', rfl, rfl⟩ := flat_head he'.symm rfl tl
        exact .waitSt (Or.inl ⟨_, _, rfl⟩) hi
      · rename_i i op off r he
        obtain ⟨k', rfl, he'⟩ := flat_head he rfl tl
        obtain ⟨k'', rfl, rfl⟩ := flat_head he'.symm rfl tl
        exact .waitSt (Or.inr ⟨_, rfl⟩) hi
      · cases hf
  · exact key (by rw [‹p.cls = _›]; exact hf)
  · exact key (by rw [‹p.cls = _›]; exact hf)
  · exact key (by rw [‹p.cls = _›]; exact hf)
  · cases hf
  · cases hf

theorem bin_num (op : Op2) : op.src = .i32 ∨ op.src = .i64 ∨ op.src = .f32 ∨ op.src = .f64 := by
  cases op
  case int s o => cases s <;> simp [Op2.src, Sz.int]
  case rel s o => cases s <;> simp [Op2.src, Sz.int]
  case arith s o => cases s <;> simp [Op2.src, Sz.flt]
  case frel s o => cases s <;> simp [Op2.src, Sz.flt]
  all_goals rename_i s; cases s <;> simp [Op2.src, Sz.flt]

theorem canFold_bin {c : Cls} {op : Op2} (h : op.src = c) (r : List WOp) : canFoldOperand c (.bin op :: r) = true := by
  have h1 : canFold c (.bin op :: r) = true := by simp [canFold, consumes, h]
  rcases bin_num op with e | e | e | e <;> rw [h] at e <;> subst e <;> simp [canFoldOperand, h1]

theorem canFold_store {c : Cls} {op : StoreOp} {off : BitVec 64} (r : List WOp) : canFoldOperand c (.store op off :: r) = false := by
  cases c <;> simp [canFoldOperand, canFold, canFoldLoad, canFoldStore, consumes, producerFor]

theorem bin_typed {K : FnCtx} {L : List (List Cls)} {op : Op2} {k : WSeq} {ts : List Cls} {τ : Option (List Cls)}
    (h : check K L (.op (.bin op) k) ts = some τ) : ∃ r, ts = op.src :: op.src :: r := by
  simp only [check, stepTy, opTy] at h
  cases hs : sig [op.src, op.src] [op.dst] ts with
  | none => rw [hs] at h; simp at h
  | some t =>
    obtain ⟨r, rfl, _⟩ := sig_some hs
    exact ⟨r, rfl⟩

/-- A constant or a `local.get` of class `c`: either left pending or moved to a new register by `ins`. -/
theorem live_leaf {K : FnCtx} {fin : CS} {body : List Instr} {v : Lvl} {st st1 : CS} {o : WOp} {k : WSeq} {tail : List WOp} {ts : List Cls}
    {os : List SOp} {ins : Instr} {τ : Option (List Cls)} (p : Pend) (fx : Fx K fin body) (hv : LvlOk K fin v) (hi : InL v st)
    (ha : AOk v.b v.bs st.alloc ts)
    (ps : PSt v.b st.pend (.op o k) ts os) (hleaf : leafCls K o = some p.cls) (hprod : Prod K o p.sop)
    (hck : check K v.L k (p.cls :: ts) = some τ) (hcr : crossed K (.op o k) = false) (tl : TailOk tail) (lat : Later st1 fin)
    (hfix : isFixed ins = true)
    (ho : (st.alloc.push p.cls).1.idx = dep v.b ts p.cls → OpI K o [] (.reg (dep v.b ts p.cls)) p.cls ins)
    (hc : (canFoldOperand p.cls (k.flat ++ tail) = true ∧ st1 = { st with pend := p :: st.pend, alloc := (st.alloc.push p.cls).2 }) ∨
      (canFoldOperand p.cls (k.flat ++ tail) = false ∧ st1 = { st with alloc := (st.alloc.push p.cls).2 }.emit ins)) :
    Live K fin body v (.op o k) k os st st1 (p.cls :: ts) := by
  have emit : ∀ r, os = r → (∀ x ∈ r, ∀ d j, x = sr d j → j < dep v.b ts d) →
      PSt v.b st.pend k (p.cls :: ts) (sr p.cls (dep v.b ts p.cls) :: r) →
      st1 = { st with alloc := (st.alloc.push p.cls).2 }.emit ins → Live K fin body v (.op o k) k os st st1 (p.cls :: ts) := by
    intro r hr h1 h2 e1
    exact live_val (stx := st) fx hv hi rfl rfl ha e1 hfix lat ho (by simpa using hr) h1 h2
  have sopne : ∀ (q : Pend) d j, q.sop = sr d j → False := by
    intro q d j e
    cases q <;> simp only [Pend.sop, Pend.cls, Pend.opnd, SOp.mk.injEq] at e <;> obtain ⟨rfl, e⟩ := e <;> cases e
  generalize hpend : st.pend = pend at ps
  cases ps with
  | none =>
    rcases hc with ⟨hf, rfl⟩ | ⟨_, e1⟩
    · refine ⟨⟨p.sop :: sops v.b ts, ha.push _, ?_, rfl, fun pc' out h => Sym.prod hprod h⟩⟩
      show PSt v.b (p :: st.pend) k _ _
      rw [hpend]
      exact fold_state p hf hleaf hcr hck tl
    · exact emit _ rfl sops_lt (by rw [hpend]; exact .none) e1
  | now h =>
    rcases h with h | ⟨⟨op, off, rfl⟩, _⟩
    · cases o <;> simp_all [consumes, leafCls]
    · simp [leafCls] at hleaf
  | @wait q _ op k ts hq hop =>
    obtain ⟨r, hr⟩ := bin_typed hck
    simp only [List.cons.injEq] at hr
    have hf : canFoldOperand p.cls ((WSeq.op (.bin op) k).flat ++ tail) = true := canFold_bin hr.1.symm _
    rcases hc with ⟨_, rfl⟩ | ⟨h, _⟩
    · refine ⟨⟨p.sop :: q.sop :: sops v.b ts, ha.push _, ?_, rfl, fun pc' out h => Sym.prod hprod h⟩⟩
      show PSt v.b (p :: st.pend) _ _ _
      rw [hpend]
      exact .both hr.1.symm hop
    · rw [hf] at h; cases h
  | @waitSt q _ op off k ts hq hqc =>
    rcases hc with ⟨h, _⟩ | ⟨_, e1⟩
    · have := canFold_store (c := p.cls) (op := op) (off := off) (k.flat ++ tail)
      rw [show (WSeq.op (.store op off) k).flat ++ tail = .store op off :: (k.flat ++ tail) from rfl, this] at h
      cases h
    · refine emit _ rfl (fun x hx d j e => ?_) (by rw [hpend]; exact .st hqc) e1
      rcases List.mem_cons.1 hx with rfl | hx
      · exact (sopne _ _ _ e).elim
      · have := sops_lt x hx d j e
        simp only [dep, List.count_cons] at this ⊢
        omega
  | both => simp [leafCls] at hleaf
  | st => simp [leafCls] at hleaf
  | @waitUn q _ op so off k ts hq hf0 hop hqc =>
    obtain ⟨r, hr⟩ := un_typed hck
    simp only [List.cons.injEq] at hr
    have hf : canFoldOperand p.cls ((WSeq.op (.un op) (.op (.store so off) k)).flat ++ tail) = true :=
      canFold_un hf0 hr.1.symm (by rw [hr.1, hop, hqc]) _
    rcases hc with ⟨_, rfl⟩ | ⟨h, _⟩
    · refine ⟨⟨p.sop :: q.sop :: sops v.b ts, ha.push _, ?_, rfl, fun pc' out h => Sym.prod hprod h⟩⟩
      show PSt v.b (p :: st.pend) _ _ _
      rw [hpend]
      exact .bothUn hf0 hr.1.symm hqc
    · rw [hf] at h; cases h
  | bothUn => simp [leafCls] at hleaf

end Verif.Lemmas
