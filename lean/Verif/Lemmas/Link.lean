import Verif.Spec.Link
import Verif.Lemmas.Module
/-
Compilation and meaning of self-contained functions do not depend on the module.
-/
namespace Verif.Lemmas
open Verif.Model Verif.Spec

/-- contexts that differ in the module only -/
structure SameFn (K K' : FnCtx) : Prop where
  params : K.params = K'.params
  locals : K.locals = K'.locals
  results : K.results = K'.results

theorem SameFn.ty {K K' : FnCtx} (h : SameFn K K') : K.localType = K'.localType := by
  funext i; simp only [FnCtx.localType, h.params, h.locals]

theorem ownBlock_params {bt : BlockTy} (h : ownBlock bt = true) (M M' : MInfo) : M.blockParams bt = M'.blockParams bt := by
  cases bt <;> first | rfl | simp [ownBlock] at h

theorem ownBlock_results {bt : BlockTy} (h : ownBlock bt = true) (M M' : MInfo) : M.blockResults bt = M'.blockResults bt := by
  cases bt <;> first | rfl | simp [ownBlock] at h

/-- open blocks have no type index -/
def OwnCtl (cs : List Ctl) : Prop := ∀ b ∈ cs, ownBlock b.bt = true

theorem foldDst_same {K K' : FnCtx} (h : SameFn K K') (c : Cls) (rest : List WOp) : foldDst K c rest = foldDst K' c rest := by
  unfold foldDst; rw [h.ty]

theorem finish_same {K K' : FnCtx} (h : SameFn K K') (st : CS) (a : Alloc) (c : Cls) (b : Bool) (mk : Dst → Instr) (rest : List WOp) :
    finish K st a c b mk rest = finish K' st a c b mk rest := by
  unfold finish; rw [foldDst_same h]

theorem finish_ctl (K : FnCtx) (st : CS) (a : Alloc) (c : Cls) (b : Bool) (mk : Dst → Instr) (rest : List WOp) :
    (finish K st a c b mk rest).1.ctrl = st.ctrl ∧ ∀ o ∈ (finish K st a c b mk rest).2, o ∈ rest := by
  unfold finish
  split
  · exact ⟨rfl, fun o ho => List.mem_of_mem_tail ho⟩
  · exact ⟨rfl, fun o ho => ho⟩

theorem storeLocal_ctl {st st' : CS} {c : Cls} {x i : Nat} (h : storeLocal st c x i = some st') : st'.ctrl = st.ctrl := by
  unfold storeLocal at h
  cases c <;> simp at h <;> subst h <;> rfl

theorem localGet_same {K K' : FnCtx} (h : SameFn K K') (st : CS) (i : Nat) (rest : List WOp) :
    compLocalGet K st i rest = compLocalGet K' st i rest := by
  unfold compLocalGet; rw [h.ty]

theorem localGet_ctl {K : FnCtx} {st st' : CS} {i : Nat} {rest : List WOp} (h : compLocalGet K st i rest = some st') :
    st'.ctrl = st.ctrl := by
  unfold compLocalGet at h
  cases hc : K.localType i <;> rw [hc] at h <;> simp only at h
  all_goals first | (split at h) | skip
  all_goals first | cases h; rfl | cases h

theorem compConst_ctl {st st' : CS} {c : Cls} {v : c.Carrier} {rest : List WOp} (h : compConst st c v rest = some st') :
    st'.ctrl = st.ctrl := by
  unfold compConst at h
  split at h
  · cases h
  · split at h <;> cases h <;> rfl

theorem openBlock_same {K K' : FnCtx} {bt : BlockTy} (hb : ownBlock bt = true) (st : CS) (a : Alloc) (l : Bool) :
    openBlock K st a bt l = openBlock K' st a bt l := by
  unfold openBlock
  rw [ownBlock_params hb K.M K'.M, ownBlock_results hb K.M K'.M]

theorem openBlock_ctl {K : FnCtx} {bt : BlockTy} (hb : ownBlock bt = true) {st : CS} (a : Alloc) (l : Bool) (ho : OwnCtl st.ctrl) :
    OwnCtl (openBlock K st a bt l).ctrl := by
  intro b hm
  simp only [openBlock, List.mem_cons] at hm
  rcases hm with rfl | hm
  · exact hb
  · exact ho b hm

theorem compEnd_same {K K' : FnCtx} (h : SameFn K K') {st : CS} (ho : OwnCtl st.ctrl) : compEnd K st = compEnd K' st := by
  unfold compEnd endAlloc endTypes
  cases hc : st.ctrl with
  | nil => simp only [h.results]
  | cons b bs =>
    simp only [ownBlock_results (ho b (by rw [hc]; exact List.mem_cons_self)) K.M K'.M]

theorem elseAlloc_same {K K' : FnCtx} {st : CS} (ho : OwnCtl st.ctrl) : elseAlloc K st = elseAlloc K' st := by
  unfold elseAlloc
  cases hc : st.ctrl with
  | nil => rfl
  | cons b bs =>
    simp only [ownBlock_params (ho b (by rw [hc]; exact List.mem_cons_self)) K.M K'.M]

/-- one operator -/
theorem compOp_same {K K' : FnCtx} (h : SameFn K K') {st : CS} (ho : OwnCtl st.ctrl) {op : WOp} (hop : ownOp op = true)
    (rest : List WOp) : compOp K st op rest = compOp K' st op rest ∧
      ∀ st' rest', compOp K st op rest = some (st', rest') → OwnCtl st'.ctrl ∧ ∀ o ∈ rest', o ∈ rest := by
  have key : ∀ {x : Option CS}, (∀ s, x = some s → s.ctrl = st.ctrl) → ∀ st' rest', x.map (·, rest) = some (st', rest') →
      OwnCtl st'.ctrl ∧ ∀ o ∈ rest', o ∈ rest := by
    intro x hx st' rest' e
    cases x with
    | none => cases e
    | some s => simp only [Option.map_some, Option.some.injEq, Prod.mk.injEq] at e
                obtain ⟨rfl, rfl⟩ := e
                exact ⟨by rw [hx s rfl]; exact ho, fun _ h => h⟩
  have plain : ∀ {s : CS}, s.ctrl = st.ctrl → ∀ st' rest', some (s, rest) = some (st', rest') →
      OwnCtl st'.ctrl ∧ ∀ o ∈ rest', o ∈ rest := by
    intro s hs st' rest' e
    simp only [Option.some.injEq, Prod.mk.injEq] at e
    obtain ⟨rfl, rfl⟩ := e
    exact ⟨by rw [hs]; exact ho, fun _ h => h⟩
  have fin : ∀ (s : CS) (a : Alloc) (c : Cls) (b : Bool) (mk : Dst → Instr), s.ctrl = st.ctrl → ∀ st' rest',
      some (finish K s a c b mk rest) = some (st', rest') → OwnCtl st'.ctrl ∧ ∀ o ∈ rest', o ∈ rest := by
    intro s a c b mk hs st' rest' e
    have hf := finish_ctl K s a c b mk rest
    simp only [Option.some.injEq] at e
    rw [e] at hf
    exact ⟨by rw [hf.1, hs]; exact ho, hf.2⟩
  cases op with
  | localGet i =>
    simp only [compOp, localGet_same h]
    exact ⟨trivial, key fun s e => localGet_ctl e⟩
  | localSet i =>
    simp only [compOp, h.ty]
    exact ⟨trivial, key fun s e => (storeLocal_ctl e).trans rfl⟩
  | localTee i =>
    simp only [compOp, h.ty]
    refine ⟨trivial, ?_⟩
    split
    · intro _ _ e; cases e
    · exact key fun s e => storeLocal_ctl e
  | const c v => exact ⟨rfl, key fun s e => compConst_ctl e⟩
  | un op =>
    by_cases hm : ∃ c, op = .mov c
    · obtain ⟨c, rfl⟩ := hm
      exact ⟨rfl, fun _ _ e => by cases e⟩
    · have e : ∀ K : FnCtx, compOp K st (.un op) rest =
          (let p := st.alloc.pop op.src
           if takesPending op then
             let t := take st.pend op.src p.1.idx
             some (finish K { st with pend := t.2 } p.2 op.dst (un_folds op) (fun d => .op1 op d t.1) rest)
           else some (finish K st p.2 op.dst true (fun d => .op1 op d (.reg p.1.idx)) rest)) := by
        intro K
        cases op <;> first | rfl | exact absurd ⟨_, rfl⟩ hm
      rw [e K, e K']
      simp only [finish_same h]
      refine ⟨trivial, ?_⟩
      simp only [← finish_same h]
      split
      · exact fin _ _ _ _ _ rfl
      · exact fin _ _ _ _ _ rfl
  | bin op =>
    simp only [compOp]
    exact ⟨by rw [finish_same h], fin _ _ _ _ _ rfl⟩
  | select =>
    simp only [compOp]
    refine ⟨trivial, ?_⟩
    split
    · intro _ _ e; cases e
    · exact plain rfl
  | selectT c =>
    simp only [compOp]
    refine ⟨trivial, ?_⟩
    split
    · intro _ _ e; cases e
    · exact plain rfl
  | refNull => exact ⟨rfl, plain rfl⟩
  | refIsNull => exact ⟨rfl, plain rfl⟩
  | drop => exact ⟨rfl, plain rfl⟩
  | nop => exact ⟨rfl, plain rfl⟩
  | unreachable => exact ⟨rfl, plain rfl⟩
  | block bt =>
    simp only [ownOp] at hop
    simp only [compOp, openBlock_same (K := K) (K' := K') hop]
    refine ⟨trivial, fun st' rest' e => ?_⟩
    simp only [Option.some.injEq, Prod.mk.injEq] at e
    obtain ⟨rfl, rfl⟩ := e
    exact ⟨openBlock_ctl (K := K') hop st.alloc false ho, fun _ h => h⟩
  | loop bt =>
    simp only [ownOp] at hop
    simp only [compOp, openBlock_same (K := K) (K' := K') hop]
    refine ⟨trivial, fun st' rest' e => ?_⟩
    simp only [Option.some.injEq, Prod.mk.injEq] at e
    obtain ⟨rfl, rfl⟩ := e
    exact ⟨openBlock_ctl (K := K') hop st.alloc true ho, fun _ h => h⟩
  | ite bt =>
    simp only [ownOp] at hop
    simp only [compOp, openBlock_same (K := K) (K' := K') hop]
    refine ⟨trivial, fun st' rest' e => ?_⟩
    simp only [Option.some.injEq, Prod.mk.injEq] at e
    obtain ⟨rfl, rfl⟩ := e
    exact ⟨openBlock_ctl (K := K') hop (st.alloc.pop .i32).2 false ho, fun _ h => h⟩
  | els =>
    simp only [compOp, elseAlloc_same (K := K) (K' := K') ho]
    refine ⟨trivial, ?_⟩
    split
    · exact plain rfl
    · intro _ _ e; cases e
  | fin =>
    simp only [compOp, compEnd_same h ho]
    refine ⟨trivial, fun st' rest' e => ?_⟩
    cases hc : closeMaps (compEnd K' st) st.code.length rest with
    | none => rw [hc] at e; cases e
    | some s =>
      rw [hc] at e
      simp only [Option.map_some, Option.some.injEq, Prod.mk.injEq] at e
      obtain ⟨rfl, rfl⟩ := e
      refine ⟨?_, fun _ h => h⟩
      have hs : s.ctrl = st.ctrl.tail := by
        unfold closeMaps at hc
        split at hc
        · cases hc; rfl
        · split at hc
          · cases hc; rfl
          · cases hc
      rw [hs]
      exact fun b hb => ho b (List.mem_of_mem_tail hb)
  | br d => exact ⟨rfl, plain rfl⟩
  | brIf d => exact ⟨rfl, plain rfl⟩
  | brTable ds d => exact ⟨rfl, plain rfl⟩
  | ret =>
    simp only [compOp, h.results]
    exact ⟨trivial, plain rfl⟩
  | _ => simp [ownOp] at hop

theorem compStep_same {K K' : FnCtx} (h : SameFn K K') {st : CS} (ho : OwnCtl st.ctrl) {op : WOp} (hop : ownOp op = true)
    (rest : List WOp) : compStep K st op rest = compStep K' st op rest ∧
      ∀ st' rest', compStep K st op rest = some (st', rest') → OwnCtl st'.ctrl ∧ ∀ o ∈ rest', o ∈ rest := by
  unfold compStep
  split
  · exact compOp_same h ho hop rest
  · split
    · refine ⟨rfl, fun st' rest' e => ?_⟩
      simp only [Option.some.injEq, Prod.mk.injEq] at e
      obtain ⟨rfl, rfl⟩ := e
      exact ⟨ho, fun _ h => h⟩
    · exact compOp_same h (st := { st with dead := 0 }) ho hop rest

theorem compRun_same {K K' : FnCtx} (h : SameFn K K') : ∀ (n : Nat) {st : CS} (_ : OwnCtl st.ctrl) {ops : List WOp}
    (_ : ∀ o ∈ ops, ownOp o = true), compRun K n st ops = compRun K' n st ops
  | n, _, _, [], _ => by cases n <;> simp only [compRun]
  | 0, _, _, _ :: _, _ => by simp only [compRun]
  | n + 1, st, ho, op :: rest, hops => by
    obtain ⟨he, hn⟩ := compStep_same h ho (hops op List.mem_cons_self) rest
    simp only [compRun]
    rw [← he]
    cases hs : compStep K st op rest with
    | none => rfl
    | some p =>
      obtain ⟨ho', hr⟩ := hn p.1 p.2 hs
      exact compRun_same h n ho' fun o hm => hops o (List.mem_cons_of_mem _ (hr o hm))

theorem compileFn_same {K K' : FnCtx} (h : SameFn K K') {ops : List WOp} (hops : ∀ o ∈ ops, ownOp o = true) :
    compileFn K ops = compileFn K' ops := by
  unfold compileFn
  have e : CS.init K = CS.init K' := by simp only [CS.init, h.locals]
  rw [compRun_same h ops.length (st := CS.init K) (fun b hb => by simp [CS.init] at hb) hops, e, h.locals]

theorem flat_own : ∀ {w : WSeq}, w.selfContained = true → ∀ o ∈ w.flat, ownOp o = true
  | .done, _, o, h => by simp [WSeq.flat] at h
  | .op x k, hw, o, h => by
    simp only [WSeq.selfContained, Bool.and_eq_true] at hw
    simp only [WSeq.flat, List.mem_cons] at h
    rcases h with rfl | h
    · exact hw.1
    · exact flat_own hw.2 o h
  | .block bt b k, hw, o, h | .loop bt b k, hw, o, h | .ite bt b k, hw, o, h => by
    simp only [WSeq.selfContained, Bool.and_eq_true] at hw
    simp only [WSeq.flat, List.mem_cons, List.mem_append] at h
    rcases h with rfl | h | rfl | h
    · exact hw.1.1
    · exact flat_own hw.1.2 o h
    · rfl
    · exact flat_own hw.2 o h
  | .itee bt t e k, hw, o, h => by
    simp only [WSeq.selfContained, Bool.and_eq_true] at hw
    simp only [WSeq.flat, List.mem_cons, List.mem_append] at h
    rcases h with rfl | h | rfl | h | rfl | h
    · exact hw.1.1.1
    · exact flat_own hw.1.1.2 o h
    · rfl
    · exact flat_own hw.1.2 o h
    · rfl
    · exact flat_own hw.2 o h

/-- a self-contained function is preprocessed to the same code in every module -/
theorem compileFunc_same {M M' : MInfo} {F : SFunc} (h : F.selfContained = true) : compileFunc M F = compileFunc M' F := by
  cases F with
  | wasi t id => rfl
  | wasm t ls b =>
    simp only [compileFunc]
    rw [compileFn_same (K := fnCtx M t ls) (K' := fnCtx M' t ls) ⟨rfl, rfl, rfl⟩]
    intro o ho
    simp only [WSeq.body, List.mem_append, List.mem_singleton] at ho
    rcases ho with ho | rfl
    · exact flat_own h o ho
    · rfl

/-! ## Meaning -/

/-- the same outcome in another store and world -/
def SOut.put {W : Type} (st : Store) (w : W) : SOut W → SOut W
  | .norm vs s => .norm vs { s with st := st, world := w }
  | .br d vs s => .br d vs { s with st := st, world := w }
  | .ret vs s => .ret vs { s with st := st, world := w }
  | .fail f _ _ => .fail f st w
  | .stuck => .stuck
  | .timeout => .timeout
  | .gap => .gap

/-- the same state in another store and world -/
def SSt.put {W : Type} (st : Store) (w : W) (s : SSt W) : SSt W := { s with st := st, world := w }

theorem opSem_put {W : Type} (H : FloatHost) {o : WOp} (ho : ownOp o = true) (stk : List Val) (s : SSt W) (st : Store) (w : W) :
    opSem H o stk (SSt.put st w s) = (opSem H o stk s).map fun r => r.bind fun p => .ok (p.1, SSt.put st w p.2) := by
  have pb : ∀ {c : Cls} (x : Res c.Carrier) (r : List Val) (s : SSt W),
      push c x r (SSt.put st w s) = (push c x r s).bind fun p => .ok (p.1, SSt.put st w p.2) := by
    intro c x r s
    cases x <;> rfl
  cases o <;> first | (simp [ownOp] at ho; done) | skip
  all_goals simp only [opSem, pb]
  all_goals (repeat' split) <;> simp_all [Res.bind, SSt.put]

/-- the code after a construct -/
theorem land_put {W : Type} {n : Nat} {r : List Val} {k k' : List Val → SSt W → SOut W} {st : Store} {w : W}
    (hk : ∀ vs s, k' vs (SSt.put st w s) = SOut.put st w (k vs s)) (o : SOut W) :
    (SOut.put st w o).land n r k' = SOut.put st w (o.land n r k) := by
  cases o with
  | norm vs s => exact hk _ _
  | br d vs s => cases d with
    | zero => exact hk _ _
    | succ d => rfl
  | _ => rfl

theorem turn_put {W : Type} {n : Nat} {r : List Val} {k k' a a' : List Val → SSt W → SOut W} {st : Store} {w : W}
    (hk : ∀ vs s, k' vs (SSt.put st w s) = SOut.put st w (k vs s))
    (ha : ∀ vs s, a' vs (SSt.put st w s) = SOut.put st w (a vs s)) (o : SOut W) :
    (SOut.put st w o).turn n r k' a' = SOut.put st w (o.turn n r k a) := by
  cases o with
  | norm vs s => exact hk _ _
  | br d vs s => cases d with
    | zero => exact ha _ _
    | succ d => rfl
  | _ => rfl

theorem cont_put {W : Type} {k k' : List Val → SSt W → SOut W} {st : Store} {w : W}
    (hk : ∀ vs s, k' vs (SSt.put st w s) = SOut.put st w (k vs s)) (s : SSt W) (x : Option (Res (List Val × SSt W))) :
    SOut.cont (SSt.put st w s) (x.map fun r => r.bind fun p => .ok (p.1, SSt.put st w p.2)) k' = SOut.put st w (SOut.cont s x k) := by
  rcases x with _ | x
  · rfl
  · cases x with
    | ok p => exact hk _ _
    | _ => rfl

theorem ev_put {W : Type} {Q Q' : SProg} {M M' : MInfo} (hH : Q.H = Q'.H) {again again' : WSeq → List Val → SSt W → SOut W}
    {call call' : SFunc → List Val → Store → W → COut W} {st : Store} {w : W}
    (ha : ∀ b, b.selfContained = true → ∀ stk s, again' b stk (SSt.put st w s) = SOut.put st w (again b stk s)) :
    ∀ (b : WSeq), b.selfContained = true → ∀ stk s,
      ev Q' M' again' call' b stk (SSt.put st w s) = SOut.put st w (ev Q M again call b stk s)
  | .done, _, stk, s => rfl
  | .op o k, hb, stk, s => by
    simp only [WSeq.selfContained, Bool.and_eq_true] at hb
    have ih := ev_put hH (call := call) (call' := call') (M := M) (M' := M') ha k hb.2
    have gen : SOut.cont (SSt.put st w s) (opSem Q'.H o stk (SSt.put st w s)) (ev Q' M' again' call' k) =
        SOut.put st w (SOut.cont s (opSem Q.H o stk s) (ev Q M again call k)) := by
      rw [← hH, opSem_put Q.H hb.1]
      exact cont_put ih _ _
    cases o <;> first | (have h1 := hb.1; simp only [ownOp, Bool.false_eq_true] at h1; done) | (simp only [ev]; exact gen) | skip
    · rfl
    · simp only [ev]
      split
      · rfl
      · split
        · exact ih _ _
        · rfl
    · simp only [ev]
      split
      · rfl
      · rfl
    · rfl
  | .block bt b k, hb, stk, s => by
    simp only [WSeq.selfContained, Bool.and_eq_true] at hb
    simp only [ev, ownBlock_params hb.1.1 M' M, ownBlock_results hb.1.1 M' M]
    split
    · rfl
    · rw [ev_put hH (call := call) (call' := call') (M := M) (M' := M') ha b hb.1.2]
      exact land_put (ev_put hH ha k hb.2) _
  | .loop bt b k, hb, stk, s => by
    have hb' := hb
    simp only [WSeq.selfContained, Bool.and_eq_true] at hb
    simp only [ev, ownBlock_params hb.1.1 M' M]
    split
    · rfl
    · rw [ev_put hH (call := call) (call' := call') (M := M) (M' := M') ha b hb.1.2]
      exact turn_put (ev_put hH ha k hb.2) (ha _ hb') _
  | .ite bt t k, hb, stk, s => by
    simp only [WSeq.selfContained, Bool.and_eq_true] at hb
    simp only [ev, ownBlock_params hb.1.1 M' M, ownBlock_results hb.1.1 M' M]
    split
    · rfl
    · split
      · rfl
      · rename_i c _ _ _ ps _ _
        rw [ev_put hH (call := call) (call' := call') (M := M) (M' := M') ha t hb.1.2,
          show (SOut.norm ps.reverse (SSt.put st w s) : SOut W) = SOut.put st w (.norm ps.reverse s) from rfl, ← apply_ite (SOut.put st w)]
        exact land_put (ev_put hH ha k hb.2) _
  | .itee bt t e k, hb, stk, s => by
    simp only [WSeq.selfContained, Bool.and_eq_true] at hb
    simp only [ev, ownBlock_params hb.1.1.1 M' M, ownBlock_results hb.1.1.1 M' M]
    split
    · rfl
    · split
      · rfl
      · rw [ev_put hH (call := call) (call' := call') (M := M) (M' := M') ha t hb.1.1.2,
          ev_put hH (call := call) (call' := call') (M := M) (M' := M') ha e hb.1.2, ← apply_ite (SOut.put st w)]
        exact land_put (ev_put hH ha k hb.2) _

theorem run_put {S : Wasi} {Q Q' : SProg} {M M' : MInfo} (hH : Q.H = Q'.H) {st : Store} {w : S.W} :
    ∀ (n : Nat) (b : WSeq), b.selfContained = true → ∀ stk s,
      run S Q' M' n b stk (SSt.put st w s) = SOut.put st w (run S Q M n b stk s)
  | 0, _, _, _, _ => rfl
  | n + 1, b, hb, stk, s => ev_put hH (run_put hH n) b hb stk s

/-- the same answer of a call in another store and world -/
def COut.put {W : Type} (st : Store) (w : W) : COut W → COut W
  | .ok vs _ _ => .ok vs st w
  | .fail f _ _ => .fail f st w
  | .stuck => .stuck
  | .timeout => .timeout
  | .gap => .gap

/-- a self-contained function means the same in every module, and leaves store and world alone -/
theorem invoke_put {S : Wasi} {Q Q' : SProg} {M M' : MInfo} (hH : Q.H = Q'.H) {F : SFunc} (hF : F.selfContained = true)
    (n : Nat) (args : List Val) (st st' : Store) (w w' : S.W) :
    invoke S Q' M' n F args st' w' = COut.put st' w' (invoke S Q M n F args st w) := by
  cases F with
  | wasi t id => cases hF
  | wasm t ls b =>
    simp only [invoke, callWith]
    rw [show (⟨args ++ declLocals ls, st', w'⟩ : SSt S.W) = SSt.put st' w' ⟨args ++ declLocals ls, st, w⟩ from rfl,
      run_put hH n b hF]
    cases run S Q M n b [] ⟨args ++ declLocals ls, st, w⟩ <;> rfl

end Verif.Lemmas
