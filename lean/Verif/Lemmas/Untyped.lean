import Verif.Spec.Untyped
import Verif.Lemmas.Accept
/-
The preprocessor's checks: brackets and nothing else.
-/
namespace Verif.Lemmas
open Verif.Model Verif.Spec Verif.Props

/-! ## Brackets -/

/-- blocks open, as the preprocessor counts them -/
def level (st : CS) : Nat := st.mapCtl.length + (st.dead - 1)

theorem plain_counts {o : WOp} (h : isBracket o = false) : opens1 o = 0 ∧ closes1 o = 0 := by
  cases o <;> simp_all [isBracket, opens1, closes1]

theorem SameCtl_map {a b : CS} (h : SameCtl a b) : b.mapCtl = a.mapCtl := by
  cases h; assumption

theorem compOp_level {K : FnCtx} {st st1 : CS} {o : WOp} {rest r : List WOp} (hd : st.dead = 0) (h : compOp K st o rest = some (st1, r)) :
    (r = rest ∨ ∃ i, rest = .localSet i :: r) ∧
    (level st1 + closes1 o = level st + opens1 o ∨ (o = .fin ∧ level st = 0 ∧ level st1 = 0 ∧ rest = [])) := by
  cases hb : isBracket o with
  | false =>
    have pl := compOp_plain hb h
    obtain ⟨c1, c2⟩ := plain_counts hb
    refine ⟨pl.rest, .inl ?_⟩
    have := SameCtl_map pl.same
    rw [c1, c2]
    unfold level
    rw [this]
    rcases pl.dead with e | e <;> rw [e] <;> omega
  | true =>
    cases o <;> simp only [isBracket, Bool.false_eq_true] at hb
    case block bt =>
      simp only [compOp, Option.some.injEq, Prod.mk.injEq] at h
      obtain ⟨rfl, rfl⟩ := h
      exact ⟨.inl rfl, .inl (by simp [level, CS.emit, openBlock, opens1, closes1, hd])⟩
    case loop bt =>
      simp only [compOp, Option.some.injEq, Prod.mk.injEq] at h
      obtain ⟨rfl, rfl⟩ := h
      exact ⟨.inl rfl, .inl (by simp [level, CS.emit, openBlock, opens1, closes1, hd])⟩
    case ite bt =>
      simp only [compOp, Option.some.injEq, Prod.mk.injEq] at h
      obtain ⟨rfl, rfl⟩ := h
      exact ⟨.inl rfl, .inl (by simp [level, CS.emit, openBlock, opens1, closes1, hd])⟩
    case els =>
      simp only [compOp] at h
      split at h
      · rename_i s m hm
        simp only [Option.some.injEq, Prod.mk.injEq] at h
        obtain ⟨rfl, rfl⟩ := h
        exact ⟨.inl rfl, .inl (by simp [level, CS.emit, opens1, closes1, hd, hm])⟩
      · cases h
    case fin =>
      simp only [compOp, Option.map_eq_some_iff] at h
      obtain ⟨x, hx, he⟩ := h
      cases he
      refine ⟨.inl rfl, ?_⟩
      unfold closeMaps at hx
      split at hx
      · rename_i s i e m hm
        cases hx
        have hm' : st.mapCtl = (s, i, e) :: m := hm
        exact .inl (by simp [level, compEnd, CS.emit, opens1, closes1, hd, hm'])
      · rename_i hm
        have hm' : st.mapCtl = [] := hm
        split at hx
        · rename_i hr
          cases hx
          exact .inr ⟨rfl, by simp [level, hm', hd], by simp [level, compEnd, CS.emit, hm', hd], by simpa using hr⟩
        · cases hx

theorem compStep_level {K : FnCtx} {st st1 : CS} {o : WOp} {rest r : List WOp} (h : compStep K st o rest = some (st1, r)) :
    (r = rest ∨ ∃ i, rest = .localSet i :: r) ∧
    (level st1 + closes1 o = level st + opens1 o ∨ (o = .fin ∧ level st = 0 ∧ level st1 = 0 ∧ rest = [])) := by
  unfold compStep at h
  split at h
  · rename_i hd; exact compOp_level hd h
  · rename_i hd
    split at h
    · rename_i hn
      simp only [Option.some.injEq, Prod.mk.injEq] at h
      obtain ⟨rfl, rfl⟩ := h
      refine ⟨.inl rfl, .inl ?_⟩
      cases o <;> simp only [level, CS.emit, deadNext, opens1, closes1] at hn ⊢ <;> try omega
      split at hn <;> (try split) <;> omega
    · rename_i hn
      have h0 : level { st with dead := 0 } = level st := by
        simp only [level]
        cases o <;> simp only [deadNext] at hn <;> try omega
        split at hn <;> omega
      have := compOp_level (st := { st with dead := 0 }) rfl h
      rw [h0] at this
      exact this

theorem opened_cons (o : WOp) (ops : List WOp) : opened (o :: ops) = opens1 o + opened ops := by simp [opened]
theorem closed_cons (o : WOp) (ops : List WOp) : closed (o :: ops) = closes1 o + closed ops := by simp [closed]

/-- no prefix closes more than it opens -/
theorem run_prefix {K : FnCtx} : ∀ {n : Nat} {st fin : CS} {ops : List WOp}, compRun K n st ops = some fin →
    ∀ {pre post : List WOp}, ops = pre ++ post → post ≠ [] → closed pre ≤ level st + opened pre
  | _, _, _, [], _, pre, post, he, hp => by
    simp only [List.nil_eq, List.append_eq_nil_iff] at he
    exact absurd he.2 hp
  | 0, _, _, _ :: _, h, _, _, _, _ => by simp [compRun] at h
  | n + 1, st, fin, o :: rest, h, pre, post, he, hp => by
    simp only [compRun] at h
    split at h
    · cases h
    · rename_i st1 r hc
      obtain ⟨hr, hl⟩ := compStep_level hc
      cases pre with
      | nil => simp [closed]
      | cons o' pre =>
        simp only [List.cons_append, List.cons.injEq] at he
        obtain ⟨rfl, he⟩ := he
        rw [opened_cons, closed_cons]
        have key : closed pre ≤ level st1 + opened pre := by
          rcases hr with rfl | ⟨i, hi⟩
          · exact run_prefix h he hp
          · cases pre with
            | nil => simp [closed]
            | cons o'' pre =>
              rw [hi] at he
              simp only [List.cons_append, List.cons.injEq] at he
              obtain ⟨rfl, he⟩ := he
              have := run_prefix h he hp
              simp only [opened_cons, closed_cons, opens1, closes1]
              omega
        rcases hl with hl | ⟨_, _, _, hl⟩
        · omega
        · rw [hl] at he
          simp only [List.nil_eq, List.append_eq_nil_iff] at he
          exact absurd he.2 hp

/-- without operators that leave, code stays reachable -/
theorem compStep_alive {K : FnCtx} {st st1 : CS} {o : WOp} {rest r : List WOp} (hd : st.dead = 0) (hl : leaves o = false)
    (h : compStep K st o rest = some (st1, r)) : st1.dead = 0 := by
  unfold compStep at h
  rw [if_pos hd] at h
  cases hb : isBracket o with
  | false => exact (compOp_nonterm hb (by cases o <;> simp_all [leaves, isTerm]) h).trans hd
  | true =>
    cases o <;> simp only [isBracket, Bool.false_eq_true] at hb
    case els => exact (compOp_els h).2.trans hd
    case fin => exact (compOp_fin h).2.trans hd
    all_goals exact (compOp_open (by simp) h).2.trans hd

theorem run_closed {K : FnCtx} : ∀ {n : Nat} {st fin : CS} {ops : List WOp}, compRun K n st ops = some fin → st.dead = 0 →
    (∀ o ∈ ops, leaves o = false) → level st + opened ops ≤ closed ops
  | n, st, fin, [], h, hd, _ => by
    cases n <;>
    · simp only [compRun] at h
      split at h
      · rename_i he
        have : st.mapCtl = [] := by simpa using he
        simp [level, this, hd, opened]
      · cases h
  | 0, _, _, _ :: _, h, _, _ => by simp [compRun] at h
  | n + 1, st, fin, o :: rest, h, hd, hl => by
    simp only [compRun] at h
    split at h
    · cases h
    · rename_i st1 r hc
      obtain ⟨hr, hv⟩ := compStep_level hc
      have hd1 := compStep_alive hd (hl o (by simp)) hc
      rw [opened_cons, closed_cons]
      have key : level st1 + opened rest ≤ closed rest := by
        rcases hr with rfl | ⟨i, hi⟩
        · exact run_closed h hd1 fun o ho => hl o (by simp [ho])
        · have := run_closed h hd1 fun o ho => hl o (by simp [hi, ho])
          rw [hi, opened_cons, closed_cons]
          simp only [opens1, closes1]
          omega
      rcases hv with hv | ⟨rfl, h0, h1, hv⟩
      · omega
      · simp only [opens1, closes1]; omega

/-! ## Types -/

theorem declType_none : ∀ (ls : List (Nat × Cls)) (i : Nat), (ls.flatMap fun p => List.replicate p.1 p.2)[i]? = none → declType ls i = .i32
  | [], _, _ => rfl
  | (n, c) :: ls, i, h => by
    simp only [List.flatMap_cons, List.getElem?_eq_none_iff, List.length_append, List.length_replicate] at h
    rw [declType, if_neg (by omega)]
    exact declType_none ls _ (by rw [List.getElem?_eq_none_iff]; omega)

theorem localType_ne {K : FnCtx} {i : Nat} (h : (localTypes K.params K.locals)[i]? ≠ some .v128) : K.localType i ≠ .v128 := by
  cases hl : (localTypes K.params K.locals)[i]? with
  | some c =>
    rw [(lty_type (K := K) hl).1]
    rintro rfl
    exact h hl
  | none =>
    simp only [localTypes, List.getElem?_eq_none_iff, List.length_append] at hl
    have hp : K.params[i]? = none := by rw [List.getElem?_eq_none_iff]; omega
    simp only [FnCtx.localType, getLocalType, hp]
    rw [declType_none _ _ (by rw [List.getElem?_eq_none_iff]; omega)]
    decide

/-- an operator of the repertoire compiles whatever is on the operand stack -/
theorem plain_some {K : FnCtx} {st : CS} {o : WOp} {rest : List WOp} (hb : isBracket o = false) (hs : repOp K o = true) :
    ∃ x, compOp K st o rest = some x := by
  cases o <;> simp only [isBracket, reduceCtorEq, Bool.true_eq_false] at hb
  case localGet i =>
    simp only [repOp, decide_eq_true_eq] at hs
    have := localType_ne hs
    simp only [compOp, compLocalGet]
    cases hc : K.localType i <;> first | exact absurd hc this | exact ⟨_, rfl⟩ | (dsimp only; split <;> exact ⟨_, rfl⟩)
  case localSet i =>
    simp only [repOp, decide_eq_true_eq] at hs
    have := localType_ne hs
    simp only [compOp]
    obtain ⟨x, hx⟩ := storeLocal_some (st := { st with alloc := (st.alloc.pop (K.localType i)).2 }) (src := (st.alloc.pop (K.localType i)).1.idx) (i := i) this
    exact ⟨(x, rest), by simp [hx]⟩
  case globalGet g =>
    simp only [repOp] at hs
    have : ∃ c, selectBank (K.M.globalType g) = some c := by
      unfold MInfo.globalType
      split at hs
      · rename_i c hg; exact ⟨c, by rw [hg]; exact selectBank_numeric hs⟩
      · rename_i hg; exact ⟨.i32, by rw [hg]; rfl⟩
    obtain ⟨c, hc⟩ := this
    simp only [compOp, hc]
    exact ⟨_, rfl⟩
  case globalSet g =>
    simp only [repOp] at hs
    have : ∃ c, selectBank (K.M.globalType g) = some c := by
      unfold MInfo.globalType
      split at hs
      · rename_i c hg; exact ⟨c, by rw [hg]; exact selectBank_numeric hs⟩
      · rename_i hg; exact ⟨.i32, by rw [hg]; rfl⟩
    obtain ⟨c, hc⟩ := this
    simp only [compOp, hc]
    exact ⟨_, rfl⟩
  case const c v =>
    simp only [repOp] at hs
    have h1 : ¬ (c = .ref ∨ c = .v128) := by rintro (rfl | rfl) <;> simp [numeric] at hs
    simp only [compOp, compConst, if_neg h1]
    split <;> exact ⟨_, rfl⟩
  case un op =>
    cases op <;> simp only [repOp, Bool.false_eq_true] at hs <;> simp only [compOp] <;> split <;> exact ⟨_, rfl⟩
  case selectT c =>
    simp only [repOp, ne_eq, decide_eq_true_eq] at hs
    cases c <;> first | exact absurd rfl hs | exact ⟨_, rfl⟩
  case call f =>
    simp only [compOp]
    split <;> exact ⟨_, rfl⟩
  case localTee | select | callIndirect | other => simp [repOp] at hs
  all_goals exact ⟨_, rfl⟩

/-- so does a bracketed sequence of them, whatever its types -/
theorem plain_seq {K : FnCtx} : ∀ (w : WSeq) (tail : List WOp) (st : CS), w.Proper → TailOk tail → repSeq K w = true →
    st.dead ≤ 1 → ∃ st', CompSeq K w tail st st' ∧ st'.dead ≤ 1 := by
  intro w
  have bracket : ∀ {isIf : Bool} {e : Option Nat} {s : Nat} {m : List (Nat × Bool × Option Nat)} {rest : List WOp} {st2 : CS},
      st2.mapCtl = (s, isIf, e) :: m → ∃ st3, compOp K { st2 with dead := 0 } .fin rest = some (st3, rest) ∧ st3.dead = 0 := by
    intro isIf e s m rest st2 hm
    obtain ⟨st3, hc3⟩ := close_some (K := K) (rest := rest) (st := { st2 with dead := 0 }) hm
    exact ⟨st3, hc3, (compOp_fin hc3).2⟩
  induction w using WSeq.rec' with
  | done =>
    intro tail st hp ht hs hd
    rcases Nat.le_one_iff_eq_zero_or_eq_one.mp hd with h | h
    · exact ⟨st, .done h, hd⟩
    · exact ⟨_, .dead h, by simp [skip, h]⟩
  | op o k ih ih2 =>
    intro tail st hp ht hs hd
    rcases Nat.le_one_iff_eq_zero_or_eq_one.mp hd with h | h
    case inr => exact ⟨_, .dead h, by simp [skip, h]⟩
    simp only [repSeq, Bool.and_eq_true] at hs
    obtain ⟨⟨st1, r⟩, hc⟩ := plain_some (st := st) (rest := k.flat ++ tail) hp.1 hs.1
    have pl := compOp_plain hp.1 hc
    have hd1 : st1.dead ≤ 1 := by rcases pl.dead with e | e <;> omega
    rcases pl.rest with rfl | ⟨i, hi⟩
    · obtain ⟨st', h3, h4⟩ := ih tail st1 hp.2 ht hs.2 hd1
      exact ⟨st', .op h hp.1 hc h3, h4⟩
    · cases k with
      | done => obtain ⟨r, rfl | rfl⟩ := ht <;> simp [WSeq.flat] at hi
      | op o' k' =>
        simp only [WSeq.flat, List.cons_append, List.cons.injEq] at hi
        obtain ⟨rfl, rfl⟩ := hi
        simp only [repSeq, Bool.and_eq_true] at hs
        obtain ⟨st', h3, h4⟩ := ih2 _ k' rfl tail st1 hp.2.2 ht hs.2.2 hd1
        exact ⟨st', .fused h hp.1 hc h3, h4⟩
      | block => simp [WSeq.flat] at hi
      | loop => simp [WSeq.flat] at hi
      | ite => simp [WSeq.flat] at hi
      | itee => simp [WSeq.flat] at hi
  | block bt bb k ihb ihk =>
    intro tail st hp ht hs hd
    rcases Nat.le_one_iff_eq_zero_or_eq_one.mp hd with h | h
    case inr => exact ⟨_, .dead h, by simp [skip, h]⟩
    simp only [repSeq, Bool.and_eq_true] at hs
    obtain ⟨st2, h2, d2⟩ := ihb (.fin :: (k.flat ++ tail))
      ({ openBlock K st st.alloc bt false with mapCtl := (st.code.length, false, none) :: st.mapCtl }.emit (.block false)) hp.1 ⟨_, Or.inl rfl⟩ hs.1 hd
    obtain ⟨st3, h3, d3⟩ := bracket (rest := k.flat ++ tail) h2.ext.mapCtl
    obtain ⟨st4, h4, a4⟩ := ihk tail st3 hp.2 ht hs.2 (by omega)
    exact ⟨st4, .block h rfl h2 h3 h4, a4⟩
  | loop bt bb k ihb ihk =>
    intro tail st hp ht hs hd
    rcases Nat.le_one_iff_eq_zero_or_eq_one.mp hd with h | h
    case inr => exact ⟨_, .dead h, by simp [skip, h]⟩
    simp only [repSeq, Bool.and_eq_true] at hs
    obtain ⟨st2, h2, d2⟩ := ihb (.fin :: (k.flat ++ tail))
      ({ openBlock K st st.alloc bt true with mapCtl := (st.code.length, false, none) :: st.mapCtl }.emit (.block true)) hp.1 ⟨_, Or.inl rfl⟩ hs.1 hd
    obtain ⟨st3, h3, d3⟩ := bracket (rest := k.flat ++ tail) h2.ext.mapCtl
    obtain ⟨st4, h4, a4⟩ := ihk tail st3 hp.2 ht hs.2 (by omega)
    exact ⟨st4, .loop h rfl h2 h3 h4, a4⟩
  | ite bt bb k ihb ihk =>
    intro tail st hp ht hs hd
    rcases Nat.le_one_iff_eq_zero_or_eq_one.mp hd with h | h
    case inr => exact ⟨_, .dead h, by simp [skip, h]⟩
    simp only [repSeq, Bool.and_eq_true] at hs
    obtain ⟨st2, h2, d2⟩ := ihb (.fin :: (k.flat ++ tail))
      ({ openBlock K st (st.alloc.pop .i32).2 bt false with mapCtl := (st.code.length, true, none) :: st.mapCtl }.emit
        (.ite (st.alloc.pop .i32).1.idx 0 false)) hp.1 ⟨_, Or.inl rfl⟩ hs.1 hd
    obtain ⟨st3, h3, d3⟩ := bracket (rest := k.flat ++ tail) h2.ext.mapCtl
    obtain ⟨st4, h4, a4⟩ := ihk tail st3 hp.2 ht hs.2 (by omega)
    exact ⟨st4, .ite h rfl h2 h3 h4, a4⟩
  | itee bt t e k iht ihe ihk =>
    intro tail st hp ht hs hd
    rcases Nat.le_one_iff_eq_zero_or_eq_one.mp hd with h | h
    case inr => exact ⟨_, .dead h, by simp [skip, h]⟩
    simp only [repSeq, Bool.and_eq_true] at hs
    obtain ⟨st2, h2, d2⟩ := iht (.els :: (e.flat ++ .fin :: (k.flat ++ tail)))
      ({ openBlock K st (st.alloc.pop .i32).2 bt false with mapCtl := (st.code.length, true, none) :: st.mapCtl }.emit
        (.ite (st.alloc.pop .i32).1.idx 0 false)) hp.1 ⟨_, Or.inr rfl⟩ hs.1.1 hd
    have m2 := h2.ext.mapCtl
    obtain ⟨st3, h3⟩ := els_some (K := K) (rest := e.flat ++ .fin :: (k.flat ++ tail)) (st := { st2 with dead := 0 }) m2
    have e3 := compOp_els' (st := { st2 with dead := 0 }) m2 h3
    obtain ⟨st4, h4, d4⟩ := ihe (.fin :: (k.flat ++ tail)) st3 hp.2.1 ⟨_, Or.inl rfl⟩ hs.1.2 (by rw [e3]; simp [CS.emit])
    have m4 : st4.mapCtl = _ := h4.ext.mapCtl.trans (by rw [e3])
    obtain ⟨st5, h5, d5⟩ := bracket (rest := k.flat ++ tail) m4
    obtain ⟨st6, h6, a6⟩ := ihk tail st5 hp.2.2 ht hs.2 (by omega)
    exact ⟨st6, .itee h rfl h2 h3 h4 h5 h6, a6⟩

/-- a bracketed body of operators of the repertoire is accepted whatever its types -/
theorem plain_fn {K : FnCtx} {w : WSeq} (hp : w.Proper) (hs : repSeq K w = true) : ∃ code, compileFn K w.body = some code := by
  obtain ⟨st', hseq, _⟩ := plain_seq w [.fin] (CS.init K) hp ⟨[], Or.inl rfl⟩ hs (by simp [CS.init])
  obtain ⟨ht, hd⟩ := hseq.turns hp
  have hm : st'.mapCtl = [] := hseq.ext.mapCtl
  have hc : compOp K { st' with dead := 0 } .fin [] = some (compEnd K { st' with dead := 0 }, []) := by
    have : (compEnd K { st' with dead := 0 }).mapCtl = [] := hm
    simp only [compOp, closeMaps, this, List.isEmpty_nil, if_true, Option.map_some]
  have hall := ht.trans (turn_close hd (Or.inl rfl) hc)
  obtain ⟨m, _, hr⟩ := hall.run w.body.length (Nat.le_refl _)
  have hend : compRun K m (compEnd K { st' with dead := 0 }) [] = some (compEnd K { st' with dead := 0 }) := by
    have : (compEnd K { st' with dead := 0 }).mapCtl = [] := hm
    cases m <;> simp only [compRun, this, List.isEmpty_nil, if_true]
  have hrun : compRun K w.body.length (CS.init K) w.body = some (compEnd K { st' with dead := 0 }) := hr.trans hend
  obtain ⟨hn, hm'⟩ := Nst.compRun (Nst.init K) hrun
  obtain ⟨body, hb⟩ := patch_some hn hm'
  unfold compileFn
  rw [hrun]
  dsimp only
  rw [hb]
  exact ⟨_, rfl⟩

end Verif.Lemmas
