import Verif.Spec.Accepts
import Verif.Lemmas.CompWinFn
/-
Which function bodies the preprocessor accepts.
-/
namespace Verif.Lemmas
open Verif.Model Verif.Spec Verif.Props

theorem selectBank_numeric {c : Cls} (h : numeric c = true) : selectBank c = some c := by
  cases c <;> simp_all [numeric, selectBank]

theorem storeLocal_some {st : CS} {c : Cls} {src i : Nat} (h : c ≠ .v128) : ∃ x, storeLocal st c src i = some x := by
  cases c <;> simp_all [storeLocal]

/-- a supported, well-typed operator compiles -/
theorem op_some {K : FnCtx} {b : Cls → Nat} {bs ts : List Cls} {L : List (List Cls)} {st : CS} {o : WOp} {rest : List WOp}
    {τ : Option (List Cls)} (hb : isBracket o = false) (hs : supportedOp K o = true) (ha : AOk b bs st.alloc ts)
    (ht : stepTy K L o ts = some τ) : ∃ x, compOp K st o rest = some x := by
  cases o <;> simp only [isBracket, reduceCtorEq, Bool.true_eq_false] at hb
  case localGet i =>
    simp only [stepTy, opTy] at ht
    split at ht
    · rename_i c hl
      have e := (lty_type (K := K) hl).1
      simp only [supportedOp, hl, ne_eq, Option.some.injEq, decide_eq_true_eq] at hs
      simp only [compOp, compLocalGet, e]
      cases c <;> first | exact absurd rfl hs | exact ⟨_, rfl⟩ | (dsimp only; split <;> exact ⟨_, rfl⟩)
    · cases ht
  case localSet i =>
    simp only [stepTy, opTy] at ht
    split at ht
    · rename_i c hl
      have e := (lty_type (K := K) hl).1
      simp only [supportedOp, hl, ne_eq, Option.some.injEq, decide_eq_true_eq] at hs
      simp only [compOp, e]
      obtain ⟨x, hx⟩ := storeLocal_some (st := { st with alloc := (st.alloc.pop c).2 }) (src := (st.alloc.pop c).1.idx) (i := i) hs
      exact ⟨(x, rest), by simp [hx]⟩
    · cases ht
  case localTee i =>
    simp only [stepTy, opTy] at ht
    split at ht
    · rename_i c hl
      have e := (lty_type (K := K) hl).1
      simp only [supportedOp, hl, ne_eq, Option.some.injEq, decide_eq_true_eq] at hs
      simp only [Option.map_eq_some_iff] at ht
      obtain ⟨t, ht, _⟩ := ht
      obtain ⟨r, hr, _⟩ := sig_some ht
      simp only [List.reverse_singleton, List.singleton_append] at hr
      subst hr
      simp only [compOp, e]
      have hp := AOk.peek_some ha
      rw [hp]
      obtain ⟨x, hx⟩ := storeLocal_some (st := st) (src := (st.alloc.pop c).1.idx) (i := i) hs
      exact ⟨(x, rest), by simp [hx]⟩
    · cases ht
  case globalGet g =>
    simp only [supportedOp] at hs
    split at hs
    · rename_i c hg
      simp only [compOp, MInfo.globalType, hg, Option.getD_some, selectBank_numeric hs]
      exact ⟨_, rfl⟩
    · cases hs
  case globalSet g =>
    simp only [supportedOp] at hs
    split at hs
    · rename_i c hg
      simp only [compOp, MInfo.globalType, hg, Option.getD_some, selectBank_numeric hs]
      exact ⟨_, rfl⟩
    · cases hs
  case const c v =>
    simp only [supportedOp] at hs
    have h1 : ¬ (c = .ref ∨ c = .v128) := by rintro (rfl | rfl) <;> simp [numeric] at hs
    simp only [compOp, compConst, if_neg h1]
    split <;> exact ⟨_, rfl⟩
  case un op =>
    cases op <;> simp only [supportedOp, Bool.false_eq_true] at hs <;> simp only [compOp] <;> split <;> exact ⟨_, rfl⟩
  case selectT c =>
    simp only [supportedOp, ne_eq, decide_eq_true_eq] at hs
    cases c <;> first | exact absurd rfl hs | exact ⟨_, rfl⟩
  case select =>
    simp only [stepTy, opTy] at ht
    split at ht
    · rename_i c d r
      split at ht
      · rename_i hcd
        have h1 := (AOk.pop ha).types
        simp only [compOp, Alloc.peekType, h1, List.cons_append, List.head?_cons, Option.getD_some, selectBank_numeric hcd.2]
        exact ⟨_, rfl⟩
      · cases ht
    · cases ht
  case call f =>
    simp only [compOp]
    split <;> exact ⟨_, rfl⟩
  case callIndirect ty t =>
    simp only [stepTy, opTy] at ht
    split at ht
    · simp only [Option.map_eq_some_iff] at ht
      obtain ⟨t, ht, _⟩ := ht
      obtain ⟨r, hr, _⟩ := sig_some ht
      rw [List.reverse_append] at hr
      have hr : ts = .i32 :: (_ ++ r) := hr
      subst hr
      simp only [compOp, AOk.peek_some ha]
      exact ⟨_, rfl⟩
    · cases ht
  case other => cases hs
  all_goals exact ⟨_, rfl⟩

/-! ## The allocator alone -/

/-- the state with nothing but its allocator -/
def bare (st : CS) : CS := { st with code := [], pend := [], ctrl := [] }

theorem storeLocal_bare {st st1 : CS} {c : Cls} {src i : Nat} (h : storeLocal st c src i = some st1) :
    ∃ st2, storeLocal (bare st) c src i = some st2 ∧ st2.alloc = st1.alloc ∧ st2.dead = st1.dead := by
  cases c <;> simp only [storeLocal, Option.some.injEq, reduceCtorEq] at h <;> subst h <;> exact ⟨_, rfl, rfl, rfl⟩

theorem finish_bare {K : FnCtx} {st st' : CS} {a : Alloc} {c : Cls} {fold : Bool} {mk mk' : Dst → Instr} {rest : List WOp} (hd : st'.dead = st.dead) :
    (finish K st' a c fold mk' rest).2 = (finish K st a c fold mk rest).2 ∧
      (finish K st' a c fold mk' rest).1.alloc = (finish K st a c fold mk rest).1.alloc ∧
      (finish K st' a c fold mk' rest).1.dead = (finish K st a c fold mk rest).1.dead := by
  unfold finish
  split <;> exact ⟨rfl, rfl, hd⟩

/-- the allocator does not depend on what was emitted -/
theorem compOp_bare {K : FnCtx} {st st1 : CS} {o : WOp} {rest r : List WOp} (hb : isBracket o = false)
    (h : compOp K st o rest = some (st1, r)) :
    ∃ st2, compOp K (bare st) o rest = some (st2, r) ∧ st2.alloc = st1.alloc ∧ st2.dead = st1.dead := by
  have key : ∀ {x y : CS × List WOp}, some x = some (st1, r) → (y.2 = x.2 ∧ y.1.alloc = x.1.alloc ∧ y.1.dead = x.1.dead) →
      ∃ st2, some y = some (st2, r) ∧ st2.alloc = st1.alloc ∧ st2.dead = st1.dead := by
    intro x y hx hy; cases hx; exact ⟨y.1, by obtain ⟨y1, y2⟩ := y; obtain ⟨rfl, _⟩ := hy; rfl, hy.2⟩
  cases o <;> simp only [isBracket, reduceCtorEq, Bool.true_eq_false] at hb
  case localGet i =>
    simp only [compOp, compLocalGet] at h ⊢
    cases hc : K.localType i <;> rw [hc] at h <;> simp only [Option.map_some, Option.map_none, reduceCtorEq] at h
    case ref => exact key h ⟨rfl, rfl, rfl⟩
    all_goals
      simp only [Option.map_some]
      split at h <;> rename_i hf
      · simp only [if_pos hf]; exact key h ⟨rfl, rfl, rfl⟩
      · simp only [if_neg hf]; exact key h ⟨rfl, rfl, rfl⟩
  case localSet i =>
    simp only [compOp, Option.map_eq_some_iff] at h ⊢
    obtain ⟨x, hx, he⟩ := h
    cases he
    obtain ⟨y, hy, h1, h2⟩ := storeLocal_bare hx
    exact ⟨y, ⟨y, hy, rfl⟩, h1, h2⟩
  case localTee i =>
    simp only [compOp] at h ⊢
    split at h
    · cases h
    · rename_i hp
      have hp' : (bare st).alloc.peek (K.localType i) = some _ := hp
      simp only [hp']
      simp only [Option.map_eq_some_iff] at h ⊢
      obtain ⟨x, hx, he⟩ := h
      cases he
      obtain ⟨y, hy, h1, h2⟩ := storeLocal_bare hx
      exact ⟨y, ⟨y, hy, rfl⟩, h1, h2⟩
  case globalGet g =>
    simp only [compOp] at h ⊢
    split at h
    · cases h
    · exact key h (finish_bare rfl)
  case globalSet g =>
    simp only [compOp] at h ⊢
    split at h
    · cases h
    · exact key h ⟨rfl, rfl, rfl⟩
  case const c v =>
    simp only [compOp, compConst, Option.map_eq_some_iff] at h ⊢
    obtain ⟨x, hx, he⟩ := h
    cases he
    split at hx
    · cases hx
    · rename_i hn
      simp only [if_neg hn]
      split at hx <;> rename_i hf
      · cases hx; simp only [if_pos hf]; exact ⟨_, ⟨_, rfl, rfl⟩, rfl, rfl⟩
      · cases hx; simp only [if_neg hf]; exact ⟨_, ⟨_, rfl, rfl⟩, rfl, rfl⟩
  case un op =>
    cases op <;> simp only [compOp, reduceCtorEq] at h ⊢
    all_goals
      split at h <;> rename_i hf
      · rw [if_pos hf]; exact key h (finish_bare rfl)
      · rw [if_neg hf]; exact key h (finish_bare rfl)
  case bin op => exact key h (finish_bare rfl)
  case load op off => exact key h (finish_bare rfl)
  case selectT c =>
    simp only [compOp] at h ⊢
    split at h
    · cases h
    · exact key h ⟨rfl, rfl, rfl⟩
  case select =>
    simp only [compOp] at h ⊢
    split at h
    · cases h
    · rename_i hp
      simp only [show selectBank (((bare st).alloc.pop .i32).2.peekType.getD .i32) = some _ from hp]
      exact key h ⟨rfl, rfl, rfl⟩
  case call f =>
    simp only [compOp] at h ⊢
    split at h <;> rename_i hc <;> exact key h ⟨rfl, rfl, rfl⟩
  case callIndirect ty t =>
    simp only [compOp] at h ⊢
    split at h
    · cases h
    · rename_i hp
      simp only [show (bare st).alloc.peek .i32 = some _ from hp]
      exact key h ⟨rfl, rfl, rfl⟩
  case other => simp [compOp] at h
  all_goals exact key h ⟨rfl, rfl, rfl⟩

/-- the allocator follows the types -/
theorem op_alloc {K : FnCtx} {b : Cls → Nat} {bs ts : List Cls} {L : List (List Cls)} {st st1 : CS} {o : WOp} {rest : List WOp}
    {τ : Option (List Cls)} (hh : Hosts K.M) (hb : isBracket o = false) (ha : AOk b bs st.alloc ts)
    (ht : stepTy K L o ts = some τ) (hc : compOp K st o rest = some (st1, rest)) :
    (τ = none → st1.dead = 1 ∧ ∃ ts', AOk b bs st1.alloc ts') ∧ (∀ t, τ = some t → AOk b bs st1.alloc t ∧ st1.dead = st.dead) := by
  by_cases hn : o = .selectT .ref
  · subst hn
    simp only [stepTy, opTy, Option.map_eq_some_iff] at ht
    obtain ⟨t, ht, rfl⟩ := ht
    obtain ⟨r, hr, rfl⟩ := sig_some ht
    subst hr
    simp only [compOp, selectBankT, Option.some.injEq, Prod.mk.injEq] at hc
    obtain ⟨rfl, _⟩ := hc
    refine ⟨(nomatch ·), fun t e => ?_⟩
    cases e
    refine ⟨?_, rfl⟩
    exact AOk.push (AOk.pop (ts := r) (AOk.pop (ts := .ref :: r) (AOk.pop (ts := .ref :: .ref :: r) ha))) .ref
  · obtain ⟨st2, h1, h2, h3⟩ := compOp_bare hb hc
    have hW : CWin K st2.alloc.maxDepth (bare st) := ⟨by simp [bare], by simp [PendIn, bare]⟩
    obtain ⟨_, g1, g2⟩ := op_win (L := L) hh hb hn hW ha (by simp [CtxIn, bare]) (fun c => Nat.le_refl _) ht h1
    rw [h2, h3] at g1
    rw [h2, h3] at g2
    exact ⟨g1, g2⟩

theorem fused_alloc {K : FnCtx} {b : Cls → Nat} {bs ts ts1 ts2 : List Cls} {st st1 : CS} {o : WOp} {i : Nat} {r : List WOp}
    (hb : isBracket o = false) (ha : AOk b bs st.alloc ts)
    (ht : opTy K o ts = some ts1) (ht2 : opTy K (.localSet i) ts1 = some ts2) (hc : compOp K st o (.localSet i :: r) = some (st1, r)) :
    AOk b bs st1.alloc ts2 ∧ st1.dead = st.dead := by
  obtain ⟨st2, h1, h2, h3⟩ := compOp_bare hb hc
  have hco := fused_consumer hb hc
  have hW : CWin K st.alloc.maxDepth (bare st) := ⟨by simp [bare], by simp [PendIn, bare]⟩
  obtain ⟨dc, ts0, rfl, htk⟩ := takesW_op (W := st.alloc.maxDepth) (st := bare st) hco ha (fun _ => Nat.le_refl _) hW.pend ht h1
  obtain ⟨_, g2, g3⟩ := takesW_fused hW ht2 htk
  rw [h2] at g2
  exact ⟨g2, h3.symm.trans g3⟩

/-! ## Sequences -/

theorem close_some {K : FnCtx} {st : CS} {rest : List WOp} {x : Nat × Bool × Option Nat} {m : List (Nat × Bool × Option Nat)}
    (hm : st.mapCtl = x :: m) : ∃ st1, compOp K st .fin rest = some (st1, rest) := by
  obtain ⟨s, i, e⟩ := x
  simp only [compOp, closeMaps, show (compEnd K st).mapCtl = (s, i, e) :: m from hm]
  exact ⟨_, rfl⟩

theorem els_some {K : FnCtx} {st : CS} {rest : List WOp} {s : Nat} {m : List (Nat × Bool × Option Nat)}
    (hm : st.mapCtl = (s, true, none) :: m) : ∃ st1, compOp K st .els rest = some (st1, rest) := by
  simp only [compOp, hm]
  exact ⟨_, rfl⟩

/-- what is known after compiling a sequence -/
def After (b : Cls → Nat) (bs : List Cls) (st' : CS) (τ : Option (List Cls)) : Prop :=
  ∃ ts', AOk b bs st'.alloc ts' ∧ (∀ t, τ = some t → ts' = t ∧ st'.dead = 0) ∧ (τ = none → st'.dead = 1)

theorem After.dead {b : Cls → Nat} {bs : List Cls} {st' : CS} {τ : Option (List Cls)} (h : After b bs st' τ) : st'.dead ≤ 1 := by
  obtain ⟨_, _, h1, h2⟩ := h
  cases τ with
  | none => exact Nat.le_of_eq (h2 rfl)
  | some t => have := (h1 t rfl).2; omega

theorem isTerm_false {K : FnCtx} {L : List (List Cls)} {o : WOp} {ts t : List Cls} (h : stepTy K L o ts = some (some t)) :
    isTerm o = false := by
  cases o <;> first | rfl | (simp only [stepTy] at h; first | (cases h; done) | (split at h <;> first | (cases h; done) | (split at h <;> cases h)))

/-- every valid sequence of supported operators compiles -/
theorem seq_some {K : FnCtx} (hh : Hosts K.M) : ∀ (w : WSeq) (tail : List WOp) (st : CS) {b : Cls → Nat} {bs ts : List Cls}
    {L : List (List Cls)} {τ : Option (List Cls)}, w.Proper → TailOk tail → supported K w = true → check K L w ts = some τ →
    AOk b bs st.alloc ts → st.dead = 0 → ∃ st', CompSeq K w tail st st' ∧ After b bs st' τ := by
  intro w
  have bracket : ∀ {bt : BlockTy} {bb k : WSeq} {isL isIf : Bool} {ins : Instr} {tail rest : List WOp} {st st1 st2 : CS} {a : Alloc}
      {b : Cls → Nat} {bs rs : List Cls} {τb : Option (List Cls)} {st0 : CS},
      AOk b bs a ((K.M.blockParams bt).reverse ++ rs) →
      st1 = { openBlock K st a bt isL with mapCtl := (st.code.length, isIf, none) :: st.mapCtl }.emit ins →
      Ext st0 st2 → st0.ctrl = st1.ctrl → st0.saved = st1.saved → (∃ e, st0.mapCtl = (st.code.length, isIf, e) :: st.mapCtl) →
      After (dep b rs) (rs ++ bs) st2 τb →
      ∃ st3, compOp K { st2 with dead := 0 } .fin rest = some (st3, rest) ∧
        AOk b bs st3.alloc ((K.M.blockResults bt).reverse ++ rs) ∧ st3.dead = 0 := by
    intro bt bb k isL isIf ins tail rest st st1 st2 a b bs rs τb st0 ha e1 hx e2 e3 ⟨e, e4⟩ haft
    obtain ⟨o1, o2, o3, _⟩ := open_win ha e1
    obtain ⟨tb, g2, _⟩ := haft
    have m2 : st2.mapCtl = (st.code.length, isIf, e) :: st.mapCtl := hx.mapCtl.trans e4
    obtain ⟨st3, hc3⟩ := close_some (K := K) (rest := rest) (st := { st2 with dead := 0 }) m2
    obtain ⟨c1, c2, c3, c4, c5⟩ := close_win m2 hc3
    exact ⟨st3, hc3, after_win g2 ((hx.ctrl.trans e2).trans o2) rfl ((hx.saved.trans e3).trans o3) c2, c4⟩
  induction w using WSeq.rec' with
  | done =>
    intro tail st b bs ts L τ hp ht hs hck ha hd
    simp only [check, Option.some.injEq] at hck
    subst hck
    exact ⟨st, .done hd, ts, ha, fun t e => by cases e; exact ⟨rfl, hd⟩, (nomatch ·)⟩
  | op o k ih ih2 =>
    intro tail st b bs ts L τ hp ht hs hck ha hd
    simp only [supported, Bool.and_eq_true, Bool.or_eq_true] at hs
    simp only [check] at hck
    split at hck
    · cases hck
    · rename_i hty
      cases hck
      obtain ⟨⟨st1, r⟩, hc⟩ := op_some (rest := k.flat ++ tail) hp.1 hs.1 ha hty
      have hr : r = k.flat ++ tail := by
        rcases (compOp_plain hp.1 hc).rest with h | ⟨i, hi⟩
        · exact h
        · exfalso
          rw [hi] at hc
          have hco := fused_consumer hp.1 hc
          cases o <;> simp only [consumer, Bool.false_eq_true] at hco <;> simp [stepTy] at hty
      subst hr
      obtain ⟨h1, ts', h2⟩ := (op_alloc hh hp.1 ha hty hc).1 rfl
      exact ⟨_, .op hd hp.1 hc (.dead h1), ts', h2, (fun _ h => nomatch h), fun _ => h1⟩
    · rename_i ts1 hty
      have hnt := isTerm_false hty
      have hs2 := hs.2.resolve_left (by simp [hnt])
      obtain ⟨⟨st1, r⟩, hc⟩ := op_some (rest := k.flat ++ tail) hp.1 hs.1 ha hty
      have pl := compOp_plain hp.1 hc
      rcases pl.rest with rfl | ⟨i, hi⟩
      · obtain ⟨h1, h2⟩ := (op_alloc hh hp.1 ha hty hc).2 _ rfl
        obtain ⟨st', h3, h4⟩ := ih tail st1 hp.2 ht hs2 hck h1 (by omega)
        exact ⟨st', .op hd hp.1 hc h3, h4⟩
      · cases k with
        | done => obtain ⟨r, rfl | rfl⟩ := ht <;> simp [WSeq.flat] at hi
        | op o' k' =>
          simp only [WSeq.flat, List.cons_append, List.cons.injEq] at hi
          obtain ⟨rfl, rfl⟩ := hi
          have hco := fused_consumer hp.1 hc
          have ht' := opTy_of_stepTy (by rintro d rfl; simp [consumer] at hco) hty
          simp only [supported, Bool.and_eq_true, Bool.or_eq_true, show isTerm (.localSet i) = false from rfl, Bool.false_eq_true, false_or] at hs2
          simp only [check] at hck
          split at hck
          · cases hck
          · rename_i h; simp [stepTy] at h
          · rename_i ts2 ht2
            obtain ⟨h1, h2⟩ := fused_alloc hp.1 ha ht' (opTy_of_stepTy (by simp) ht2) hc
            obtain ⟨st', h3, h4⟩ := ih2 _ k' rfl tail st1 hp.2.2 ht hs2.2 hck h1 (by omega)
            exact ⟨st', .fused hd hp.1 hc h3, h4⟩
        | block => simp [WSeq.flat] at hi
        | loop => simp [WSeq.flat] at hi
        | ite => simp [WSeq.flat] at hi
        | itee => simp [WSeq.flat] at hi
  | block bt bb k ihb ihk =>
    intro tail st b bs ts L τ hp ht hs hck ha hd
    simp only [supported, Bool.and_eq_true] at hs
    simp only [check] at hck
    split at hck
    case h_2 => cases hck
    rename_i r τb hr hckb
    split at hck
    case isFalse => cases hck
    have hts := popTys_some hr
    subst hts
    obtain ⟨o1, _⟩ := open_win (isL := false) (isIf := false) (ins := .block false) (st := st) ha rfl
    obtain ⟨st2, h2, a2⟩ := ihb (.fin :: (k.flat ++ tail)) _ hp.1 ⟨_, Or.inl rfl⟩ hs.1 hckb o1 hd
    obtain ⟨st3, h3, a3, d3⟩ := bracket (rest := k.flat ++ tail) (bb := bb) (k := k) (tail := tail) ha rfl h2.ext rfl rfl ⟨_, rfl⟩ a2
    obtain ⟨st4, h4, a4⟩ := ihk tail st3 hp.2 ht hs.2 hck a3 d3
    exact ⟨st4, .block hd rfl h2 h3 h4, a4⟩
  | loop bt bb k ihb ihk =>
    intro tail st b bs ts L τ hp ht hs hck ha hd
    simp only [supported, Bool.and_eq_true] at hs
    simp only [check] at hck
    split at hck
    case h_2 => cases hck
    rename_i r τb hr hckb
    split at hck
    case isFalse => cases hck
    have hts := popTys_some hr
    subst hts
    obtain ⟨o1, _⟩ := open_win (isL := true) (isIf := false) (ins := .block true) (st := st) ha rfl
    obtain ⟨st2, h2, a2⟩ := ihb (.fin :: (k.flat ++ tail)) _ hp.1 ⟨_, Or.inl rfl⟩ hs.1 hckb o1 hd
    obtain ⟨st3, h3, a3, d3⟩ := bracket (rest := k.flat ++ tail) (bb := bb) (k := k) (tail := tail) ha rfl h2.ext rfl rfl ⟨_, rfl⟩ a2
    obtain ⟨st4, h4, a4⟩ := ihk tail st3 hp.2 ht hs.2 hck a3 d3
    exact ⟨st4, .loop hd rfl h2 h3 h4, a4⟩
  | ite bt bb k ihb ihk =>
    intro tail st b bs ts L τ hp ht hs hck ha hd
    simp only [supported, Bool.and_eq_true] at hs
    simp only [check] at hck
    split at hck
    case h_2 => cases hck
    rename_i r τb hr hckb
    split at hck
    case isFalse => cases hck
    have hts := popTys_some hr
    rw [List.reverse_append] at hts
    have hts : ts = .i32 :: ((K.M.blockParams bt).reverse ++ r) := hts
    subst hts
    have ha := AOk.pop ha
    obtain ⟨o1, _⟩ := open_win (isL := false) (isIf := true) (ins := .ite (st.alloc.pop .i32).1.idx 0 false) (st := st) ha rfl
    obtain ⟨st2, h2, a2⟩ := ihb (.fin :: (k.flat ++ tail)) _ hp.1 ⟨_, Or.inl rfl⟩ hs.1 hckb o1 hd
    obtain ⟨st3, h3, a3, d3⟩ := bracket (rest := k.flat ++ tail) (bb := bb) (k := k) (tail := tail) ha rfl h2.ext rfl rfl ⟨_, rfl⟩ a2
    obtain ⟨st4, h4, a4⟩ := ihk tail st3 hp.2 ht hs.2 hck a3 d3
    exact ⟨st4, .ite hd rfl h2 h3 h4, a4⟩
  | itee bt t e k iht ihe ihk =>
    intro tail st b bs ts L τ hp ht hs hck ha hd
    simp only [supported, Bool.and_eq_true] at hs
    simp only [check] at hck
    split at hck
    case h_2 => cases hck
    rename_i r τb τe hr hckb hcke
    split at hck
    case isFalse => cases hck
    have hts := popTys_some hr
    rw [List.reverse_append] at hts
    have hts : ts = .i32 :: ((K.M.blockParams bt).reverse ++ r) := hts
    subst hts
    have ha := AOk.pop ha
    obtain ⟨o1, o2, o3, o4, _⟩ := open_win (isL := false) (isIf := true) (ins := .ite (st.alloc.pop .i32).1.idx 0 false) (st := st) ha rfl
    obtain ⟨st2, h2, a2⟩ := iht (.els :: (e.flat ++ .fin :: (k.flat ++ tail))) _ hp.1 ⟨_, Or.inr rfl⟩ hs.1.1 hckb o1 hd
    have m2 := h2.ext.mapCtl.trans o4
    have ct2 := h2.ext.ctrl.trans o2
    have sv2 := h2.ext.saved.trans o3
    obtain ⟨tb, t2, _⟩ := a2
    obtain ⟨st3, h3⟩ := els_some (K := K) (rest := e.flat ++ .fin :: (k.flat ++ tail)) (st := { st2 with dead := 0 }) m2
    have e3 := compOp_els' (st := { st2 with dead := 0 }) m2 h3
    have a3 : AOk (dep b r) (r ++ bs) st3.alloc (K.M.blockParams bt).reverse := by
      have e : st3.alloc = (pushAll (st2.alloc.restore ⟨dep b r, (r ++ bs).length⟩) (K.M.blockParams bt)).2 := by
        rw [e3]; simp only [CS.emit, elseAlloc, sv2, ct2]
      rw [e]
      exact AOk.reopen (AOk.pushAll' _ t2.restore)
    obtain ⟨st4, h4, a4⟩ := ihe (.fin :: (k.flat ++ tail)) st3 hp.2.1 ⟨_, Or.inl rfl⟩ hs.1.2 hcke a3 (by rw [e3]; rfl)
    obtain ⟨st5, h5, a5, d5⟩ := bracket (rest := k.flat ++ tail) (bb := e) (k := k) (tail := tail) ha rfl h4.ext
      (by rw [e3]; exact ct2.trans o2.symm) (by rw [e3]; exact sv2.trans o3.symm) ⟨_, by rw [e3]; rfl⟩ a4
    obtain ⟨st6, h6, a6⟩ := ihk tail st5 hp.2.2 ht hs.2 hck a5 d5
    exact ⟨st6, .itee hd rfl h2 h3 h4 h5 h6, a6⟩

/-! ## The loop -/

/-- turns of the loop of phase 1 -/
inductive Turns (K : FnCtx) : CS → List WOp → CS → List WOp → Prop
  | refl {st : CS} {ops : List WOp} : Turns K st ops st ops
  | step {st st1 st2 : CS} {op : WOp} {rest r1 r2 : List WOp} : compStep K st op rest = some (st1, r1) → r1.length ≤ rest.length →
      Turns K st1 r1 st2 r2 → Turns K st (op :: rest) st2 r2

theorem Turns.trans {K : FnCtx} {a b c : CS} {x y z : List WOp} (h : Turns K a x b y) (h2 : Turns K b y c z) : Turns K a x c z := by
  induction h with
  | refl => exact h2
  | step h0 hl _ ih => exact .step h0 hl (ih h2)

theorem Turns.length {K : FnCtx} {a b : CS} {x y : List WOp} (h : Turns K a x b y) : y.length ≤ x.length := by
  induction h with
  | refl => exact Nat.le_refl _
  | step _ hl _ ih => simp only [List.length_cons]; omega

theorem Turns.run {K : FnCtx} {a b : CS} {x y : List WOp} (h : Turns K a x b y) :
    ∀ n, x.length ≤ n → ∃ m, y.length ≤ m ∧ compRun K n a x = compRun K m b y := by
  induction h with
  | refl => exact fun n hn => ⟨n, hn, rfl⟩
  | step h0 hl _ ih =>
    intro n hn
    cases n with
    | zero => simp at hn
    | succ n =>
      simp only [List.length_cons] at hn
      obtain ⟨m, h1, h2⟩ := ih n (by omega)
      refine ⟨m, h1, ?_⟩
      rw [← h2]
      simp only [compRun, h0]

theorem turn_dead {K : FnCtx} {st : CS} {op : WOp} {rest : List WOp} (h0 : 0 < st.dead) (hd : 0 < deadNext st.dead op) :
    Turns K st (op :: rest) { skip st 1 with dead := deadNext st.dead op } rest := by
  refine .step ?_ (Nat.le_refl _) .refl
  simp only [compStep]
  rw [if_neg (by omega), if_pos hd]
  rfl

theorem turn_live {K : FnCtx} {st st1 : CS} {op : WOp} {rest r : List WOp} (h0 : st.dead = 0) (hc : compOp K st op rest = some (st1, r))
    (hl : r.length ≤ rest.length) : Turns K st (op :: rest) st1 r := by
  refine .step ?_ hl .refl
  rw [compStep, if_pos h0]; exact hc

theorem turn_close {K : FnCtx} {st st1 : CS} {op : WOp} {rest : List WOp} (h0 : st.dead ≤ 1)
    (ho : op = .fin ∨ op = .els) (hc : compOp K { st with dead := 0 } op rest = some (st1, rest)) : Turns K st (op :: rest) st1 rest := by
  by_cases hz : st.dead = 0
  · have e : { st with dead := 0 } = st := by cases st; simp only at hz; subst hz; rfl
    rw [e] at hc
    exact turn_live hz hc (Nat.le_refl _)
  · have h1 : st.dead = 1 := by omega
    refine .step ?_ (Nat.le_refl _) .refl
    have hd : deadNext st.dead op = 0 := by rcases ho with rfl | rfl <;> simp [deadNext, h1]
    simp only [compStep, if_neg hz, hd, Nat.lt_irrefl, if_false]
    exact hc

theorem turns_dead (K : FnCtx) : ∀ (w : WSeq) (tail : List WOp) (st : CS), w.Proper → 0 < st.dead →
    Turns K st (w.flat ++ tail) (skip st w.flat.length) tail := by
  have eq : ∀ {a b b' : CS} {x y : List WOp}, Turns K a x b' y → b = b' → Turns K a x b y := by
    intro a b b' x y h e; subst e; exact h
  have bracket : ∀ {o : WOp} {b k : WSeq} {tail : List WOp} {st : CS}, (∀ d, deadNext d o = d + 1) →
      (∀ tail st, 0 < st.dead → Turns K st (b.flat ++ tail) (skip st b.flat.length) tail) →
      (∀ tail st, 0 < st.dead → Turns K st (k.flat ++ tail) (skip st k.flat.length) tail) → 0 < st.dead →
      Turns K st (o :: (b.flat ++ .fin :: (k.flat ++ tail))) (skip st (1 + b.flat.length + 1 + k.flat.length)) tail := by
    intro o b k tail st ho hb hk hd
    have h1 := turn_dead (K := K) (st := st) (op := o) (rest := b.flat ++ .fin :: (k.flat ++ tail)) hd (by rw [ho]; omega)
    rw [ho] at h1
    have h2 := hb (.fin :: (k.flat ++ tail)) { skip st 1 with dead := st.dead + 1 } (by simp)
    have h3 := turn_dead (K := K) (st := skip { skip st 1 with dead := st.dead + 1 } b.flat.length) (op := .fin) (rest := k.flat ++ tail)
      (by simp [skip]) (by simpa [deadNext, skip] using hd)
    have h4 := hk tail _ (show 0 < ({ skip (skip { skip st 1 with dead := st.dead + 1 } b.flat.length) 1 with
      dead := deadNext (skip { skip st 1 with dead := st.dead + 1 } b.flat.length).dead .fin } : CS).dead by simpa [deadNext, skip] using hd)
    exact eq (h1.trans (h2.trans (h3.trans h4))) (nops_eq (by simp [deadNext, skip]) rfl)
  intro w
  induction w with
  | done => intro tail st _ _; simpa [skip, WSeq.flat] using Turns.refl
  | op o k ih =>
    intro tail st hp hd
    have hn : deadNext st.dead o = st.dead := by
      have := hp.1
      cases o <;> simp_all [isBracket, deadNext]
    have h1 := turn_dead (K := K) (st := st) (op := o) (rest := k.flat ++ tail) hd (by rw [hn]; exact hd)
    rw [hn] at h1
    have h2 := ih tail (skip st 1) hp.2 hd
    refine eq (h1.trans h2) ?_
    rw [skip_skip]
    simp [WSeq.flat, Nat.add_comm]
  | block bt b k ihb ihk =>
    intro tail st hp hd
    have := bracket (o := .block bt) (b := b) (k := k) (tail := tail) (fun _ => rfl) (fun t s h => ihb t s hp.1 h) (fun t s h => ihk t s hp.2 h) hd
    simp only [WSeq.flat, List.cons_append, List.append_assoc, List.length_cons, List.length_append]
    refine eq this (congrArg (skip st) (by omega))
  | loop bt b k ihb ihk =>
    intro tail st hp hd
    have := bracket (o := .loop bt) (b := b) (k := k) (tail := tail) (fun _ => rfl) (fun t s h => ihb t s hp.1 h) (fun t s h => ihk t s hp.2 h) hd
    simp only [WSeq.flat, List.cons_append, List.append_assoc, List.length_cons, List.length_append]
    refine eq this (congrArg (skip st) (by omega))
  | ite bt b k ihb ihk =>
    intro tail st hp hd
    have := bracket (o := .ite bt) (b := b) (k := k) (tail := tail) (fun _ => rfl) (fun t s h => ihb t s hp.1 h) (fun t s h => ihk t s hp.2 h) hd
    simp only [WSeq.flat, List.cons_append, List.append_assoc, List.length_cons, List.length_append]
    refine eq this (congrArg (skip st) (by omega))
  | itee bt t e k iht ihe ihk =>
    intro tail st hp hd
    simp only [WSeq.flat, List.cons_append, List.append_assoc]
    have h1 := turn_dead (K := K) (st := st) (op := .ite bt) (rest := t.flat ++ .els :: (e.flat ++ .fin :: (k.flat ++ tail))) hd (by simp [deadNext])
    have h2 := iht (.els :: (e.flat ++ .fin :: (k.flat ++ tail))) { skip st 1 with dead := st.dead + 1 } hp.1 (by simp)
    have he : deadNext (st.dead + 1) .els = st.dead + 1 := by simp [deadNext]; omega
    have h3 := turn_dead (K := K) (st := skip { skip st 1 with dead := st.dead + 1 } t.flat.length) (op := .els)
      (rest := e.flat ++ .fin :: (k.flat ++ tail)) (by simp [skip]) (by show 0 < deadNext (st.dead + 1) .els; omega)
    have h3 := eq (b := { skip st (1 + t.flat.length + 1) with dead := st.dead + 1 }) h3 (by
      simp only [skip, CS.mk.injEq, and_true, true_and, List.append_assoc, List.replicate_append_replicate]
      exact he.symm)
    have h4 := ihe (.fin :: (k.flat ++ tail)) { skip st (1 + t.flat.length + 1) with dead := st.dead + 1 } hp.2.1 (by simp)
    have h5 := turn_dead (K := K) (st := skip { skip st (1 + t.flat.length + 1) with dead := st.dead + 1 } e.flat.length) (op := .fin)
      (rest := k.flat ++ tail) (by simp [skip]) (by simpa [deadNext, skip] using hd)
    have h6 := ihk tail _ hp.2.2 (show 0 < ({ skip (skip { skip st (1 + t.flat.length + 1) with dead := st.dead + 1 } e.flat.length) 1 with
      dead := deadNext (skip { skip st (1 + t.flat.length + 1) with dead := st.dead + 1 } e.flat.length).dead .fin } : CS).dead by simpa [deadNext, skip] using hd)
    refine eq (h1.trans (h2.trans (h3.trans (h4.trans (h5.trans h6))))) ?_
    simp [skip, WSeq.flat, List.replicate_append_replicate, deadNext, ← List.replicate_succ]
    omega

theorem _root_.Verif.Lemmas.CompSeq.turns {K : FnCtx} {w : WSeq} {tail : List WOp} {st st' : CS} (h : CompSeq K w tail st st') :
    w.Proper → Turns K st (w.flat ++ tail) st' tail ∧ st'.dead ≤ 1 := by
  induction h with
  | done hd => exact fun _ => ⟨.refl, by omega⟩
  | dead hd => exact fun hp => ⟨turns_dead K _ _ _ hp (by omega), by simp [skip, hd]⟩
  | op hd hb hc hk ih =>
    intro hp
    obtain ⟨h1, h2⟩ := ih hp.2
    exact ⟨(turn_live hd hc (Nat.le_refl _)).trans h1, h2⟩
  | fused hd hb hc hk ih =>
    intro hp
    obtain ⟨h1, h2⟩ := ih hp.2.2
    exact ⟨(turn_live hd hc (by simp)).trans h1, h2⟩
  | block hd hc1 hb hc3 hk ihb ihk =>
    intro hp
    obtain ⟨h1, h2⟩ := ihb hp.1
    obtain ⟨h3, h4⟩ := ihk hp.2
    refine ⟨?_, h4⟩
    simp only [WSeq.flat, List.cons_append, List.append_assoc]
    exact (turn_live hd hc1 (Nat.le_refl _)).trans (h1.trans ((turn_close h2 (Or.inl rfl) hc3).trans h3))
  | loop hd hc1 hb hc3 hk ihb ihk =>
    intro hp
    obtain ⟨h1, h2⟩ := ihb hp.1
    obtain ⟨h3, h4⟩ := ihk hp.2
    refine ⟨?_, h4⟩
    simp only [WSeq.flat, List.cons_append, List.append_assoc]
    exact (turn_live hd hc1 (Nat.le_refl _)).trans (h1.trans ((turn_close h2 (Or.inl rfl) hc3).trans h3))
  | ite hd hc1 hb hc3 hk ihb ihk =>
    intro hp
    obtain ⟨h1, h2⟩ := ihb hp.1
    obtain ⟨h3, h4⟩ := ihk hp.2
    refine ⟨?_, h4⟩
    simp only [WSeq.flat, List.cons_append, List.append_assoc]
    exact (turn_live hd hc1 (Nat.le_refl _)).trans (h1.trans ((turn_close h2 (Or.inl rfl) hc3).trans h3))
  | itee hd hc1 hb hc3 he hc5 hk ihb ihe ihk =>
    intro hp
    obtain ⟨h1, h2⟩ := ihb hp.1
    obtain ⟨h3, h4⟩ := ihe hp.2.1
    obtain ⟨h5, h6⟩ := ihk hp.2.2
    refine ⟨?_, h6⟩
    simp only [WSeq.flat, List.cons_append, List.append_assoc]
    exact (turn_live hd hc1 (Nat.le_refl _)).trans (h1.trans ((turn_close h2 (Or.inr rfl) hc3).trans
      (h3.trans ((turn_close h4 (Or.inl rfl) hc5).trans h5))))

/-! ## Phases 2 and 3 -/

theorem patchFrom_some {E L : List (Nat × Nat)} {len : Nat} : ∀ (is : List Instr) (pc : Nat) (stk : List (Nat × Bool)),
    (∀ k i, is[k]? = some i → ∃ j, patch E L len (scanL pc stk (is.take (k + 1))) i = some j) →
    ∃ js, patchFrom E L len pc stk is = some js
  | [], _, _, _ => ⟨[], rfl⟩
  | i :: is, pc, stk, h => by
    obtain ⟨j, hj⟩ := h 0 i rfl
    obtain ⟨js, hjs⟩ := patchFrom_some is (pc + 1) (scanStep stk pc i) fun k x hx => by
      have := h (k + 1) x (by simpa using hx)
      simpa only [List.take_succ_cons, scanL] using this
    simp only [List.take_succ_cons, scanL, List.take_zero] at hj
    exact ⟨j :: js, by simp only [patchFrom, hj, hjs]⟩

/-- the addresses of all branches can be filled in -/
theorem patch_some {fin : CS} (h : Nst fin) (hm : fin.mapCtl = []) :
    ∃ body, patchFrom fin.ends fin.elses fin.code.length 0 [] fin.code = some body := by
  refine patchFrom_some _ _ _ fun k i hi => ?_
  have hk : k + 1 ≤ fin.code.length := (List.getElem?_eq_some_iff.1 hi).1
  have tgt : ∀ (d : Nat) (x : Nat × Bool), (opens fin.code (k + 1))[d]? = some x → ∃ t, blockTarget fin.ends x = some t := by
    intro d x hx
    obtain ⟨t, ht, _⟩ := h.target hm hk hx
    exact ⟨t, ht⟩
  have t2 : ∀ d, ∃ t, target2 fin.ends fin.code.length (opens fin.code (k + 1)) d = some t := by
    intro d
    unfold target2
    split
    · exact ⟨_, rfl⟩
    · rename_i x hx; exact tgt d x hx
  show ∃ j, patch _ _ _ (opens fin.code (k + 1)) i = some j
  cases i <;> simp only [patch]
  case br d _ s t => obtain ⟨t, ht⟩ := t2 d; rw [ht]; exact ⟨_, rfl⟩
  case brIf d _ c s t => obtain ⟨t, ht⟩ := t2 d; rw [ht]; exact ⟨_, rfl⟩
  case ite c e h =>
    split
    · exact ⟨_, rfl⟩
    · rename_i x hx; obtain ⟨t, ht⟩ := tgt 0 x hx; rw [ht]; exact ⟨_, rfl⟩
  case jump e =>
    split
    · exact ⟨_, rfl⟩
    · rename_i x hx; obtain ⟨t, ht⟩ := tgt 0 x hx; rw [ht]; exact ⟨_, rfl⟩
  all_goals exact ⟨_, rfl⟩

/-! ## Functions -/

/-- a valid function body of supported operators is accepted -/
theorem fn_some {K : FnCtx} {w : WSeq} (hh : Hosts K.M) (hv : ValidFn K w) (hs : supported K w = true) :
    ∃ code, compileFn K w.body = some code := by
  obtain ⟨τ, hck, _⟩ := hv.typed
  have ha : AOk (CS.init K).alloc.depth [] (CS.init K).alloc [] := ⟨rfl, by rw [dep_nil], fun c => Nat.le_refl _⟩
  obtain ⟨st', hseq, _⟩ := seq_some hh w [.fin] (CS.init K) hv.proper ⟨[], Or.inl rfl⟩ hs hck ha rfl
  obtain ⟨ht, hd⟩ := hseq.turns hv.proper
  have hm : st'.mapCtl = [] := hseq.ext.mapCtl
  have hc : compOp K { st' with dead := 0 } .fin [] = some (compEnd K { st' with dead := 0 }, []) := by
    have : (compEnd K { st' with dead := 0 }).mapCtl = [] := hm
    simp only [compOp, closeMaps, this, List.isEmpty_nil, if_true, Option.map_some]
  have hall := ht.trans (turn_close hd (Or.inl rfl) hc)
  obtain ⟨m, _, hr⟩ := hall.run w.body.length (Nat.le_refl _)
  have hend : compRun K m (compEnd K { st' with dead := 0 }) [] = some (compEnd K { st' with dead := 0 }) := by
    have : (compEnd K { st' with dead := 0 }).mapCtl = [] := hm
    cases m <;> simp only [compRun, this, List.isEmpty_nil, if_true]
  have hrun : compRun K w.body.length (CS.init K) w.body = some (compEnd K { st' with dead := 0 }) := hr.trans hend
  obtain ⟨hn, hm'⟩ := Nst.compRun (Nst.init K) hrun
  obtain ⟨body, hb⟩ := patch_some hn hm'
  unfold compileFn
  rw [hrun]
  dsimp only
  rw [hb]
  exact ⟨_, rfl⟩

/-! ## Nothing else is accepted -/

theorem op_supported {K : FnCtx} {ts : List Cls} {L : List (List Cls)} {st : CS} {o : WOp} {rest : List WOp}
    {τ : Option (List Cls)} {x : CS × List WOp} (ht : stepTy K L o ts = some τ)
    (hc : compOp K st o rest = some x) : supportedOp K o = true := by
  cases o <;> try rfl
  case localGet i =>
    simp only [stepTy, opTy] at ht
    split at ht
    · rename_i c hl
      simp only [compOp, compLocalGet, (lty_type (K := K) hl).1] at hc
      simp only [supportedOp, hl, ne_eq, Option.some.injEq, decide_eq_true_eq]
      rintro rfl
      simp at hc
    · cases ht
  case localSet i =>
    simp only [stepTy, opTy] at ht
    split at ht
    · rename_i c hl
      simp only [compOp, (lty_type (K := K) hl).1] at hc
      simp only [supportedOp, hl, ne_eq, Option.some.injEq, decide_eq_true_eq]
      rintro rfl
      simp [storeLocal] at hc
    · cases ht
  case localTee i =>
    simp only [stepTy, opTy] at ht
    split at ht
    · rename_i c hl
      simp only [compOp, (lty_type (K := K) hl).1] at hc
      simp only [supportedOp, hl, ne_eq, Option.some.injEq, decide_eq_true_eq]
      rintro rfl
      split at hc <;> simp [storeLocal] at hc
    · cases ht
  case globalGet g =>
    simp only [stepTy, opTy] at ht
    split at ht
    · rename_i c hl
      simp only [compOp, MInfo.globalType, hl, Option.getD_some] at hc
      simp only [supportedOp, hl]
      cases c <;> first | rfl | simp [selectBank] at hc
    · cases ht
  case globalSet g =>
    simp only [stepTy, opTy] at ht
    split at ht
    · rename_i c hl
      simp only [compOp, MInfo.globalType, hl, Option.getD_some] at hc
      simp only [supportedOp, hl]
      cases c <;> first | rfl | simp [selectBank] at hc
    · cases ht
  case const c v =>
    simp only [compOp, compConst] at hc
    cases c <;> first | rfl | simp at hc
  case un op => cases op <;> first | rfl | simp [compOp] at hc
  case selectT c =>
    simp only [compOp] at hc
    cases c <;> first | rfl | simp [selectBankT, selectBank] at hc
  case other => simp [compOp] at hc

theorem dst1_ne {op : Op1} (h : ∀ c, op ≠ .mov c) : op.dst ≠ .v128 := by
  have hi : ∀ s : Sz, s.int ≠ .v128 := by intro s; cases s <;> decide
  have hf : ∀ s : Sz, s.flt ≠ .v128 := by intro s; cases s <;> decide
  cases op <;> first | exact absurd rfl (h _) | exact hi _ | exact hf _ | nofun

theorem dst2_ne {op : Op2} : op.dst ≠ .v128 := by
  have hi : ∀ s : Sz, s.int ≠ .v128 := by intro s; cases s <;> decide
  have hf : ∀ s : Sz, s.flt ≠ .v128 := by intro s; cases s <;> decide
  cases op <;> first | exact hi _ | exact hf _ | nofun

/-- the destination of a folded result is a number -/
theorem fused_supported {K : FnCtx} {st : CS} {o : WOp} {i : Nat} {r : List WOp} {st1 : CS} (hb : isBracket o = false)
    {ts ts1 : List Cls} (ht : opTy K o ts = some ts1) {ts2 : List Cls} (ht2 : opTy K (.localSet i) ts1 = some ts2)
    (hs : supportedOp K o = true)
    (hc : compOp K st o (.localSet i :: r) = some (st1, r)) : supportedOp K (.localSet i) = true := by
  have hco := fused_consumer hb hc
  simp only [opTy] at ht2
  split at ht2
  · rename_i c hl
    obtain ⟨q, hq, _⟩ := sig_some ht2
    simp only [List.reverse_singleton, List.singleton_append] at hq
    simp only [supportedOp, hl, ne_eq, Option.some.injEq, decide_eq_true_eq]
    rintro rfl
    subst hq
    cases o <;> simp only [consumer, Bool.false_eq_true] at hco <;> simp only [opTy] at ht
    case globalGet g =>
      split at ht
      · rename_i c hg
        obtain ⟨_, _, h⟩ := sig_some ht
        simp only [List.reverse_singleton, List.singleton_append, List.cons.injEq] at h
        simp only [supportedOp, hg, ← h.1, numeric, Bool.false_eq_true] at hs
      · cases ht
    case un op =>
      obtain ⟨_, _, h⟩ := sig_some ht
      simp only [List.reverse_singleton, List.singleton_append, List.cons.injEq] at h
      exact dst1_ne (by rintro c rfl; simp [supportedOp] at hs) h.1.symm
    case bin op =>
      obtain ⟨_, _, h⟩ := sig_some ht
      simp only [List.reverse_singleton, List.singleton_append, List.cons.injEq] at h
      exact dst2_ne h.1.symm
    case load op off =>
      obtain ⟨_, _, h⟩ := sig_some ht
      simp only [List.reverse_singleton, List.singleton_append, List.cons.injEq] at h
      cases op <;> simp [LoadOp.cls] at h
  · cases ht2

theorem finish_dead {K : FnCtx} {st : CS} {a : Alloc} {c : Cls} {fold : Bool} {mk : Dst → Instr} {rest : List WOp} :
    (finish K st a c fold mk rest).1.dead = st.dead := by
  unfold finish
  split <;> rfl

/-- only the terminators make the rest unreachable -/
theorem compOp_nonterm {K : FnCtx} {st st' : CS} {o : WOp} {rest rest' : List WOp} (hb : isBracket o = false) (ht : isTerm o = false)
    (h : compOp K st o rest = some (st', rest')) : st'.dead = st.dead := by
  have key : ∀ {x : CS × List WOp}, some x = some (st', rest') → x.1.dead = st.dead → st'.dead = st.dead := by
    intro x hx hp; cases hx; exact hp
  have store : ∀ {s s' : CS} {c : Cls} {src i : Nat}, storeLocal s c src i = some s' → s'.dead = s.dead := by
    intro s s' c src i hs
    cases c <;> simp only [storeLocal, Option.some.injEq, reduceCtorEq] at hs <;> subst hs <;> rfl
  cases o <;> simp only [isBracket, isTerm, reduceCtorEq, Bool.true_eq_false] at hb ht
  case localGet i =>
    simp only [compOp, compLocalGet] at h
    cases hc : K.localType i <;> rw [hc] at h <;> simp only [Option.map_some, Option.map_none, reduceCtorEq] at h
    case ref => exact key h rfl
    all_goals split at h <;> exact key h rfl
  case localSet i =>
    simp only [compOp, Option.map_eq_some_iff] at h
    obtain ⟨x, hx, he⟩ := h
    cases he
    have := store hx; exact this
  case localTee i =>
    simp only [compOp] at h
    split at h
    · cases h
    · simp only [Option.map_eq_some_iff] at h
      obtain ⟨x, hx, he⟩ := h
      cases he
      exact store hx
  case globalGet g =>
    simp only [compOp] at h
    split at h
    · cases h
    · exact key h finish_dead
  case globalSet g =>
    simp only [compOp] at h
    split at h
    · cases h
    · exact key h rfl
  case const c v =>
    simp only [compOp, compConst, Option.map_eq_some_iff] at h
    obtain ⟨x, hx, he⟩ := h
    cases he
    split at hx
    · cases hx
    · split at hx <;> cases hx <;> rfl
  case un op =>
    cases op <;> simp only [compOp, reduceCtorEq] at h
    all_goals split at h <;> exact key h finish_dead
  case bin op => exact key h finish_dead
  case load op off => exact key h finish_dead
  case selectT c =>
    simp only [compOp] at h
    split at h
    · cases h
    · exact key h rfl
  case select =>
    simp only [compOp] at h
    split at h
    · cases h
    · exact key h rfl
  case call f =>
    simp only [compOp] at h
    split at h <;> exact key h rfl
  case callIndirect ty t =>
    simp only [compOp] at h
    split at h
    · cases h
    · exact key h rfl
  case other => simp [compOp] at h
  all_goals exact key h rfl

theorem seq_supported {K : FnCtx} {w : WSeq} {tail : List WOp} {st st' : CS}
    (h : CompSeq K w tail st st') : ∀ {ts : List Cls} {L : List (List Cls)} {τ : Option (List Cls)},
      check K L w ts = some τ → st.dead = 0 → supported K w = true := by
  induction h with
  | done hd => intros; rfl
  | dead h1 => intro _ _ _ _ hd; omega
  | @op o k tail st st1 st2 hd0 hb hc hk ih =>
    intro ts L τ hck hd
    simp only [check] at hck
    simp only [supported, Bool.and_eq_true, Bool.or_eq_true]
    split at hck
    · cases hck
    · rename_i ht
      refine ⟨op_supported ht hc, .inl ?_⟩
      cases o <;> first | rfl | (simp only [stepTy, Option.map_eq_some_iff, reduceCtorEq, and_false, exists_false] at ht; done) | skip
      rename_i d
      simp only [stepTy] at ht
      split at ht <;> first | (cases ht; done) | (split at ht <;> cases ht)
    · rename_i ts1 ht
      refine ⟨op_supported ht hc, .inr (ih hck ?_)⟩
      exact (compOp_nonterm hb (isTerm_false ht) hc).trans hd
  | @fused o i k tail st st1 st2 hd0 hb hc hk ih =>
    intro ts L τ hck hd
    simp only [check] at hck
    simp only [supported, Bool.and_eq_true, Bool.or_eq_true]
    have hco := fused_consumer hb hc
    split at hck
    · cases hck
    · rename_i ht
      exfalso
      cases o <;> simp only [consumer, Bool.false_eq_true] at hco <;> simp [stepTy] at ht
    · rename_i ts1 ht
      have ht' := opTy_of_stepTy (by rintro d rfl; simp [consumer] at hco) ht
      have hso := op_supported ht hc
      split at hck
      · cases hck
      · rename_i h; simp [stepTy] at h
      · rename_i ts2 ht2
        refine ⟨hso, .inr ⟨fused_supported hb ht' (opTy_of_stepTy (by simp) ht2) hso hc, .inr (ih hck ?_)⟩⟩
        exact (compOp_nonterm hb (isTerm_false ht) hc).trans hd
  | @block bt bb k tail st st1 st2 st3 st4 hd0 hc1 hb hc3 hk ihb ihk =>
    intro ts L τ hck hd
    simp only [supported, Bool.and_eq_true]
    simp only [check] at hck
    split at hck
    case h_2 => cases hck
    rename_i r τb hr hckb
    split at hck
    case isFalse => cases hck
    exact ⟨ihb hckb ((compOp_open (by simp) hc1).2.trans hd), ihk hck (compOp_fin hc3).2⟩
  | @loop bt bb k tail st st1 st2 st3 st4 hd0 hc1 hb hc3 hk ihb ihk =>
    intro ts L τ hck hd
    simp only [supported, Bool.and_eq_true]
    simp only [check] at hck
    split at hck
    case h_2 => cases hck
    rename_i r τb hr hckb
    split at hck
    case isFalse => cases hck
    exact ⟨ihb hckb ((compOp_open (by simp) hc1).2.trans hd), ihk hck (compOp_fin hc3).2⟩
  | @ite bt bb k tail st st1 st2 st3 st4 hd0 hc1 hb hc3 hk ihb ihk =>
    intro ts L τ hck hd
    simp only [supported, Bool.and_eq_true]
    simp only [check] at hck
    split at hck
    case h_2 => cases hck
    rename_i r τb hr hckb
    split at hck
    case isFalse => cases hck
    exact ⟨ihb hckb ((compOp_open (by simp) hc1).2.trans hd), ihk hck (compOp_fin hc3).2⟩
  | @itee bt t e k tail st st1 st2 st3 st4 st5 st6 hd0 hc1 hb hc3 he hc5 hk ihb ihe ihk =>
    intro ts L τ hck hd
    simp only [supported, Bool.and_eq_true]
    simp only [check] at hck
    split at hck
    case h_2 => cases hck
    rename_i r τb τe hr hckb hcke
    split at hck
    case isFalse => cases hck
    exact ⟨⟨ihb hckb ((compOp_open (by simp) hc1).2.trans hd), ihe hcke (compOp_els hc3).2⟩, ihk hck (compOp_fin hc5).2⟩

/-- a valid function body that is accepted consists of supported operators -/
theorem fn_supported {K : FnCtx} {w : WSeq} {code : Code} (hv : ValidFn K w) (hc : compileFn K w.body = some code) :
    supported K w = true := by
  unfold compileFn at hc
  split at hc
  · cases hc
  · rename_i fin hrun
    obtain ⟨st', n', hseq, hd', hrun'⟩ := comp_seq K fin w [.fin] (CS.init K) _ hv.proper ⟨[], Or.inl rfl⟩ (by simp [CS.init]) hrun
    obtain ⟨τ, hck, _⟩ := hv.typed
    exact seq_supported hseq hck rfl

end Verif.Lemmas
