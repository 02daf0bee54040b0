import Verif.Spec.Source
/-
The preprocessor, which works on a flat operator stream, seen as a compiler of structured sequences.
-/
namespace Verif.Lemmas
open Verif.Model Verif.Spec

/-- the instructions phases 2 and 3 see no bracket in -/
def isFlat : Instr → Bool
  | .block _ | .ite _ _ _ | .fin _ _ => false
  | _ => true

theorem scanStep_flat {i : Instr} (h : isFlat i = true) (stk : List (Nat × Bool)) (pc : Nat) : scanStep stk pc i = stk := by
  cases i <;> simp_all [isFlat, scanStep]

/-- the parts of the state only brackets change -/
structure SameCtl (a b : CS) : Prop where
  ctrl : b.ctrl = a.ctrl
  saved : b.saved = a.saved
  mapCtl : b.mapCtl = a.mapCtl
  ends : b.ends = a.ends
  elses : b.elses = a.elses

/-- the instructions phases 2 and 3 see neither a bracket nor an `else` in -/
def isSimple : Instr → Bool
  | .block _ | .ite _ _ _ | .fin _ _ | .jump _ => false
  | _ => true

theorem isFlat_of {i : Instr} (h : isSimple i = true) : isFlat i = true := by
  cases i <;> simp_all [isFlat, isSimple]

/-- what a non-bracket operator does to the code and to the stream -/
structure PlainStep (a b : CS) (rest rest' : List WOp) : Prop where
  same : SameCtl a b
  code : b.code = a.code ∨ ∃ i, isSimple i = true ∧ b.code = a.code ++ [i]
  dead : b.dead = a.dead ∨ b.dead = 1
  rest : rest' = rest ∨ ∃ i, rest = .localSet i :: rest'

theorem plain_finish {K : FnCtx} {st : CS} {a : Alloc} {c : Cls} {fold : Bool} {mk : Dst → Instr} {rest : List WOp}
    (hm : ∀ d, isSimple (mk d) = true) (st0 : CS) (h : SameCtl st0 st) (hc : st.code = st0.code) (hd : st.dead = st0.dead) :
    PlainStep st0 (finish K st a c fold mk rest).1 rest (finish K st a c fold mk rest).2 := by
  obtain ⟨h1, h2, h3, h4, h5⟩ := h
  unfold finish
  split
  · rename_i l hl
    refine ⟨⟨h1, h2, h3, h4, h5⟩, Or.inr ⟨_, hm (.loc l), by simp only [CS.emit, hc]⟩, Or.inl hd, Or.inr ?_⟩
    split at hl
    · unfold foldDst at hl
      split at hl
      · exact ⟨_, rfl⟩
      · cases hl
    · cases hl
  · exact ⟨⟨h1, h2, h3, h4, h5⟩, Or.inr ⟨_, hm (.reg (a.push c).1.idx), by simp only [CS.emit, hc]⟩, Or.inl hd, Or.inl rfl⟩

theorem plain_emit {st0 st : CS} {i : Instr} {rest : List WOp} (hi : isSimple i = true) (h : SameCtl st0 st)
    (hc : st.code = st0.code) (hd : st.dead = st0.dead ∨ st.dead = 1) : PlainStep st0 (st.emit i) rest rest := by
  obtain ⟨h1, h2, h3, h4, h5⟩ := h
  exact ⟨⟨h1, h2, h3, h4, h5⟩, Or.inr ⟨_, hi, by simp only [CS.emit, hc]⟩, hd, Or.inl rfl⟩

theorem storeLocal_plain {st0 st st' : CS} {c : Cls} {src i : Nat} {rest : List WOp} (hs : storeLocal st c src i = some st')
    (h : SameCtl st0 st) (hc : st.code = st0.code) (hd : st.dead = st0.dead) : PlainStep st0 st' rest rest := by
  cases c <;> simp only [storeLocal, Option.some.injEq, reduceCtorEq] at hs <;> subst hs <;>
    exact plain_emit rfl h hc (Or.inl hd)

theorem compOp_plain {K : FnCtx} {st st' : CS} {o : WOp} {rest rest' : List WOp} (hb : isBracket o = false)
    (h : compOp K st o rest = some (st', rest')) : PlainStep st st' rest rest' := by
  have same : SameCtl st st := ⟨rfl, rfl, rfl, rfl, rfl⟩
  have key : ∀ {x : CS × List WOp}, some x = some (st', rest') → PlainStep st x.1 rest x.2 → PlainStep st st' rest rest' := by
    intro x hx hp; cases hx; exact hp
  cases o <;> simp only [isBracket, reduceCtorEq, Bool.true_eq_false] at hb
  case localGet i =>
    simp only [compOp, compLocalGet] at h
    cases hc : K.localType i <;> rw [hc] at h <;> simp only [Option.map_some, Option.map_none, reduceCtorEq] at h
    case ref => exact key h (plain_emit rfl ⟨rfl, rfl, rfl, rfl, rfl⟩ rfl (Or.inl rfl))
    all_goals
      split at h
      · exact key h ⟨⟨rfl, rfl, rfl, rfl, rfl⟩, Or.inl rfl, Or.inl rfl, Or.inl rfl⟩
      · exact key h (plain_emit rfl ⟨rfl, rfl, rfl, rfl, rfl⟩ rfl (Or.inl rfl))
  case localSet i =>
    simp only [compOp, Option.map_eq_some_iff] at h
    obtain ⟨x, hx, he⟩ := h
    cases he
    exact storeLocal_plain hx ⟨rfl, rfl, rfl, rfl, rfl⟩ rfl rfl
  case localTee i =>
    simp only [compOp] at h
    split at h
    · cases h
    · simp only [Option.map_eq_some_iff] at h
      obtain ⟨x, hx, he⟩ := h
      cases he
      exact storeLocal_plain hx same rfl rfl
  case globalGet g =>
    simp only [compOp] at h
    split at h
    · cases h
    · exact key h (plain_finish (fun _ => rfl) _ same rfl rfl)
  case globalSet g =>
    simp only [compOp] at h
    split at h
    · cases h
    · exact key h (plain_emit rfl ⟨rfl, rfl, rfl, rfl, rfl⟩ rfl (Or.inl rfl))
  case const c v =>
    simp only [compOp, compConst, Option.map_eq_some_iff] at h
    obtain ⟨x, hx, he⟩ := h
    cases he
    split at hx
    · cases hx
    · split at hx
      · cases hx; exact ⟨⟨rfl, rfl, rfl, rfl, rfl⟩, Or.inl rfl, Or.inl rfl, Or.inl rfl⟩
      · cases hx; exact plain_emit rfl ⟨rfl, rfl, rfl, rfl, rfl⟩ rfl (Or.inl rfl)
  case un op =>
    cases op <;> simp only [compOp, reduceCtorEq] at h
    all_goals
      split at h
      · exact key h (plain_finish (fun _ => rfl) _ ⟨rfl, rfl, rfl, rfl, rfl⟩ rfl rfl)
      · exact key h (plain_finish (fun _ => rfl) _ same rfl rfl)
  case bin op => exact key h (plain_finish (fun _ => rfl) _ ⟨rfl, rfl, rfl, rfl, rfl⟩ rfl rfl)
  case load op off => exact key h (plain_finish (fun _ => rfl) _ ⟨rfl, rfl, rfl, rfl, rfl⟩ rfl rfl)
  case selectT c =>
    simp only [compOp] at h
    split at h
    · cases h
    · exact key h (plain_emit rfl ⟨rfl, rfl, rfl, rfl, rfl⟩ rfl (Or.inl rfl))
  case select =>
    simp only [compOp] at h
    split at h
    · cases h
    · exact key h (plain_emit rfl ⟨rfl, rfl, rfl, rfl, rfl⟩ rfl (Or.inl rfl))
  case drop =>
    simp only [compOp] at h
    exact key h ⟨⟨rfl, rfl, rfl, rfl, rfl⟩, Or.inl rfl, Or.inl rfl, Or.inl rfl⟩
  case other => simp [compOp] at h
  case nop => exact key h ⟨⟨rfl, rfl, rfl, rfl, rfl⟩, Or.inl rfl, Or.inl rfl, Or.inl rfl⟩
  case unreachable => exact key h ⟨⟨rfl, rfl, rfl, rfl, rfl⟩, Or.inr ⟨_, rfl, rfl⟩, Or.inr rfl, Or.inl rfl⟩
  case br d => exact key h ⟨⟨rfl, rfl, rfl, rfl, rfl⟩, Or.inr ⟨_, rfl, rfl⟩, Or.inr rfl, Or.inl rfl⟩
  case brTable ds d => exact key h ⟨⟨rfl, rfl, rfl, rfl, rfl⟩, Or.inr ⟨_, rfl, rfl⟩, Or.inr rfl, Or.inl rfl⟩
  case ret => exact key h ⟨⟨rfl, rfl, rfl, rfl, rfl⟩, Or.inr ⟨_, rfl, rfl⟩, Or.inr rfl, Or.inl rfl⟩
  case call f =>
    simp only [compOp] at h
    split at h <;> exact key h (plain_emit rfl ⟨rfl, rfl, rfl, rfl, rfl⟩ rfl (Or.inl rfl))
  case callIndirect ty t =>
    simp only [compOp] at h
    split at h
    · cases h
    · exact key h (plain_emit rfl ⟨rfl, rfl, rfl, rfl, rfl⟩ rfl (Or.inl rfl))
  all_goals exact key h (plain_emit rfl ⟨rfl, rfl, rfl, rfl, rfl⟩ rfl (Or.inl rfl))

/-- `st` with `n` skipped operators -/
def skip (st : CS) (n : Nat) : CS := { st with code := st.code ++ List.replicate n .nop }

theorem skip_skip (st : CS) (n m : Nat) : skip (skip st n) m = skip st (n + m) := by
  simp [skip, ← List.replicate_append_replicate]

theorem nops_eq {st : CS} {a b c x y : Nat} (hy : y = st.dead) (h : a = 1 + b + 1 + c) :
    skip st a = skip { skip (skip { skip st 1 with dead := x } b) 1 with dead := y } c := by
  subst hy h
  simp only [skip, CS.mk.injEq, and_true, true_and, List.append_assoc, List.replicate_append_replicate]

/-- Compilation of a structured sequence, `tail` being the operators after it.  Code that cannot be reached turns into
`nop`s. -/
inductive CompSeq (K : FnCtx) : WSeq → List WOp → CS → CS → Prop
  | done {tail : List WOp} {st : CS} : st.dead = 0 → CompSeq K .done tail st st
  | dead {w : WSeq} {tail : List WOp} {st : CS} : st.dead = 1 → CompSeq K w tail st (skip st w.flat.length)
  | op {o : WOp} {k : WSeq} {tail : List WOp} {st st1 st2 : CS} : st.dead = 0 → isBracket o = false →
      compOp K st o (k.flat ++ tail) = some (st1, k.flat ++ tail) → CompSeq K k tail st1 st2 →
      CompSeq K (.op o k) tail st st2
  | fused {o : WOp} {i : Nat} {k : WSeq} {tail : List WOp} {st st1 st2 : CS} : st.dead = 0 → isBracket o = false →
      compOp K st o (.localSet i :: (k.flat ++ tail)) = some (st1, k.flat ++ tail) → CompSeq K k tail st1 st2 →
      CompSeq K (.op o (.op (.localSet i) k)) tail st st2
  | block {bt : BlockTy} {b k : WSeq} {tail : List WOp} {st st1 st2 st3 st4 : CS} : st.dead = 0 →
      compOp K st (.block bt) (b.flat ++ .fin :: (k.flat ++ tail)) = some (st1, b.flat ++ .fin :: (k.flat ++ tail)) →
      CompSeq K b (.fin :: (k.flat ++ tail)) st1 st2 →
      compOp K { st2 with dead := 0 } .fin (k.flat ++ tail) = some (st3, k.flat ++ tail) → CompSeq K k tail st3 st4 →
      CompSeq K (.block bt b k) tail st st4
  | loop {bt : BlockTy} {b k : WSeq} {tail : List WOp} {st st1 st2 st3 st4 : CS} : st.dead = 0 →
      compOp K st (.loop bt) (b.flat ++ .fin :: (k.flat ++ tail)) = some (st1, b.flat ++ .fin :: (k.flat ++ tail)) →
      CompSeq K b (.fin :: (k.flat ++ tail)) st1 st2 →
      compOp K { st2 with dead := 0 } .fin (k.flat ++ tail) = some (st3, k.flat ++ tail) → CompSeq K k tail st3 st4 →
      CompSeq K (.loop bt b k) tail st st4
  | ite {bt : BlockTy} {t k : WSeq} {tail : List WOp} {st st1 st2 st3 st4 : CS} : st.dead = 0 →
      compOp K st (.ite bt) (t.flat ++ .fin :: (k.flat ++ tail)) = some (st1, t.flat ++ .fin :: (k.flat ++ tail)) →
      CompSeq K t (.fin :: (k.flat ++ tail)) st1 st2 →
      compOp K { st2 with dead := 0 } .fin (k.flat ++ tail) = some (st3, k.flat ++ tail) → CompSeq K k tail st3 st4 →
      CompSeq K (.ite bt t k) tail st st4
  | itee {bt : BlockTy} {t e k : WSeq} {tail : List WOp} {st st1 st2 st3 st4 st5 st6 : CS} : st.dead = 0 →
      compOp K st (.ite bt) (t.flat ++ .els :: (e.flat ++ .fin :: (k.flat ++ tail))) =
        some (st1, t.flat ++ .els :: (e.flat ++ .fin :: (k.flat ++ tail))) →
      CompSeq K t (.els :: (e.flat ++ .fin :: (k.flat ++ tail))) st1 st2 →
      compOp K { st2 with dead := 0 } .els (e.flat ++ .fin :: (k.flat ++ tail)) =
        some (st3, e.flat ++ .fin :: (k.flat ++ tail)) →
      CompSeq K e (.fin :: (k.flat ++ tail)) st3 st4 →
      compOp K { st4 with dead := 0 } .fin (k.flat ++ tail) = some (st5, k.flat ++ tail) → CompSeq K k tail st5 st6 →
      CompSeq K (.itee bt t e k) tail st st6

/-- one turn in unreachable code -/
theorem compRun_dead {K : FnCtx} {n : Nat} {st fin : CS} {op : WOp} {rest : List WOp} (h0 : 0 < st.dead)
    (hd : 0 < deadNext st.dead op) (h : compRun K n st (op :: rest) = some fin) :
    ∃ n', compRun K n' { skip st 1 with dead := deadNext st.dead op } rest = some fin := by
  cases n with
  | zero => simp [compRun] at h
  | succ n =>
    simp only [compRun, compStep] at h
    rw [if_neg (by omega), if_pos hd] at h
    exact ⟨n, h⟩

theorem comp_dead (K : FnCtx) (fin : CS) : ∀ (w : WSeq) (tail : List WOp) (st : CS) (n : Nat), w.Proper → 0 < st.dead →
    compRun K n st (w.flat ++ tail) = some fin → ∃ n', compRun K n' (skip st w.flat.length) tail = some fin := by
  intro w
  induction w with
  | done => intro tail st n _ _ h; exact ⟨n, by simpa [skip, WSeq.flat] using h⟩
  | op o k ih =>
    intro tail st n hp hd h
    have hn : deadNext st.dead o = st.dead := by
      have := hp.1
      cases o <;> simp_all [isBracket, deadNext]
    obtain ⟨n1, h1⟩ := compRun_dead hd (by rw [hn]; exact hd) h
    rw [hn] at h1
    obtain ⟨n2, h2⟩ := ih tail (skip st 1) n1 hp.2 hd h1
    rw [skip_skip] at h2
    exact ⟨n2, by simpa [WSeq.flat, Nat.add_comm] using h2⟩
  | block bt b k ihb ihk =>
    intro tail st n hp hd h
    simp only [WSeq.flat, List.cons_append, List.append_assoc] at h
    obtain ⟨n1, h1⟩ := compRun_dead hd (by simp [deadNext]) h
    obtain ⟨n2, h2⟩ := ihb _ _ n1 hp.1 (by simp [deadNext]) h1
    obtain ⟨n3, h3⟩ := compRun_dead (by simp [deadNext, skip]) (by simpa [deadNext, skip] using hd) h2
    obtain ⟨n4, h4⟩ := ihk _ _ n3 hp.2 (by simpa [deadNext, skip] using hd) h3
    refine ⟨n4, (congrArg (fun s => compRun K n4 s tail) ?_).trans h4⟩
    exact nops_eq (by simp [deadNext, skip]) (by simp only [WSeq.flat, List.length_cons, List.length_append]; omega)
  | loop bt b k ihb ihk =>
    intro tail st n hp hd h
    simp only [WSeq.flat, List.cons_append, List.append_assoc] at h
    obtain ⟨n1, h1⟩ := compRun_dead hd (by simp [deadNext]) h
    obtain ⟨n2, h2⟩ := ihb _ _ n1 hp.1 (by simp [deadNext]) h1
    obtain ⟨n3, h3⟩ := compRun_dead (by simp [deadNext, skip]) (by simpa [deadNext, skip] using hd) h2
    obtain ⟨n4, h4⟩ := ihk _ _ n3 hp.2 (by simpa [deadNext, skip] using hd) h3
    refine ⟨n4, (congrArg (fun s => compRun K n4 s tail) ?_).trans h4⟩
    exact nops_eq (by simp [deadNext, skip]) (by simp only [WSeq.flat, List.length_cons, List.length_append]; omega)
  | ite bt b k ihb ihk =>
    intro tail st n hp hd h
    simp only [WSeq.flat, List.cons_append, List.append_assoc] at h
    obtain ⟨n1, h1⟩ := compRun_dead hd (by simp [deadNext]) h
    obtain ⟨n2, h2⟩ := ihb _ _ n1 hp.1 (by simp [deadNext]) h1
    obtain ⟨n3, h3⟩ := compRun_dead (by simp [deadNext, skip]) (by simpa [deadNext, skip] using hd) h2
    obtain ⟨n4, h4⟩ := ihk _ _ n3 hp.2 (by simpa [deadNext, skip] using hd) h3
    refine ⟨n4, (congrArg (fun s => compRun K n4 s tail) ?_).trans h4⟩
    exact nops_eq (by simp [deadNext, skip]) (by simp only [WSeq.flat, List.length_cons, List.length_append]; omega)
  | itee bt t e k iht ihe ihk =>
    intro tail st n hp hd h
    simp only [WSeq.flat, List.cons_append, List.append_assoc] at h
    obtain ⟨n1, h1⟩ := compRun_dead hd (by simp [deadNext]) h
    obtain ⟨n2, h2⟩ := iht _ _ n1 hp.1 (by simp [deadNext]) h1
    have he : deadNext (st.dead + 1) .els = st.dead + 1 := by simp [deadNext]; omega
    have h2' : compRun K n2 { skip st (1 + t.flat.length) with dead := st.dead + 1 }
        (.els :: (e.flat ++ .fin :: (k.flat ++ tail))) = some fin := by
      rw [← h2]; congr 1
      simp only [skip, CS.mk.injEq, and_true, true_and, List.append_assoc, List.replicate_append_replicate, deadNext]
    obtain ⟨n3, h3⟩ := compRun_dead (by simp) (by show 0 < deadNext (st.dead + 1) .els; omega) h2'
    have h3' : compRun K n3 { skip st (1 + t.flat.length + 1) with dead := st.dead + 1 }
        (e.flat ++ .fin :: (k.flat ++ tail)) = some fin := by
      rw [← h3]; simp only [he]
      congr 1
      simp only [skip, CS.mk.injEq, and_true]
      simp only [List.append_assoc, List.replicate_append_replicate]
    obtain ⟨n4, h4⟩ := ihe _ _ n3 hp.2.1 (by simp) h3'
    obtain ⟨n5, h5⟩ := compRun_dead (by simp [skip]) (by simpa [deadNext, skip] using hd) h4
    obtain ⟨n6, h6⟩ := ihk _ _ n5 hp.2.2 (by simpa [deadNext, skip] using hd) h5
    refine ⟨n6, (congrArg (fun s => compRun K n6 s tail) ?_).trans h6⟩
    simp [skip, WSeq.flat, List.replicate_append_replicate, deadNext, ← List.replicate_succ]
    omega

/-- induction that also covers the sequence after the next operator -/
theorem _root_.Verif.Spec.WSeq.rec' {P : WSeq → Prop} (done : P .done)
    (op : ∀ o k, P k → (∀ o' k', k = .op o' k' → P k') → P (.op o k))
    (block : ∀ bt b k, P b → P k → P (.block bt b k)) (loop : ∀ bt b k, P b → P k → P (.loop bt b k))
    (ite : ∀ bt b k, P b → P k → P (.ite bt b k)) (itee : ∀ bt t e k, P t → P e → P k → P (.itee bt t e k)) :
    ∀ w, P w := by
  have key : ∀ w, P w ∧ (∀ o' k', w = .op o' k' → P k') := by
    intro w
    induction w with
    | done => exact ⟨done, by intro o k h; cases h⟩
    | op o k ih => exact ⟨op o k ih.1 ih.2, by intro o' k' h; cases h; exact ih.1⟩
    | block bt b k hb hk => exact ⟨block bt b k hb.1 hk.1, by intro o k h; cases h⟩
    | loop bt b k hb hk => exact ⟨loop bt b k hb.1 hk.1, by intro o k h; cases h⟩
    | ite bt b k hb hk => exact ⟨ite bt b k hb.1 hk.1, by intro o k h; cases h⟩
    | itee bt t e k ht he hk => exact ⟨itee bt t e k ht.1 he.1 hk.1, by intro o k h; cases h⟩
  exact fun w => (key w).1

/-- the operators after a sequence that is the body of a bracket or of the function -/
def TailOk (tail : List WOp) : Prop := ∃ r, tail = .fin :: r ∨ tail = .els :: r

theorem compOp_open {K : FnCtx} {st st1 : CS} {o : WOp} {rest r : List WOp}
    (ho : (∃ bt, o = .block bt) ∨ (∃ bt, o = .loop bt) ∨ (∃ bt, o = .ite bt)) (h : compOp K st o rest = some (st1, r)) :
    r = rest ∧ st1.dead = st.dead := by
  rcases ho with ⟨bt, rfl⟩ | ⟨bt, rfl⟩ | ⟨bt, rfl⟩ <;> simp only [compOp, Option.some.injEq, Prod.mk.injEq] at h <;>
    exact ⟨h.2.symm, by rw [← h.1]; rfl⟩

theorem compOp_els {K : FnCtx} {st st1 : CS} {rest r : List WOp} (h : compOp K st .els rest = some (st1, r)) :
    r = rest ∧ st1.dead = st.dead := by
  simp only [compOp] at h
  split at h
  · simp only [Option.some.injEq, Prod.mk.injEq] at h
    exact ⟨h.2.symm, by rw [← h.1]; rfl⟩
  · cases h

theorem compOp_fin {K : FnCtx} {st st1 : CS} {rest r : List WOp} (h : compOp K st .fin rest = some (st1, r)) :
    r = rest ∧ st1.dead = st.dead := by
  simp only [compOp, Option.map_eq_some_iff] at h
  obtain ⟨x, hx, he⟩ := h
  cases he
  refine ⟨rfl, ?_⟩
  unfold closeMaps at hx
  split at hx
  · cases hx; rfl
  · split at hx
    · cases hx; rfl
    · cases hx

/-- a turn of the loop in code that can be reached -/
theorem compRun_live {K : FnCtx} {n : Nat} {st fin : CS} {op : WOp} {rest : List WOp} (h0 : st.dead = 0)
    (h : compRun K n st (op :: rest) = some fin) :
    ∃ n' st' rest', compOp K st op rest = some (st', rest') ∧ compRun K n' st' rest' = some fin := by
  cases n with
  | zero => simp [compRun] at h
  | succ n =>
    simp only [compRun, compStep, if_pos h0] at h
    split at h
    · cases h
    · exact ⟨n, _, _, by assumption, h⟩

/-- `end` and `else` are reachable when the bracket is not nested in unreachable code -/
theorem compRun_close {K : FnCtx} {n : Nat} {st fin : CS} {op : WOp} {rest : List WOp} (h0 : st.dead ≤ 1)
    (ho : op = .fin ∨ op = .els) (h : compRun K n st (op :: rest) = some fin) :
    ∃ n' st' rest', compOp K { st with dead := 0 } op rest = some (st', rest') ∧ compRun K n' st' rest' = some fin := by
  by_cases hz : st.dead = 0
  · have e : { st with dead := 0 } = st := by cases st; simp only at hz; subst hz; rfl
    rw [e]; exact compRun_live hz h
  · have h1 : st.dead = 1 := by omega
    cases n with
    | zero => simp [compRun] at h
    | succ n =>
      have hd : deadNext st.dead op = 0 := by rcases ho with rfl | rfl <;> simp [deadNext, h1]
      simp only [compRun, compStep, if_neg hz, hd, Nat.lt_irrefl, if_false] at h
      split at h
      · cases h
      · exact ⟨n, _, _, by assumption, h⟩

theorem comp_dead1 {K : FnCtx} {fin : CS} {w : WSeq} {tail : List WOp} {st : CS} {n : Nat} (hp : w.Proper)
    (hd : st.dead = 1) (h : compRun K n st (w.flat ++ tail) = some fin) :
    ∃ st' n', CompSeq K w tail st st' ∧ st'.dead ≤ 1 ∧ compRun K n' st' tail = some fin := by
  obtain ⟨n', h'⟩ := comp_dead K fin w tail st n hp (by omega) h
  exact ⟨_, n', .dead hd, by simp [skip, hd], h'⟩

/-- What phase 1 does to the stream of a structured sequence. -/
theorem comp_seq (K : FnCtx) (fin : CS) : ∀ (w : WSeq) (tail : List WOp) (st : CS) (n : Nat), w.Proper → TailOk tail →
    st.dead ≤ 1 → compRun K n st (w.flat ++ tail) = some fin →
    ∃ st' n', CompSeq K w tail st st' ∧ st'.dead ≤ 1 ∧ compRun K n' st' tail = some fin := by
  intro w
  induction w using WSeq.rec' with
  | done =>
    intro tail st n hp ht hd h
    by_cases hz : st.dead = 0
    · exact ⟨st, n, .done hz, hd, h⟩
    · exact comp_dead1 hp (by omega) h
  | op o k ih ih2 =>
    intro tail st n hp ht hd h
    by_cases hz : st.dead = 0
    · simp only [WSeq.flat, List.cons_append] at h
      obtain ⟨n1, st1, r1, hc, h1⟩ := compRun_live hz h
      have pl := compOp_plain hp.1 hc
      have hd1 : st1.dead ≤ 1 := by rcases pl.dead with e | e <;> omega
      rcases pl.rest with rfl | ⟨i, hi⟩
      · obtain ⟨st', n', hs, hd', h'⟩ := ih tail st1 n1 hp.2 ht hd1 h1
        exact ⟨st', n', .op hz hp.1 hc hs, hd', h'⟩
      · cases k with
        | done =>
          obtain ⟨r, rfl | rfl⟩ := ht <;> simp [WSeq.flat] at hi
        | op o' k' =>
          simp only [WSeq.flat, List.cons_append, List.cons.injEq] at hi
          obtain ⟨rfl, rfl⟩ := hi
          obtain ⟨st', n', hs, hd', h'⟩ := ih2 _ k' rfl tail st1 n1 hp.2.2 ht hd1 h1
          exact ⟨st', n', .fused hz hp.1 hc hs, hd', h'⟩
        | block => simp [WSeq.flat] at hi
        | loop => simp [WSeq.flat] at hi
        | ite => simp [WSeq.flat] at hi
        | itee => simp [WSeq.flat] at hi
    · exact comp_dead1 hp (by omega) h
  | block bt b k ihb ihk =>
    intro tail st n hp ht hd h
    by_cases hz : st.dead = 0
    · simp only [WSeq.flat, List.cons_append, List.append_assoc] at h
      obtain ⟨n1, st1, r1, hc1, h1⟩ := compRun_live hz h
      obtain ⟨rfl, hd1⟩ := compOp_open (by simp) hc1
      obtain ⟨st2, n2, hs2, hd2, h2⟩ := ihb _ st1 n1 hp.1 ⟨_, Or.inl rfl⟩ (by omega) h1
      obtain ⟨n3, st3, r3, hc3, h3⟩ := compRun_close hd2 (Or.inl rfl) h2
      obtain ⟨rfl, hd3⟩ := compOp_fin hc3
      obtain ⟨st4, n4, hs4, hd4, h4⟩ := ihk tail st3 n3 hp.2 ht (by simp only at hd3; omega) h3
      exact ⟨st4, n4, .block hz hc1 hs2 hc3 hs4, hd4, h4⟩
    · exact comp_dead1 hp (by omega) h
  | loop bt b k ihb ihk =>
    intro tail st n hp ht hd h
    by_cases hz : st.dead = 0
    · simp only [WSeq.flat, List.cons_append, List.append_assoc] at h
      obtain ⟨n1, st1, r1, hc1, h1⟩ := compRun_live hz h
      obtain ⟨rfl, hd1⟩ := compOp_open (by simp) hc1
      obtain ⟨st2, n2, hs2, hd2, h2⟩ := ihb _ st1 n1 hp.1 ⟨_, Or.inl rfl⟩ (by omega) h1
      obtain ⟨n3, st3, r3, hc3, h3⟩ := compRun_close hd2 (Or.inl rfl) h2
      obtain ⟨rfl, hd3⟩ := compOp_fin hc3
      obtain ⟨st4, n4, hs4, hd4, h4⟩ := ihk tail st3 n3 hp.2 ht (by simp only at hd3; omega) h3
      exact ⟨st4, n4, .loop hz hc1 hs2 hc3 hs4, hd4, h4⟩
    · exact comp_dead1 hp (by omega) h
  | ite bt b k ihb ihk =>
    intro tail st n hp ht hd h
    by_cases hz : st.dead = 0
    · simp only [WSeq.flat, List.cons_append, List.append_assoc] at h
      obtain ⟨n1, st1, r1, hc1, h1⟩ := compRun_live hz h
      obtain ⟨rfl, hd1⟩ := compOp_open (by simp) hc1
      obtain ⟨st2, n2, hs2, hd2, h2⟩ := ihb _ st1 n1 hp.1 ⟨_, Or.inl rfl⟩ (by omega) h1
      obtain ⟨n3, st3, r3, hc3, h3⟩ := compRun_close hd2 (Or.inl rfl) h2
      obtain ⟨rfl, hd3⟩ := compOp_fin hc3
      obtain ⟨st4, n4, hs4, hd4, h4⟩ := ihk tail st3 n3 hp.2 ht (by simp only at hd3; omega) h3
      exact ⟨st4, n4, .ite hz hc1 hs2 hc3 hs4, hd4, h4⟩
    · exact comp_dead1 hp (by omega) h
  | itee bt t e k iht ihe ihk =>
    intro tail st n hp ht hd h
    by_cases hz : st.dead = 0
    · simp only [WSeq.flat, List.cons_append, List.append_assoc] at h
      obtain ⟨n1, st1, r1, hc1, h1⟩ := compRun_live hz h
      obtain ⟨rfl, hd1⟩ := compOp_open (by simp) hc1
      obtain ⟨st2, n2, hs2, hd2, h2⟩ := iht _ st1 n1 hp.1 ⟨_, Or.inr rfl⟩ (by omega) h1
      obtain ⟨n3, st3, r3, hc3, h3⟩ := compRun_close hd2 (Or.inr rfl) h2
      obtain ⟨rfl, hd3⟩ := compOp_els hc3
      obtain ⟨st4, n4, hs4, hd4, h4⟩ := ihe _ st3 n3 hp.2.1 ⟨_, Or.inl rfl⟩ (by simp only at hd3; omega) h3
      obtain ⟨n5, st5, r5, hc5, h5⟩ := compRun_close hd4 (Or.inl rfl) h4
      obtain ⟨rfl, hd5⟩ := compOp_fin hc5
      obtain ⟨st6, n6, hs6, hd6, h6⟩ := ihk tail st5 n5 hp.2.2 ht (by simp only at hd5; omega) h5
      exact ⟨st6, n6, .itee hz hc1 hs2 hc3 hs4 hc5 hs6, hd6, h6⟩
    · exact comp_dead1 hp (by omega) h

end Verif.Lemmas
