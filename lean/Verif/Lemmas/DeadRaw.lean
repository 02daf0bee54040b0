import Verif.Lemmas.DeadShift
/-
Phase 1 leaves all jump targets at 0; the effect of inserted `nop`s on a whole compilation.
-/
namespace Verif.Lemmas
open Verif.Model Verif.Spec Verif.Props

/-- no target filled in yet -/
def RawI (i : Instr) : Prop := ∀ f : Nat → Nat, f 0 = 0 → i.ren f = i

/-- instructions that never continue with the one behind them -/
def stops : Instr → Bool
  | .br _ _ _ _ | .brTable _ _ _ _ | .ret _ | .unreachable => true
  | _ => false

/-- what is appended has no target filled in, is no `nop`, and stops if the code behind it is unreachable -/
def Adds (a b : CS) : Prop := (b.code = a.code ∧ b.dead = a.dead) ∨
  ∃ i, b.code = a.code ++ [i] ∧ RawI i ∧ i ≠ .nop ∧ (b.dead = a.dead ∨ stops i = true)

theorem finish_adds {K : FnCtx} {st : CS} {a : Alloc} {c : Cls} {fold : Bool} {mk : Dst → Instr} {r : List WOp}
    (hm : ∀ d, RawI (mk d)) (hn : ∀ d, mk d ≠ .nop) : Adds st (finish K st a c fold mk r).1 := by
  unfold finish
  split <;> exact .inr ⟨_, rfl, hm _, hn _, .inl rfl⟩

theorem storeLocal_adds {st st' : CS} {c : Cls} {src i : Nat} (h : storeLocal st c src i = some st') : Adds st st' := by
  cases c <;> simp only [storeLocal, Option.some.injEq, reduceCtorEq] at h <;> subst h <;> exact .inr ⟨_, rfl, fun _ _ => rfl, nofun, .inl rfl⟩

theorem compOp_adds {K : FnCtx} {st st' : CS} {o : WOp} {r r' : List WOp} (h : compOp K st o r = some (st', r')) : Adds st st' := by
  have key : ∀ {x : CS × List WOp}, some x = some (st', r') → Adds st x.1 → Adds st st' := by
    intro x hx hp; cases hx; exact hp
  cases o
  case localGet i =>
    simp only [compOp, compLocalGet] at h
    cases hc : K.localType i <;> rw [hc] at h <;> simp only [Option.map_some, Option.map_none, reduceCtorEq] at h
    case ref => exact key h (.inr ⟨_, rfl, fun _ _ => rfl, nofun, .inl rfl⟩)
    all_goals
      split at h
      · exact key h (.inl ⟨rfl, rfl⟩)
      · exact key h (.inr ⟨_, rfl, fun _ _ => rfl, nofun, .inl rfl⟩)
  case localSet i =>
    simp only [compOp, Option.map_eq_some_iff] at h
    obtain ⟨x, hx, he⟩ := h
    cases he
    have := storeLocal_adds hx
    exact this
  case localTee i =>
    simp only [compOp] at h
    split at h
    · cases h
    · simp only [Option.map_eq_some_iff] at h
      obtain ⟨x, hx, he⟩ := h
      cases he
      exact storeLocal_adds hx
  case globalGet g =>
    simp only [compOp] at h
    split at h
    · cases h
    · exact key h (finish_adds (fun _ _ _ => rfl) (fun _ => nofun))
  case globalSet g =>
    simp only [compOp] at h
    split at h
    · cases h
    · exact key h (.inr ⟨_, rfl, fun _ _ => rfl, nofun, .inl rfl⟩)
  case const c v =>
    simp only [compOp, compConst, Option.map_eq_some_iff] at h
    obtain ⟨x, hx, he⟩ := h
    cases he
    split at hx
    · cases hx
    · split at hx
      · cases hx; exact .inl ⟨rfl, rfl⟩
      · cases hx; exact .inr ⟨_, rfl, fun _ _ => rfl, nofun, .inl rfl⟩
  case un op =>
    cases op <;> simp only [compOp, reduceCtorEq] at h
    all_goals
      split at h
      · have := finish_adds (K := K) (st := { st with pend := (take st.pend _ _).2 }) (fun _ _ _ => rfl) (fun _ => nofun) |> key h
        exact this
      · exact key h (finish_adds (fun _ _ _ => rfl) (fun _ => nofun))
  case bin op => exact key h (finish_adds (st := { st with pend := (take (take st.pend _ _).2 _ _).2 }) (fun _ _ _ => rfl) (fun _ => nofun))
  case load op off => exact key h (finish_adds (st := { st with pend := (take st.pend _ _).2 }) (fun _ _ _ => rfl) (fun _ => nofun))
  case selectT c =>
    simp only [compOp] at h
    split at h
    · cases h
    · exact key h (.inr ⟨_, rfl, fun _ _ => rfl, nofun, .inl rfl⟩)
  case select =>
    simp only [compOp] at h
    split at h
    · cases h
    · exact key h (.inr ⟨_, rfl, fun _ _ => rfl, nofun, .inl rfl⟩)
  case drop => exact key h (.inl ⟨rfl, rfl⟩)
  case nop => exact key h (.inl ⟨rfl, rfl⟩)
  case els =>
    simp only [compOp] at h
    split at h
    · exact key h (.inr ⟨_, rfl, fun f h0 => by simp only [Instr.ren, h0], nofun, .inl rfl⟩)
    · cases h
  case fin =>
    simp only [compOp, closeMaps, compEnd, CS.emit, Option.map_eq_some_iff] at h
    obtain ⟨x, hx, he⟩ := h
    cases he
    split at hx
    · cases hx; exact .inr ⟨_, rfl, fun _ _ => rfl, nofun, .inl rfl⟩
    · split at hx
      · cases hx; exact .inr ⟨_, rfl, fun _ _ => rfl, nofun, .inl rfl⟩
      · cases hx
  case call f =>
    simp only [compOp] at h
    split at h <;> exact key h (.inr ⟨_, rfl, fun _ _ => rfl, nofun, .inl rfl⟩)
  case callIndirect =>
    simp only [compOp] at h
    split at h
    · cases h
    · exact key h (.inr ⟨_, rfl, fun _ _ => rfl, nofun, .inl rfl⟩)
  case brTable ds d =>
    exact key h (.inr ⟨_, rfl, fun f h0 => by simp only [Instr.ren, h0, List.map_map, Function.comp_def], nofun, .inr rfl⟩)
  case br d => exact key h (.inr ⟨_, rfl, fun f h0 => by simp only [Instr.ren, h0], nofun, .inr rfl⟩)
  case brIf d => exact key h (.inr ⟨_, rfl, fun f h0 => by simp only [Instr.ren, h0], nofun, .inl rfl⟩)
  case ite d => exact key h (.inr ⟨_, rfl, fun f h0 => by simp only [Instr.ren, h0], nofun, .inl rfl⟩)
  case ret => exact key h (.inr ⟨_, rfl, fun _ _ => rfl, nofun, .inr rfl⟩)
  case other => simp [compOp] at h
  case unreachable => exact key h (.inr ⟨_, rfl, fun _ _ => rfl, nofun, .inr rfl⟩)
  all_goals exact key h (.inr ⟨_, rfl, fun _ _ => rfl, nofun, .inl rfl⟩)

/-- the whole code has no target filled in -/
def Raw (st : CS) : Prop := ∀ i ∈ st.code, RawI i

theorem compStep_adds {K : FnCtx} {st st' : CS} {o : WOp} {r r' : List WOp} (hs : Model.compStep K st o r = some (st', r')) :
    (st.dead = 0 ∧ Adds st st') ∨ (0 < st.dead ∧ Adds { st with dead := 0 } st') ∨
    (0 < st.dead ∧ 0 < st'.dead ∧ st'.code = st.code ++ [.nop]) := by
  unfold Model.compStep at hs
  split at hs
  · exact .inl ⟨by assumption, compOp_adds hs⟩
  · split at hs
    · cases hs; exact .inr (.inr ⟨by omega, by assumption, rfl⟩)
    · exact .inr (.inl ⟨by omega, compOp_adds hs⟩)

theorem Raw.compStep {K : FnCtx} {st st' : CS} {o : WOp} {r r' : List WOp} (h : Raw st)
    (hs : Model.compStep K st o r = some (st', r')) : Raw st' := by
  have key : st'.code = st.code ∨ ∃ i, st'.code = st.code ++ [i] ∧ RawI i := by
    rcases compStep_adds hs with ⟨_, k | ⟨i, k, h1, _, _⟩⟩ | ⟨_, k | ⟨i, k, h1, _, _⟩⟩ | ⟨_, _, k⟩
    · exact .inl k.1
    · exact .inr ⟨i, k, h1⟩
    · exact .inl k.1
    · exact .inr ⟨i, k, h1⟩
    · exact .inr ⟨.nop, k, fun _ _ => rfl⟩
  rcases key with k | ⟨i, k, hi⟩
  · unfold Raw; rw [k]; exact h
  · intro j hj
    rw [k, List.mem_append, List.mem_singleton] at hj
    rcases hj with hj | rfl
    · exact h j hj
    · exact hi

/-- `nop` is only found behind an instruction that stops, or behind another `nop` -/
structure NoFall (code : List Instr) : Prop where
  first : code[0]? ≠ some .nop
  behind : ∀ x, code[x + 1]? = some .nop → ∃ i, code[x]? = some i ∧ (stops i = true ∨ i = .nop)

/-- `NoFall`, and where unreachable code is being skipped the last instruction stops -/
structure NF (st : CS) : Prop where
  fall : NoFall st.code
  last : 0 < st.dead → ∃ c i, st.code = c ++ [i] ∧ (stops i = true ∨ i = .nop)

theorem NF.init (K : FnCtx) : NF (CS.init K) := ⟨⟨by simp [CS.init], by simp [CS.init]⟩, by simp [CS.init]⟩

theorem NoFall.snoc {code : List Instr} {i : Instr} (h : NoFall code)
    (hi : i = .nop → ∃ c j, code = c ++ [j] ∧ (stops j = true ∨ j = .nop)) : NoFall (code ++ [i]) := by
  refine ⟨?_, fun x hx => ?_⟩
  · cases code with
    | nil =>
      intro h0
      simp only [List.nil_append, List.getElem?_cons_zero, Option.some.injEq] at h0
      obtain ⟨c, j, hc, _⟩ := hi h0
      simp at hc
    | cons a c => exact h.first
  · rcases Nat.lt_trichotomy (x + 1) code.length with hl | hl | hl
    · rw [List.getElem?_append_left hl] at hx
      obtain ⟨j, hj, hs⟩ := h.behind x hx
      exact ⟨j, by rw [List.getElem?_append_left (by omega)]; exact hj, hs⟩
    · rw [List.getElem?_append_right (by omega), show x + 1 - code.length = 0 by omega] at hx
      simp only [List.getElem?_cons_zero, Option.some.injEq] at hx
      obtain ⟨c, j, hc, hs⟩ := hi hx
      refine ⟨j, ?_, hs⟩
      rw [List.getElem?_append_left (by omega), hc, List.getElem?_append_right (by simp [hc] at hl; omega)]
      have : x = c.length := by simp [hc] at hl; omega
      simp [this]
    · rw [List.getElem?_append_right (by omega)] at hx
      have : x + 1 - code.length ≠ 0 := by omega
      obtain ⟨k, hk⟩ := Nat.exists_eq_succ_of_ne_zero this
      rw [hk] at hx
      simp at hx

theorem NF.compStep {K : FnCtx} {st st' : CS} {o : WOp} {r r' : List WOp} (h : NF st)
    (hs : Model.compStep K st o r = some (st', r')) : NF st' := by
  have adds : ∀ s : CS, s.code = st.code → s.dead = 0 → Adds s st' → NF st' := by
    intro s hc hd k
    rcases k with ⟨k1, k2⟩ | ⟨i, k, _, h2, h3⟩
    · exact ⟨by rw [k1, hc]; exact h.fall, by rw [k2, hd]; intro hz; omega⟩
    · refine ⟨by rw [k, hc]; exact h.fall.snoc fun hi => absurd hi h2, fun hz => ?_⟩
      rcases h3 with h3 | h3
      · omega
      · exact ⟨_, i, k, .inl h3⟩
  rcases compStep_adds hs with ⟨h0, k⟩ | ⟨h0, k⟩ | ⟨h0, h1, k⟩
  · exact adds st rfl h0 k
  · exact adds { st with dead := 0 } rfl rfl k
  · exact ⟨by rw [k]; exact h.fall.snoc fun _ => h.last h0, fun _ => ⟨_, _, k, .inr rfl⟩⟩

theorem NF.compRun {K : FnCtx} : ∀ {n : Nat} {st fin : CS} {ops : List WOp}, NF st → Model.compRun K n st ops = some fin → NF fin
  | n, st, fin, [], h, hr => by
    cases n <;>
    · simp only [Model.compRun] at hr
      split at hr
      · cases hr; exact h
      · cases hr
  | 0, st, fin, _ :: _, h, hr => by simp [Model.compRun] at hr
  | n + 1, st, fin, op :: rest, h, hr => by
    simp only [Model.compRun] at hr
    split at hr
    · cases hr
    · exact NF.compRun (n := n) (h.compStep (by assumption)) hr

theorem skip_ins {st : CS} {n : Nat} (hb : Below st.code.length st) (hr : Raw st) (h0 : 0 < st.code.length) :
    skip st n = ins st.code.length n st := by
  have hz : mv st.code.length n 0 = 0 := mv_lt h0
  have hi : insC st.code.length n st.code = st.code ++ List.replicate n .nop := by
    simp only [insC, List.take_length, List.drop_length, List.map_nil, List.append_nil, List.append_cancel_right_eq]
    conv => rhs; rw [← List.map_id st.code]
    exact List.map_congr_left fun i hi => hr i hi _ hz
  have hm : ∀ l : List (Nat × Nat), (∀ x ∈ l, x.1 < st.code.length ∧ x.2 < st.code.length) →
      l = l.map fun x => (mv st.code.length n x.1, mv st.code.length n x.2) := by
    intro l hl
    conv => lhs; rw [← List.map_id l]
    refine List.map_congr_left fun x hx => ?_
    rw [mv_lt (hl x hx).1, mv_lt (hl x hx).2]; rfl
  simp only [skip, ins, CS.mk.injEq, true_and]
  refine ⟨hi.symm, ?_, hm _ hb.ends, hm _ hb.elses⟩
  conv => lhs; rw [← List.map_id st.mapCtl]
  refine List.map_congr_left fun x hx => ?_
  obtain ⟨h1, h2⟩ := hb.mctl x hx
  rw [mv_lt h1]
  obtain ⟨a, b, c⟩ := x
  cases c with
  | none => rfl
  | some e => simp only [Option.map_some, mv_lt (h2 e rfl)]; rfl

/-! ## phases 2 and 3 -/

theorem lookup_mv {p n : Nat} (m : List (Nat × Nat)) (k : Nat) :
    lookup (m.map fun x => (mv p n x.1, mv p n x.2)) (mv p n k) = (lookup m k).map (mv p n) := by
  induction m with
  | nil => rfl
  | cons x m ih =>
    simp only [lookup, List.map_cons, List.find?_cons] at ih ⊢
    by_cases h : x.1 = k
    · subst h; simp
    · have : mv p n x.1 ≠ mv p n k := fun h' => h (mv_inj.1 h')
      rw [show (mv p n x.1 == mv p n k) = false by simpa using this, show (x.1 == k) = false by simpa using h]
      exact ih

/-- control stack with the positions moved -/
def mvStk (p n : Nat) (stk : List (Nat × Bool)) : List (Nat × Bool) := stk.map fun x => (mv p n x.1, x.2)

/-- both maps moved -/
def mvMap (p n : Nat) (m : List (Nat × Nat)) : List (Nat × Nat) := m.map fun x => (mv p n x.1, mv p n x.2)

theorem blockTarget_mv {p n : Nat} (E : List (Nat × Nat)) (b : Nat × Bool) :
    blockTarget (mvMap p n E) (mv p n b.1, b.2) = (blockTarget E b).map (mv p n) := by
  unfold blockTarget mvMap
  split
  · rfl
  · exact lookup_mv E b.1

theorem patch_mv {p n : Nat} (hp : 0 < p) (E L : List (Nat × Nat)) (len : Nat) (stk : List (Nat × Bool)) (i : Instr) :
    patch (mvMap p n E) (mvMap p n L) (mv p n len) (mvStk p n stk) (i.ren (mv p n)) =
      (patch E L len stk i).map (Instr.ren (mv p n)) := by
  have h0 : mv p n 0 = 0 := mv_lt hp
  have t2 : ∀ d, target2 (mvMap p n E) (mv p n len) (mvStk p n stk) d = (target2 E len stk d).map (mv p n) := by
    intro d
    unfold target2 mvStk
    rw [List.getElem?_map]
    cases stk[d]? with
    | none => rfl
    | some b => exact blockTarget_mv E b
  have t3 : ∀ d, target3 (mvMap p n E) (mvStk p n stk) d = mv p n (target3 E stk d) := by
    intro d
    unfold target3 mvStk
    rw [List.getElem?_map]
    cases stk[d]? with
    | none => exact h0.symm
    | some b =>
      simp only [Option.map_some]
      rw [blockTarget_mv]
      cases blockTarget E b with
      | none => exact h0.symm
      | some x => rfl
  cases i <;> simp only [Instr.ren, patch, Option.map_some]
  case br d t s r => rw [t2]; cases target2 E len stk d <;> rfl
  case brIf d t c s r => rw [t2]; cases target2 E len stk d <;> rfl
  case jump t =>
    simp only [mvStk, List.getElem?_map]
    cases stk[0]? with
    | none => rfl
    | some b =>
      simp only [Option.map_some]
      rw [blockTarget_mv]
      cases blockTarget E b <;> rfl
  case ite c e h =>
    simp only [mvStk, List.getElem?_map]
    cases stk[0]? with
    | none => rfl
    | some b =>
      simp only [Option.map_some]
      rw [blockTarget_mv]
      cases hb : blockTarget E b with
      | none => rfl
      | some x =>
        simp only [Option.map_some, Option.some.injEq, Instr.ren]
        have : lookup (mvMap p n L) (mv p n b.1) = (lookup L b.1).map (mv p n) := lookup_mv L b.1
        rw [this]
        cases lookup L b.1 with
        | none => simp
        | some y => simp [mv_inj]
  case brTable ts d i s =>
    simp only [t3, List.map_map, Function.comp_def]

theorem scanStep_mv {p n : Nat} (stk : List (Nat × Bool)) (pc : Nat) (i : Instr) :
    scanStep (mvStk p n stk) (mv p n pc) (i.ren (mv p n)) = mvStk p n (scanStep stk pc i) := by
  cases i <;> simp [scanStep, Instr.ren, mvStk]

/-- a stretch of code that does not contain the insertion point -/
theorem patchFrom_mv {p n : Nat} (hp : 0 < p) (E L : List (Nat × Nat)) (len : Nat) : ∀ (is : List Instr) (pc pc' : Nat)
    (stk : List (Nat × Bool)), (∀ k, k < is.length → mv p n (pc + k) = pc' + k) →
    patchFrom (mvMap p n E) (mvMap p n L) (mv p n len) pc' (mvStk p n stk) (is.map (Instr.ren (mv p n))) =
      (patchFrom E L len pc stk is).map (List.map (Instr.ren (mv p n)))
  | [], _, _, _, _ => rfl
  | i :: is, pc, pc', stk, h => by
    have e : pc' = mv p n pc := by have := h 0 (by simp); simpa using this.symm
    simp only [List.map_cons, patchFrom]
    subst e
    rw [scanStep_mv, patch_mv hp, patchFrom_mv hp E L len is (pc + 1) _ _ (fun k hk => by
      have := h (k + 1) (by simp only [List.length_cons]; omega)
      rw [Nat.add_assoc, Nat.add_comm 1 k, this]; omega)]
    cases patch E L len (scanStep stk pc i) i with
    | none => rfl
    | some j => cases patchFrom E L len (pc + 1) (scanStep stk pc i) is <;> rfl

theorem patchFrom_append {E L : List (Nat × Nat)} {len : Nat} : ∀ (a b : List Instr) (pc : Nat) (stk : List (Nat × Bool)),
    patchFrom E L len pc stk (a ++ b) = (patchFrom E L len pc stk a).bind fun x =>
      (patchFrom E L len (pc + a.length) (scanL pc stk a) b).map (x ++ ·)
  | [], b, pc, stk => by
    simp only [List.nil_append, patchFrom, Option.bind_some, List.length_nil, Nat.add_zero, scanL]
    cases patchFrom E L len pc stk b <;> simp
  | i :: a, b, pc, stk => by
    simp only [List.cons_append, patchFrom, List.length_cons, scanL]
    rw [patchFrom_append a b, show pc + (a.length + 1) = pc + 1 + a.length by omega]
    cases patch E L len (scanStep stk pc i) i with
    | none => rfl
    | some j =>
      cases patchFrom E L len (pc + 1) (scanStep stk pc i) a with
      | none => rfl
      | some x => cases patchFrom E L len (pc + 1 + a.length) (scanL (pc + 1) (scanStep stk pc i) a) b <;> rfl

theorem patchFrom_nops {E L : List (Nat × Nat)} {len : Nat} : ∀ (n pc : Nat) (stk : List (Nat × Bool)),
    patchFrom E L len pc stk (List.replicate n .nop) = some (List.replicate n .nop) ∧
    scanL pc stk (List.replicate n .nop) = stk
  | 0, _, _ => ⟨rfl, rfl⟩
  | n + 1, pc, stk => by
    obtain ⟨h1, h2⟩ := patchFrom_nops (E := E) (L := L) (len := len) n (pc + 1) stk
    simp only [List.replicate_succ, patchFrom, scanStep, patch, scanL, h1, h2]
    exact ⟨trivial, trivial⟩

theorem scanL_mv {p n : Nat} : ∀ (is : List Instr) (pc pc' : Nat) (stk : List (Nat × Bool)),
    (∀ k, k < is.length → mv p n (pc + k) = pc' + k) →
    scanL pc' (mvStk p n stk) (is.map (Instr.ren (mv p n))) = mvStk p n (scanL pc stk is)
  | [], _, _, _, _ => rfl
  | i :: is, pc, pc', stk, h => by
    have e : pc' = mv p n pc := by have := h 0 (by simp); simpa using this.symm
    simp only [List.map_cons, scanL]
    subst e
    rw [scanStep_mv, scanL_mv is (pc + 1) _ _ (fun k hk => by
      have := h (k + 1) (by simp only [List.length_cons]; omega)
      rw [Nat.add_assoc, Nat.add_comm 1 k, this]; omega)]

theorem patchFrom_len {E L : List (Nat × Nat)} {len : Nat} : ∀ (a : List Instr) (pc : Nat) (stk : List (Nat × Bool)) (x : List Instr),
    patchFrom E L len pc stk a = some x → x.length = a.length
  | [], _, _, x, h => by simp only [patchFrom, Option.some.injEq] at h; subst h; rfl
  | i :: a, pc, stk, x, h => by
    simp only [patchFrom] at h
    split at h
    · rename_i j js h1 h2
      simp only [Option.some.injEq] at h
      subst h
      simp only [List.length_cons, patchFrom_len a _ _ js h2]
    · cases h

/-- phases 2 and 3 on a code with `nop`s inserted -/
theorem patchFrom_ins {p n : Nat} (hp : 0 < p) (E L : List (Nat × Nat)) {code : List Instr} (hl : p ≤ code.length) :
    patchFrom (mvMap p n E) (mvMap p n L) (insC p n code).length 0 [] (insC p n code) =
      (patchFrom E L code.length 0 [] code).map (insC p n) := by
  rw [insC_length hl]
  have hc : code = code.take p ++ code.drop p := (List.take_append_drop p code).symm
  have htl : (code.take p).length = p := by simp only [List.length_take]; omega
  conv => rhs; rw [hc]
  rw [patchFrom_append, insC, List.append_assoc, patchFrom_append]
  have e1 := patchFrom_mv (n := n) hp E L code.length (code.take p) 0 0 [] (fun k hk => by rw [mv_lt (by omega)])
  have e2 := scanL_mv (n := n) (code.take p) 0 0 [] (fun k hk => by rw [mv_lt (show 0 + k < p by omega)])
  have n0 : mvStk p n [] = [] := rfl
  rw [n0] at e1 e2
  rw [← hc, e1, e2]
  cases h1 : patchFrom E L code.length 0 [] (code.take p) with
  | none => rfl
  | some x =>
    simp only [Option.map_some, Option.bind_some, List.length_map, htl, Nat.zero_add]
    rw [patchFrom_append, (patchFrom_nops _ _ _).1, (patchFrom_nops (E := E) (L := L) (len := 0) _ _ _).2]
    simp only [Option.bind_some, List.length_replicate]
    rw [patchFrom_mv hp E L code.length (code.drop p) p (p + n) _ (fun k hk => by rw [mv_ge (by omega)]; omega)]
    cases h2 : patchFrom E L code.length p (scanL 0 [] (List.take p code)) (List.drop p code) with
    | none => rfl
    | some y =>
      have hx := patchFrom_len _ _ _ _ h1
      rw [htl] at hx
      simp only [Option.map_some, Option.some.injEq, insC]
      rw [List.take_append_of_le_length (by omega), List.drop_append_of_le_length (by omega), List.take_of_length_le (by omega),
        List.drop_of_length_le (by omega), List.nil_append, List.append_assoc]

theorem patch_stops {E L : List (Nat × Nat)} {len : Nat} {stk : List (Nat × Bool)} {i j : Instr} (h : patch E L len stk i = some j) :
    (j = .nop ↔ i = .nop) ∧ stops j = stops i := by
  cases i <;> simp only [patch, Option.some.injEq, Option.map_eq_some_iff] at h
  case ite =>
    split at h
    · cases h; exact ⟨by simp, rfl⟩
    · simp only [Option.map_eq_some_iff] at h
      obtain ⟨_, _, rfl⟩ := h; exact ⟨by simp, rfl⟩
  case jump =>
    split at h
    · cases h; exact ⟨by simp, rfl⟩
    · simp only [Option.map_eq_some_iff] at h
      obtain ⟨_, _, rfl⟩ := h; exact ⟨by simp, rfl⟩
  case br => obtain ⟨_, _, rfl⟩ := h; exact ⟨by simp, rfl⟩
  case brIf => obtain ⟨_, _, rfl⟩ := h; exact ⟨by simp, rfl⟩
  all_goals subst h; exact ⟨by simp, rfl⟩

theorem patchFrom_kind {E L : List (Nat × Nat)} {len : Nat} : ∀ (a : List Instr) (pc : Nat) (stk : List (Nat × Bool)) (b : List Instr),
    patchFrom E L len pc stk a = some b → ∀ (k : Nat), (a[k]? = none ∧ b[k]? = none) ∨
      ∃ i j, a[k]? = some i ∧ b[k]? = some j ∧ (j = .nop ↔ i = .nop) ∧ stops j = stops i
  | [], _, _, b, h, k => by simp only [patchFrom, Option.some.injEq] at h; subst h; simp
  | i :: a, pc, stk, b, h, k => by
    simp only [patchFrom] at h
    split at h
    · rename_i j js h1 h2
      simp only [Option.some.injEq] at h
      subst h
      cases k with
      | zero => exact .inr ⟨i, j, rfl, rfl, patch_stops h1⟩
      | succ k => exact patchFrom_kind a _ _ js h2 k
    · cases h

/-- **no instruction that may fall through is followed by a `nop`**, in any preprocessed body -/
theorem compile_noFall {K : FnCtx} {ops : List WOp} {code : Code} (h : compileFn K ops = some code) : NoFall code.body := by
  unfold compileFn at h
  split at h
  · cases h
  · rename_i st hs
    split at h
    · cases h
    · rename_i body hb
      cases h
      have hn := (NF.init K).compRun hs
      have hg := patchFrom_kind _ _ _ _ hb
      refine ⟨fun h0 => ?_, fun x hx => ?_⟩
      · rcases hg 0 with ⟨_, h2⟩ | ⟨i, j, h1, h2, h3, _⟩
        · simp only at h0; rw [h2] at h0; cases h0
        · simp only at h0
          rw [h2] at h0
          cases h0
          exact hn.fall.first (by rw [h1, h3.1 rfl])
      · simp only at hx ⊢
        rcases hg (x + 1) with ⟨_, h2⟩ | ⟨i, j, h1, h2, h3, _⟩
        · rw [h2] at hx; cases hx
        · rw [h2] at hx
          cases hx
          obtain ⟨i', hi', hs'⟩ := hn.fall.behind x (by rw [h1, h3.1 rfl])
          rcases hg x with ⟨k1, _⟩ | ⟨i2, j2, k1, k2, k3, k4⟩
          · rw [k1] at hi'; cases hi'
          · rw [k1] at hi'
            cases hi'
            exact ⟨j2, k2, by rw [k4, k3]; exact hs'⟩

theorem compRun_grows {K : FnCtx} : ∀ {n : Nat} {st fin : CS} {ops : List WOp}, Model.compRun K n st ops = some fin →
    st.code.length ≤ fin.code.length
  | n, st, fin, [], hr => by
    cases n <;>
    · simp only [Model.compRun] at hr
      split at hr
      · cases hr; exact Nat.le_refl _
      · cases hr
  | 0, st, fin, _ :: _, hr => by simp [Model.compRun] at hr
  | n + 1, st, fin, op :: rest, hr => by
    simp only [Model.compRun] at hr
    split at hr
    · cases hr
    · rename_i st' r' hs
      refine Nat.le_trans ?_ (compRun_grows (n := n) hr)
      rcases compStep_adds hs with ⟨_, k | ⟨i, k, _⟩⟩ | ⟨_, k | ⟨i, k, _⟩⟩ | ⟨_, _, k⟩
      · rw [k.1]; exact Nat.le_refl _
      · rw [k]; simp
      · rw [k.1]; exact Nat.le_refl _
      · rw [k]; simp
      · rw [k]; simp

/-- the effect of unreachable code on a whole compilation: `nop`s inserted at one place -/
theorem compile_dead {K : FnCtx} {pre suf : List WOp} {t : WOp} (ht : isTerm t = true) :
    ∃ p, 0 < p ∧ ∀ w : WSeq, w.Proper → compileFn K (pre ++ t :: (w.flat ++ suf)) =
      (compileFn K (pre ++ t :: suf)).map (fun c => { c with body := insC p w.flat.length c.body }) ∧
      ∀ c, compileFn K (pre ++ t :: suf) = some c → p ≤ c.body.length := by
  obtain ⟨o, ho, hx⟩ := comp_prefix (K := K) ht (I := Raw) Raw.compStep pre.length pre (CS.init K) (Nat.le_refl _) (Nst.init K) (by simp [Raw, CS.init])
  cases o with
  | none =>
    refine ⟨1, by omega, fun w _ => ?_⟩
    have e : ∀ x, compileFn K (pre ++ t :: x) = none := by
      intro x
      have := hx x
      unfold compAll at this
      unfold compileFn
      rw [this]; rfl
    rw [e, e]
    exact ⟨rfl, by intro c hc; cases hc⟩
  | some s =>
    obtain ⟨h1, h2, h3, hraw⟩ := ho s rfl
    refine ⟨s.code.length, h3, fun w hw => ?_⟩
    have e : ∀ x, compileFn K (pre ++ t :: x) = (compAll K s x).bind fun st =>
        (patchFrom st.ends st.elses st.code.length 0 [] st.code).map fun body =>
          { locals := K.locals, body := body, alloc := some st.alloc.finalize } := by
      intro x
      have := hx x
      unfold compAll at this
      unfold compileFn
      rw [this]
      simp only [Option.bind_some, compAll]
      cases compRun K x.length s x with
      | none => rfl
      | some st => simp only [Option.bind_some]; cases patchFrom st.ends st.elses st.code.length 0 [] st.code <;> rfl
    rw [e, e, compAll_dead w suf s hw h1, skip_ins h2 hraw h3, compAll_ins h3 suf.length suf s (Nat.le_refl _) (Nat.le_refl _)]
    cases hc : compAll K s suf with
    | none => exact ⟨rfl, by intro c hc; cases hc⟩
    | some st =>
      have hg : s.code.length ≤ st.code.length := compRun_grows hc
      simp only [Option.map_some, Option.bind_some]
      have := patchFrom_ins (n := w.flat.length) h3 st.ends st.elses hg
      simp only [mvMap] at this
      simp only [ins]
      rw [this]
      cases hp : patchFrom st.ends st.elses st.code.length 0 [] st.code with
      | none => exact ⟨rfl, by intro c hc; cases hc⟩
      | some b =>
        refine ⟨rfl, fun c hc => ?_⟩
        simp only [Option.map_some, Option.some.injEq] at hc
        subst hc
        simp only [patchFrom_len _ _ _ _ hp]; exact hg

end Verif.Lemmas
