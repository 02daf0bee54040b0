import Verif.Spec.Handlers
/-
Handlers: the preprocessor only builds instructions that its own handler runs.
-/
namespace Verif.Lemmas
open Verif.Model
open Verif.Spec (isOperator)

theorem asOpnd_asDst (c : Cls) (d : Dst) : (d.asOpnd c).asDst = some d := by cases d <;> rfl

theorem emitUn_runs {op : Op1} {d : Dst} {a : Opnd op.src} {r : Raw} (h : emitUn op d a = some r) :
    (selectHandler r).body.exec r = some (.op1 op d a) := by
  revert h
  cases op
  case int s o => cases s <;> cases o <;> intro h <;> first | (cases h; cases d <;> rfl) | cases h
  case eqz s => cases s <;> intro h <;> (cases h; cases d <;> rfl)
  case abs s => cases s <;> intro h <;> (cases h; cases d <;> rfl)
  case neg s => cases s <;> intro h <;> (cases h; cases d <;> rfl)
  case round s o => cases s <;> cases o <;> intro h <;> (cases h; cases d <;> rfl)
  case trunc o => cases o <;> cases a <;> intro h <;> first | (cases h; rfl) | cases h
  case truncSat o => cases o <;> cases a <;> intro h <;> first | (cases h; rfl) | cases h
  case convert x y z => cases x <;> cases y <;> cases z <;> cases a <;> intro h <;> first | (cases h; rfl) | cases h
  case reinterpIF s => cases s <;> cases a <;> intro h <;> first | (cases h; rfl) | cases h
  case reinterpFI s => cases s <;> cases a <;> intro h <;> first | (cases h; rfl) | cases h
  all_goals cases a <;> intro h <;> first | (cases h; rfl) | cases h

theorem emitBin_runs (op : Op2) (d : Dst) (a b : Opnd op.src) :
    (selectHandler (emitBin op d a b)).body.exec (emitBin op d a b) = some (.op2 op d a b) := by
  cases op
  case int s o => cases s <;> cases o <;> cases d <;> rfl
  case rel s o => cases s <;> cases o <;> cases d <;> rfl
  case arith s o => cases s <;> cases o <;> cases d <;> rfl
  case frel s o => cases s <;> cases o <;> cases d <;> rfl
  all_goals rename_i s; cases s <;> cases d <;> rfl

theorem handler_runs {k : Copy} {i : Instr} {r : Raw} (h : emitted k i = some r) :
    (selectHandler r).body.exec r = some i := by
  revert h
  cases i
  case op1 op d a =>
    cases op
    case mov c =>
      cases c <;> cases k <;> intro h <;> first | (cases h; cases d <;> rfl) | cases h
    all_goals exact fun h => emitUn_runs h
  case op2 op d a b => intro h; cases h; exact emitBin_runs op d a b
  case load op d a off => intro h; cases h; cases op <;> rfl
  case store op a v off => intro h; cases h; cases op <;> rfl
  case select c d v1 v2 x => cases c <;> intro h <;> first | (cases h; rfl) | cases h
  case globalGet c d g => cases c <;> intro h <;> first | (cases h; rfl) | cases h
  case globalSet c d g => cases c <;> intro h <;> first | (cases h; rfl) | cases h
  all_goals intro h; cases h; rfl

/-- the preprocessor builds it -/
def Encodable (i : Instr) : Prop := ∃ k r, emitted k i = some r

theorem enc_un {op : Op1} {d : Dst} {a : Opnd op.src} (hm : ∀ c, op ≠ .mov c) (ho : isOperator (.un op) = true)
    (ha : takesPending op = true ∨ ∃ i, a = .reg i) : Encodable (.op1 op d a) := by
  cases op
  case mov c => exact absurd rfl (hm c)
  case int s o => cases s <;> cases o <;> first | exact ⟨.get, _, rfl⟩ | cases ho
  case eqz s => cases s <;> exact ⟨.get, _, rfl⟩
  case abs s => cases s <;> exact ⟨.get, _, rfl⟩
  case neg s => cases s <;> exact ⟨.get, _, rfl⟩
  case round s o => cases s <;> cases o <;> exact ⟨.get, _, rfl⟩
  case trunc o => rcases ha with h | ⟨i, rfl⟩; · cases h
                  cases o <;> exact ⟨.get, _, rfl⟩
  case truncSat o => rcases ha with h | ⟨i, rfl⟩; · cases h
                     cases o <;> exact ⟨.get, _, rfl⟩
  case convert x y z => rcases ha with h | ⟨i, rfl⟩; · cases h
                        cases x <;> cases y <;> cases z <;> exact ⟨.get, _, rfl⟩
  case reinterpIF s => rcases ha with h | ⟨i, rfl⟩; · cases h
                       cases s <;> exact ⟨.get, _, rfl⟩
  case reinterpFI s => rcases ha with h | ⟨i, rfl⟩; · cases h
                       cases s <;> exact ⟨.get, _, rfl⟩
  all_goals rcases ha with h | ⟨i, rfl⟩; · cases h
            exact ⟨.get, _, rfl⟩

theorem enc_select {c : Cls} (h : selectBankT x = some c ∨ selectBank x = some c) {d v w y : Nat} : Encodable (.select c d v w y) := by
  cases x <;> simp [selectBankT, selectBank] at h <;> subst h <;> exact ⟨.get, _, rfl⟩

/-- everything emitted so far can be built -/
def Good (st : CS) : Prop := ∀ i ∈ st.code, Encodable i

theorem Good.app {st st' : CS} {i : Instr} (h : Good st) (hc : st'.code = st.code ++ [i]) (hi : Encodable i) : Good st' := by
  intro j hj
  rw [hc] at hj
  rcases List.mem_append.1 hj with hj | hj
  · exact h j hj
  · rw [List.mem_singleton] at hj; subst hj; exact hi

theorem finish_good {K : FnCtx} {st : CS} {a : Alloc} {c : Cls} {f : Bool} {mk : Dst → Instr} {rest : List WOp} (h : Good st)
    (hm : ∀ d, Encodable (mk d)) : Good (finish K st a c f mk rest).1 ∧ ∃ p, rest = p ++ (finish K st a c f mk rest).2 := by
  unfold finish
  split
  · refine ⟨h.app rfl (hm _), ?_⟩
    cases rest with
    | nil => exact ⟨[], rfl⟩
    | cons x r => exact ⟨[x], rfl⟩
  · exact ⟨h.app rfl (hm _), [], rfl⟩

theorem compOp_good {K : FnCtx} {st : CS} {op : WOp} {rest : List WOp} {x : CS × List WOp} (h : Good st)
    (ho : isOperator op = true) (hc : compOp K st op rest = some x) : Good x.1 ∧ ∃ p, rest = p ++ x.2 := by
  have get : ∀ {c : Cls} {d : Dst} {a : Opnd c}, c ≠ .ref → c ≠ .v128 → Encodable (.op1 (.mov c) d a) := by
    intro c d a h1 h2
    cases c <;> first | exact ⟨.get, _, rfl⟩ | contradiction
  cases op
  case localGet i =>
    simp only [compOp, Option.map_eq_some_iff] at hc
    obtain ⟨st', hc, rfl⟩ := hc
    refine ⟨?_, [], rfl⟩
    unfold compLocalGet at hc
    dsimp only at hc
    split at hc
    · cases hc; exact h.app rfl ⟨.get, _, rfl⟩
    · cases hc
    · rename_i h1 h2
      split at hc
      · cases hc; exact h
      · cases hc; exact h.app rfl (get h1 h2)
  case localSet i =>
    simp only [compOp, Option.map_eq_some_iff] at hc
    obtain ⟨st', hc, rfl⟩ := hc
    refine ⟨?_, [], rfl⟩
    unfold storeLocal at hc
    split at hc
    · cases hc; exact h.app rfl ⟨.get, _, rfl⟩
    · cases hc
    · rename_i h1 h2; cases hc; exact h.app rfl (get h1 h2)
  case localTee i =>
    simp only [compOp] at hc
    split at hc
    · cases hc
    simp only [Option.map_eq_some_iff] at hc
    obtain ⟨st', hc, rfl⟩ := hc
    refine ⟨?_, [], rfl⟩
    unfold storeLocal at hc
    split at hc
    · cases hc; exact h.app rfl ⟨.get, _, rfl⟩
    · cases hc
    · rename_i h1 h2; cases hc; exact h.app rfl (get h1 h2)
  case globalGet g =>
    simp only [compOp] at hc
    split at hc
    · cases hc
    · rename_i c hs
      cases hc
      refine finish_good h fun d => ?_
      generalize K.M.globalType g = y at hs
      cases y <;> simp [selectBank] at hs <;> subst hs <;> exact ⟨.get, _, rfl⟩
  case globalSet g =>
    simp only [compOp] at hc
    split at hc
    · cases hc
    · rename_i c hs
      cases hc
      refine ⟨h.app rfl ?_, [], rfl⟩
      generalize K.M.globalType g = y at hs
      cases y <;> simp [selectBank] at hs <;> subst hs <;> exact ⟨.get, _, rfl⟩
  case const c v =>
    simp only [compOp, Option.map_eq_some_iff] at hc
    obtain ⟨st', hc, rfl⟩ := hc
    refine ⟨?_, [], rfl⟩
    unfold compConst at hc
    split at hc
    · cases hc
    · rename_i hn
      simp only [not_or] at hn
      split at hc
      · cases hc; exact h
      · cases hc; exact h.app rfl (get hn.1 hn.2)
  case un op =>
    have hm : ∀ c, op ≠ .mov c := by rintro c rfl; simp [compOp] at hc
    have hc' : (if takesPending op then
        some (finish K { st with pend := (take st.pend op.src (st.alloc.pop op.src).1.idx).2 } (st.alloc.pop op.src).2 op.dst (un_folds op)
          (fun d => .op1 op d (take st.pend op.src (st.alloc.pop op.src).1.idx).1) rest)
        else some (finish K st (st.alloc.pop op.src).2 op.dst true (fun d => .op1 op d (.reg (st.alloc.pop op.src).1.idx)) rest)) = some x := by
      rw [← hc]
      cases op <;> first | rfl | exact absurd rfl (hm _)
    split at hc'
    · rename_i ht; cases hc'; exact finish_good h fun d => enc_un hm ho (.inl ht)
    · cases hc'; exact finish_good h fun d => enc_un hm ho (.inr ⟨_, rfl⟩)
  case bin op => cases hc; exact finish_good h fun d => ⟨.get, _, rfl⟩
  case load op off => cases hc; exact finish_good h fun d => ⟨.get, _, rfl⟩
  case selectT c =>
    simp only [compOp] at hc
    split at hc
    · cases hc
    · rename_i b hb; cases hc; exact ⟨h.app rfl (enc_select (.inl hb)), [], rfl⟩
  case select =>
    simp only [compOp] at hc
    split at hc
    · cases hc
    · rename_i b hb; cases hc; exact ⟨h.app rfl (enc_select (.inr hb)), [], rfl⟩
  case els =>
    simp only [compOp] at hc
    split at hc
    · cases hc; exact ⟨h.app rfl ⟨.get, _, rfl⟩, [], rfl⟩
    · cases hc
  case fin =>
    simp only [compOp, Option.map_eq_some_iff] at hc
    obtain ⟨st', hc, rfl⟩ := hc
    refine ⟨?_, [], rfl⟩
    have : st'.code = (compEnd K st).code := by
      unfold closeMaps at hc
      split at hc
      · cases hc; rfl
      · split at hc <;> cases hc; rfl
    exact h.app this ⟨.get, _, rfl⟩
  case call f =>
    simp only [compOp] at hc
    split at hc <;> (cases hc; exact ⟨h.app rfl ⟨.get, _, rfl⟩, [], rfl⟩)
  case callIndirect ty t =>
    simp only [compOp] at hc
    split at hc
    · cases hc
    · cases hc; exact ⟨h.app rfl ⟨.get, _, rfl⟩, [], rfl⟩
  case drop => cases hc; exact ⟨h, [], rfl⟩
  case nop => cases hc; exact ⟨h, [], rfl⟩
  case other => cases hc
  all_goals cases hc; exact ⟨h.app rfl ⟨.get, _, rfl⟩, [], rfl⟩

theorem compStep_good {K : FnCtx} {st : CS} {op : WOp} {rest : List WOp} {x : CS × List WOp} (h : Good st)
    (ho : isOperator op = true) (hc : compStep K st op rest = some x) : Good x.1 ∧ ∃ p, rest = p ++ x.2 := by
  unfold compStep at hc
  split at hc
  · exact compOp_good h ho hc
  · split at hc
    · cases hc; exact ⟨h.app rfl ⟨.get, _, rfl⟩, [], rfl⟩
    · exact compOp_good (st := { st with dead := 0 }) h ho hc

theorem compRun_good {K : FnCtx} : ∀ (n : Nat) {st st' : CS} {ops : List WOp}, Good st → (∀ o ∈ ops, isOperator o = true) →
    compRun K n st ops = some st' → Good st'
  | n, st, st', [], h, _, hc => by
    cases n <;> (simp only [compRun] at hc; split at hc <;> cases hc; exact h)
  | 0, st, st', _ :: _, _, _, hc => by simp [compRun] at hc
  | n + 1, st, st', op :: rest, h, ho, hc => by
    simp only [compRun] at hc
    split at hc
    · cases hc
    · rename_i y r hy
      obtain ⟨h1, p, rfl⟩ := compStep_good h (ho op (by simp)) hy
      exact compRun_good n h1 (fun o hm => ho o (by simp at hm ⊢; exact .inr (.inr hm))) hc

theorem patch_good {e l : List (Nat × Nat)} {n : Nat} {s : List (Nat × Bool)} {i j : Instr} (h : Encodable i)
    (hp : patch e l n s i = some j) : Encodable j := by
  cases i
  case br => simp only [patch, Option.map_eq_some_iff] at hp; obtain ⟨_, _, rfl⟩ := hp; exact ⟨.get, _, rfl⟩
  case brIf => simp only [patch, Option.map_eq_some_iff] at hp; obtain ⟨_, _, rfl⟩ := hp; exact ⟨.get, _, rfl⟩
  case ite =>
    simp only [patch] at hp
    split at hp
    · cases hp; exact h
    · simp only [Option.map_eq_some_iff] at hp; obtain ⟨_, _, rfl⟩ := hp; exact ⟨.get, _, rfl⟩
  case jump =>
    simp only [patch] at hp
    split at hp
    · cases hp; exact h
    · simp only [Option.map_eq_some_iff] at hp; obtain ⟨_, _, rfl⟩ := hp; exact ⟨.get, _, rfl⟩
  case brTable => cases hp; exact ⟨.get, _, rfl⟩
  all_goals cases hp; exact h

theorem patchFrom_good {e l : List (Nat × Nat)} {n : Nat} : ∀ {is js : List Instr} {pc : Nat} {s : List (Nat × Bool)},
    (∀ i ∈ is, Encodable i) → patchFrom e l n pc s is = some js → ∀ j ∈ js, Encodable j
  | [], js, pc, s, _, h => by cases h; simp
  | i :: is, js, pc, s, hi, h => by
    simp only [patchFrom] at h
    split at h
    · rename_i x y h1 h2
      cases h
      intro j hj
      rcases List.mem_cons.1 hj with rfl | hj
      · exact patch_good (hi i (by simp)) h1
      · exact patchFrom_good (fun i hm => hi i (by simp [hm])) h2 j hj
    · cases h

theorem compiled_encodable {K : FnCtx} {ops : List WOp} {f : Code} (h : compileFn K ops = some f)
    (ho : ∀ o ∈ ops, isOperator o = true) : ∀ i ∈ f.body, Encodable i := by
  unfold compileFn at h
  split at h
  · cases h
  · rename_i st hs
    split at h
    · cases h
    · rename_i b hb
      cases h
      exact patchFrom_good (compRun_good _ (by intro i hi; cases hi) ho hs) hb


end Verif.Lemmas
