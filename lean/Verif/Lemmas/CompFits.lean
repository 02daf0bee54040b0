import Verif.Spec.Movable
import Verif.Spec.Effects
import Verif.Spec.Neutral
import Verif.Lemmas.DeadCode
import Verif.Lemmas.Tables
import Verif.Lemmas.DeadRaw
import Verif.Lemmas.Bincode
/-
What the preprocessor puts into the code: registers that travel into call frames have 16 bit indices, and the instructions
that change tables or data segments come only from the operators that do.
-/
namespace Verif.Lemmas
open Verif.Model Verif.Spec

/-- registers an instruction can leave in a call frame -/
def stored : Instr → List Reg
  | .call _ _ rs => rs
  | .callIndirect _ _ _ _ rs => rs
  | .ret rs => rs
  | .fin src _ => src
  | _ => []

/-- how much of its instance an instruction uses: 0 nothing, 1 memory through the raw pointer, 2 more -/
def iNeeds : Instr → Nat
  | .load _ _ _ _ | .store _ _ _ _ => 1
  | .memSize _ | .memGrow _ _ | .memCopy _ _ _ | .memInit _ _ _ _ | .memFill _ _ _ | .globalGet _ _ _ | .globalSet _ _ _
  | .dataDrop _ | .tableGet _ _ _ | .tableSet _ _ _ | .tableFill _ _ _ _ | .callWasi _ _ _ | .callIndirect _ _ _ _ _
  | .call _ _ _ => 2
  | _ => 0

/-- how much of its module an operator uses, apart from block types -/
def oNeeds : WOp → Nat
  | .load _ _ | .store _ _ => 1
  | .memSize | .memGrow | .memCopy | .memInit _ | .memFill | .globalGet _ | .globalSet _ | .dataDrop _ | .tableGet _ | .tableSet _
  | .tableFill _ | .call _ | .callIndirect _ _ => 2
  | _ => 0

structure Came (o : WOp) (i : Instr) : Prop where
  needs : iNeeds i ≤ oNeeds o
  fits : ∀ r ∈ stored i, r.idx < 2 ^ 16
  kept : o.unsaved = false → i.unsaved = false
  does : i.writes = [] ∨ i.writes = o.writes
  chooses : i.choosy = true → o.choosy = true

/-- the instructions added satisfy `Came` -/
def AddsC (o : WOp) (a b : CS) : Prop := b.code = a.code ∨ ∃ i, b.code = a.code ++ [i] ∧ Came o i

theorem Came.plain {o : WOp} {i : Instr} (h : stored i = []) (h2 : i.unsaved = false)
    (h3 : i.writes = [] ∨ i.writes = o.writes := by exact .inl rfl)
    (h4 : iNeeds i ≤ oNeeds o := by first | exact Nat.zero_le _ | exact Nat.le_refl _)
    (h5 : i.choosy = true → o.choosy = true := by first | exact fun h => h | nofun) : Came o i :=
  ⟨h4, by rw [h]; nofun, fun _ => h2, h3, h5⟩

theorem mkReg_idx (c : Cls) (d : Nat) : (Alloc.mkReg c d).idx < 2 ^ 16 := Nat.mod_lt _ (by decide)

theorem seqRegs_idx : ∀ (ts : List Cls) (f : Cls → Nat), ∀ r ∈ Alloc.seqRegs f ts, r.idx < 2 ^ 16
  | [], _, _, h => by cases h
  | c :: cs, f, r, h => by
    rw [Alloc.seqRegs] at h
    rcases List.mem_cons.mp h with rfl | h
    · exact mkReg_idx _ _
    · exact seqRegs_idx cs _ r h

theorem pushAll_idx : ∀ (ts : List Cls) (a : Alloc), ∀ r ∈ (pushAll a ts).1, r.idx < 2 ^ 16
  | [], _, _, h => by cases h
  | c :: cs, a, r, h => by
    rw [pushAll] at h
    rcases List.mem_cons.mp h with rfl | h
    · exact mkReg_idx _ _
    · exact pushAll_idx cs _ r h

theorem finish_addsC {o : WOp} {K : FnCtx} {st : CS} {a : Alloc} {c : Cls} {fold : Bool} {mk : Dst → Instr} {r : List WOp}
    (hm : ∀ d, Came o (mk d)) : AddsC o st (finish K st a c fold mk r).1 := by
  unfold finish
  split <;> exact .inr ⟨_, rfl, hm _⟩

theorem storeLocal_addsC {o : WOp} {st st' : CS} {c : Cls} {src i : Nat} (h : storeLocal st c src i = some st') : AddsC o st st' := by
  cases c <;> simp only [storeLocal, Option.some.injEq, reduceCtorEq] at h <;> subst h <;> exact .inr ⟨_, rfl, .plain rfl rfl⟩

theorem compOp_addsC {K : FnCtx} {st st' : CS} {o : WOp} {r r' : List WOp} (h : compOp K st o r = some (st', r')) : AddsC o st st' := by
  have key : ∀ {x : CS × List WOp}, some x = some (st', r') → AddsC o st x.1 → AddsC o st st' := by
    intro x hx hp; cases hx; exact hp
  cases o
  case localGet i =>
    simp only [compOp, compLocalGet] at h
    cases hc : K.localType i <;> rw [hc] at h <;> simp only [Option.map_some, Option.map_none, reduceCtorEq] at h
    case ref => exact key h (.inr ⟨_, rfl, .plain rfl rfl⟩)
    all_goals
      split at h
      · exact key h (.inl rfl)
      · exact key h (.inr ⟨_, rfl, .plain rfl rfl⟩)
  case localSet i =>
    simp only [compOp, Option.map_eq_some_iff] at h
    obtain ⟨x, hx, he⟩ := h
    cases he
    have := storeLocal_addsC (o := .localSet i) hx
    exact this
  case localTee i =>
    simp only [compOp] at h
    split at h
    · cases h
    · simp only [Option.map_eq_some_iff] at h
      obtain ⟨x, hx, he⟩ := h
      cases he
      exact storeLocal_addsC hx
  case globalGet g =>
    simp only [compOp] at h
    split at h
    · cases h
    · exact key h (finish_addsC fun _ => .plain rfl rfl)
  case globalSet g =>
    simp only [compOp] at h
    split at h
    · cases h
    · exact key h (.inr ⟨_, rfl, .plain rfl rfl (.inr rfl)⟩)
  case const c v =>
    simp only [compOp, compConst, Option.map_eq_some_iff] at h
    obtain ⟨x, hx, he⟩ := h
    cases he
    split at hx
    · cases hx
    · split at hx
      · cases hx; exact .inl rfl
      · cases hx; exact .inr ⟨_, rfl, .plain rfl rfl⟩
  case un op =>
    cases op <;> simp only [compOp, reduceCtorEq] at h
    all_goals
      split at h
      · exact key h (finish_addsC fun _ => .plain rfl rfl)
      · exact key h (finish_addsC fun _ => .plain rfl rfl)
  case bin op => exact key h (finish_addsC fun _ => .plain rfl rfl)
  case load op off => exact key h (finish_addsC fun _ => .plain rfl rfl)
  case selectT d =>
    simp only [compOp] at h
    split at h
    · cases h
    · exact key h (.inr ⟨_, rfl, .plain rfl rfl⟩)
  case select =>
    simp only [compOp] at h
    split at h
    · cases h
    · exact key h (.inr ⟨_, rfl, .plain rfl rfl⟩)
  case drop => exact key h (.inl rfl)
  case other => simp [compOp] at h
  case nop => exact key h (.inl rfl)
  case tableSet => exact key h (.inr ⟨_, rfl, Nat.le_refl _, by simp [stored], by simp [WOp.unsaved], .inr rfl, nofun⟩)
  case tableFill => exact key h (.inr ⟨_, rfl, Nat.le_refl _, by simp [stored], by simp [WOp.unsaved], .inr rfl, nofun⟩)
  case dataDrop => exact key h (.inr ⟨_, rfl, Nat.le_refl _, by simp [stored], by simp [WOp.unsaved], .inr rfl, nofun⟩)
  case call f =>
    simp only [compOp] at h
    split at h
    · exact key h (.inr ⟨_, rfl, .plain rfl rfl⟩)
    · exact key h (.inr ⟨_, rfl, Nat.le_refl _, pushAll_idx _ _, fun _ => rfl, .inl rfl, nofun⟩)
  case callIndirect ty t =>
    simp only [compOp] at h
    split at h
    · cases h
    · exact key h (.inr ⟨_, rfl, Nat.le_refl _, pushAll_idx _ _, fun _ => rfl, .inl rfl, nofun⟩)
  case ret => exact key h (.inr ⟨_, rfl, Nat.zero_le _, seqRegs_idx _ _, fun _ => rfl, .inl rfl, nofun⟩)
  case els =>
    simp only [compOp] at h
    split at h
    · exact key h (.inr ⟨_, rfl, .plain rfl rfl⟩)
    · cases h
  case fin =>
    simp only [compOp, Option.map_eq_some_iff] at h
    obtain ⟨x, hx, he⟩ := h
    cases he
    have : st'.code = (compEnd K st).code := by
      unfold closeMaps at hx
      split at hx
      · cases hx; rfl
      · split at hx
        · cases hx; rfl
        · cases hx
    exact .inr ⟨_, this, Nat.zero_le _, seqRegs_idx _ _, fun _ => rfl, .inl rfl, nofun⟩
  all_goals exact key h (.inr ⟨_, rfl, .plain rfl rfl (by first | exact .inl rfl | exact .inr rfl)⟩)

/-- what holds of all code made from operators satisfying `Q` -/
theorem compRun_came {K : FnCtx} {R : Instr → Prop} {Q : WOp → Prop} (hR : ∀ o i, Q o → Came o i → R i) (hn : R .nop) :
    ∀ {n : Nat} {st fin : CS} {ops : List WOp}, (∀ o ∈ ops, Q o) → (∀ i ∈ st.code, R i) → Model.compRun K n st ops = some fin →
      ∀ i ∈ fin.code, R i
  | n, st, fin, [], _, h, hr => by
    cases n <;>
    · simp only [Model.compRun] at hr
      split at hr
      · cases hr; exact h
      · cases hr
  | 0, st, fin, _ :: _, _, h, hr => by simp [Model.compRun] at hr
  | n + 1, st, fin, op :: rest, hq, h, hr => by
    simp only [Model.compRun] at hr
    split at hr
    · cases hr
    · rename_i st' rest' hs
      have hrest : ∀ o ∈ rest', Q o := by
        intro o ho
        rcases compStep_rest hs with rfl | ⟨i, rfl⟩
        · exact hq o (List.mem_cons_of_mem _ ho)
        · exact hq o (List.mem_cons_of_mem _ (List.mem_cons_of_mem _ ho))
      refine compRun_came hR hn (n := n) hrest ?_ hr
      have add : ∀ {a b : CS}, (∀ i ∈ a.code, R i) → AddsC op a b → ∀ i ∈ b.code, R i := by
        intro a b ha hadd i hi
        rcases hadd with e | ⟨j, e, hj⟩
        · exact ha i (e ▸ hi)
        · rw [e] at hi
          rcases List.mem_append.mp hi with hi | hi
          · exact ha i hi
          · rw [List.mem_singleton.mp hi]; exact hR op j (hq op (List.mem_cons_self ..)) hj
      unfold compStep at hs
      split at hs
      · exact add h (compOp_addsC hs)
      · split at hs
        · cases hs
          intro i hi
          rcases List.mem_append.mp hi with hi | hi
          · exact h i hi
          · rw [List.mem_singleton.mp hi]; exact hn
        · exact add (a := { st with dead := 0 }) h (compOp_addsC hs)

theorem patch_stored {ends elses : List (Nat × Nat)} {len : Nat} {stk : List (Nat × Bool)} {i j : Instr}
    (h : patch ends elses len stk i = some j) : stored j = stored i ∧ j.unsaved = i.unsaved ∧ j.writes = i.writes ∧ iNeeds j = iNeeds i ∧ j.choosy = i.choosy := by
  cases i <;> simp only [patch, Option.some.injEq, Option.map_eq_some_iff] at h
  case br => obtain ⟨x, _, rfl⟩ := h; exact ⟨rfl, rfl, rfl, rfl, rfl⟩
  case brIf => obtain ⟨x, _, rfl⟩ := h; exact ⟨rfl, rfl, rfl, rfl, rfl⟩
  case ite =>
    split at h
    · cases h; exact ⟨rfl, rfl, rfl, rfl, rfl⟩
    · simp only [Option.map_eq_some_iff] at h
      obtain ⟨x, _, rfl⟩ := h
      exact ⟨rfl, rfl, rfl, rfl, rfl⟩
  case jump =>
    split at h
    · cases h; exact ⟨rfl, rfl, rfl, rfl, rfl⟩
    · simp only [Option.map_eq_some_iff] at h
      obtain ⟨x, _, rfl⟩ := h
      exact ⟨rfl, rfl, rfl, rfl, rfl⟩
  all_goals (subst h; exact ⟨rfl, rfl, rfl, rfl, rfl⟩)

theorem patchFrom_stored {ends elses : List (Nat × Nat)} {len : Nat} : ∀ {code body : List Instr} {pc : Nat} {stk : List (Nat × Bool)},
    patchFrom ends elses len pc stk code = some body → ∀ j ∈ body, ∃ i ∈ code, stored j = stored i ∧ j.unsaved = i.unsaved ∧ j.writes = i.writes ∧ iNeeds j = iNeeds i ∧ j.choosy = i.choosy
  | [], body, pc, stk, h, j, hj => by cases h; cases hj
  | i :: is, body, pc, stk, h, j, hj => by
    rw [patchFrom] at h
    split at h
    · rename_i j0 js h1 h2
      cases h
      rcases List.mem_cons.mp hj with rfl | hj
      · exact ⟨i, List.mem_cons_self .., patch_stored h1⟩
      · obtain ⟨i', hi', e⟩ := patchFrom_stored h2 j hj
        exact ⟨i', List.mem_cons_of_mem _ hi', e⟩
    · cases h

theorem compile_came {K : FnCtx} {ops : List WOp} {code : Code} (h : compileFn K ops = some code) :
    (∀ i ∈ code.body, ∀ r ∈ stored i, r.idx < 2 ^ 16) ∧
    ((∀ o ∈ ops, o.unsaved = false) → ∀ i ∈ code.body, i.unsaved = false) := by
  unfold compileFn at h
  split at h
  · cases h
  · rename_i st hst
    split at h
    · cases h
    · rename_i body hb
      cases h
      refine ⟨?_, fun hq => ?_⟩
      · intro j hj
        obtain ⟨i, hi, e, _⟩ := patchFrom_stored hb j hj
        rw [e]
        exact compRun_came (R := fun i => ∀ r ∈ stored i, r.idx < 2 ^ 16) (Q := fun _ => True) (fun o i _ c => c.fits) (by intro r hr; cases hr)
          (fun _ _ => trivial) (by intro i hi; cases hi) hst i hi
      · intro j hj
        obtain ⟨i, hi, _, e, _⟩ := patchFrom_stored hb j hj
        rw [e]
        exact compRun_came (R := fun i => i.unsaved = false) (Q := fun o => o.unsaved = false) (fun o i hq c => c.kept hq) rfl
          hq (by intro i hi; cases hi) hst i hi

/-- code uses of the instance what its operators use -/
theorem compile_needs {K : FnCtx} {ops : List WOp} {code : Code} (h : compileFn K ops = some code) (k : Nat)
    (hk : ∀ o ∈ ops, oNeeds o ≤ k) : ∀ i ∈ code.body, iNeeds i ≤ k := by
  unfold compileFn at h
  split at h
  · cases h
  · rename_i st hst
    split at h
    · cases h
    · rename_i body hb
      cases h
      intro j hj
      obtain ⟨i, hi, _, _, _, e, _⟩ := patchFrom_stored hb j hj
      rw [e]
      exact compRun_came (R := fun i => iNeeds i ≤ k) (Q := fun o => oNeeds o ≤ k)
        (fun o i hq c => Nat.le_trans c.needs hq) (Nat.zero_le _) hk (by intro i hi; cases hi) hst i hi

/-- every instruction that writes a part of the instance comes from an operator that does -/
theorem compile_writes {K : FnCtx} {ops : List WOp} {code : Code} (h : compileFn K ops = some code) (p : Part)
    (hp : ∀ o ∈ ops, p ∉ o.writes) : ∀ i ∈ code.body, p ∉ i.writes := by
  unfold compileFn at h
  split at h
  · cases h
  · rename_i st hst
    split at h
    · cases h
    · rename_i body hb
      cases h
      intro j hj
      obtain ⟨i, hi, _, _, e, _⟩ := patchFrom_stored hb j hj
      rw [e]
      exact compRun_came (R := fun i => p ∉ i.writes) (Q := fun o => p ∉ o.writes)
        (fun o i hq c => by rcases c.does with c | c <;> rw [c]; nofun; exact hq) nofun hp (by intro i hi; cases hi) hst i hi

/-- an instruction whose result the machine chooses comes from such an operator -/
theorem compile_choosy {K : FnCtx} {ops : List WOp} {code : Code} (h : compileFn K ops = some code)
    (hk : ∀ o ∈ ops, o.choosy = false) : ∀ i ∈ code.body, i.choosy = false := by
  unfold compileFn at h
  split at h
  · cases h
  · rename_i st hst
    split at h
    · cases h
    · rename_i body hb
      cases h
      intro j hj
      obtain ⟨i, hi, _, _, _, _, e⟩ := patchFrom_stored hb j hj
      rw [e]
      refine compRun_came (R := fun i => i.choosy = false) (Q := fun o => o.choosy = false) (fun o i hq c => ?_) rfl hk (by intro i hi; cases hi) hst i hi
      cases hi : i.choosy with
      | false => rfl
      | true => rw [c.chooses hi] at hq; cases hq

theorem compRun_len {K : FnCtx} : ∀ {n : Nat} {st fin : CS} {ops : List WOp}, Model.compRun K n st ops = some fin →
    fin.code.length ≤ st.code.length + ops.length
  | n, st, fin, [], hr => by
    cases n <;>
    · simp only [Model.compRun] at hr
      split at hr
      · cases hr; exact Nat.le_refl _
      · cases hr
  | 0, st, fin, _ :: _, hr => by simp [Model.compRun] at hr
  | n + 1, st, fin, op :: rest, hr => by
    simp only [Model.compRun] at hr
    split at hr
    · cases hr
    · rename_i st' rest' hs
      have h1 := compRun_len hr
      have hrest : rest'.length ≤ rest.length := by
        rcases compStep_rest hs with rfl | ⟨i, rfl⟩
        · exact Nat.le_refl _
        · rw [List.length_cons]; omega
      have add : ∀ {a b : CS}, AddsC op a b → b.code.length ≤ a.code.length + 1 := by
        intro a b hadd
        rcases hadd with e | ⟨j, e, hj⟩
        · rw [e]; omega
        · rw [e, List.length_append]; exact Nat.le_refl _
      have : st'.code.length ≤ st.code.length + 1 := by
        unfold compStep at hs
        split at hs
        · exact add (compOp_addsC hs)
        · split at hs
          · cases hs; show (st.code ++ [_]).length ≤ _; rw [List.length_append]; exact Nat.le_refl _
          · exact add (a := { st with dead := 0 }) (compOp_addsC hs)
      rw [List.length_cons]
      omega

/-- at most one instruction per operator -/
theorem compile_len {K : FnCtx} {ops : List WOp} {code : Code} (h : compileFn K ops = some code) : code.body.length ≤ ops.length := by
  unfold compileFn at h
  split at h
  · cases h
  · rename_i st hst
    split at h
    · cases h
    · rename_i body hb
      cases h
      have := compRun_len hst
      rw [show body.length = st.code.length from patchFrom_len _ _ _ _ hb]
      simpa [CS.init] using this

end Verif.Lemmas
