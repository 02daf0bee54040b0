import Verif.Lemmas.DeadCode
/-
Inserting `nop`s into a body moves the positions behind them and changes nothing else in what the preprocessor does.
-/
namespace Verif.Model

/-- rename the jump targets of an instruction -/
def Instr.ren (f : Nat → Nat) : Instr → Instr
  | .jump t => .jump (f t)
  | .ite c t h => .ite c (f t) h
  | .br d t s r => .br d (f t) s r
  | .brIf d t c s r => .brIf d (f t) c s r
  | .brTable ts d i s => .brTable (ts.map fun x => (x.1, f x.2.1, x.2.2)) (d.1, f d.2.1, d.2.2) i s
  | i => i

end Verif.Model

namespace Verif.Lemmas
open Verif.Model Verif.Spec Verif.Props

/-- where a position goes when `n` instructions are inserted at `p` -/
def mv (p n x : Nat) : Nat := if x < p then x else x + n

theorem mv_lt {p n x : Nat} (h : x < p) : mv p n x = x := by simp [mv, h]
theorem mv_ge {p n x : Nat} (h : p ≤ x) : mv p n x = x + n := by simp [mv, Nat.not_lt.2 h]
theorem mv_mono {p n x y : Nat} (h : x < y) : mv p n x < mv p n y := by
  unfold mv; split <;> split <;> omega
theorem mv_inj {p n x y : Nat} : mv p n x = mv p n y ↔ x = y := by
  constructor
  · intro h
    rcases Nat.lt_trichotomy x y with h1 | h1 | h1
    · have := mv_mono (p := p) (n := n) h1; omega
    · exact h1
    · have := mv_mono (p := p) (n := n) h1; omega
  · rintro rfl; rfl
theorem mv_le {p n x y : Nat} : mv p n x ≤ mv p n y ↔ x ≤ y := by
  constructor
  · intro h
    rcases Nat.lt_or_ge y x with h1 | h1
    · have := mv_mono (p := p) (n := n) h1; omega
    · exact h1
  · intro h
    rcases Nat.eq_or_lt_of_le h with rfl | h1
    · exact Nat.le_refl _
    · exact Nat.le_of_lt (mv_mono h1)

/-- insert `n` `nop`s at `p` -/
def insC (p n : Nat) (code : List Instr) : List Instr :=
  (code.take p).map (Instr.ren (mv p n)) ++ List.replicate n .nop ++ (code.drop p).map (Instr.ren (mv p n))

theorem insC_length {p n : Nat} {code : List Instr} (h : p ≤ code.length) : (insC p n code).length = mv p n code.length := by
  rw [mv_ge h]
  simp only [insC, List.length_append, List.length_map, List.length_take, List.length_drop, List.length_replicate]; omega

theorem insC_snoc {p n : Nat} {code : List Instr} {i : Instr} (h : p ≤ code.length) :
    insC p n (code ++ [i]) = insC p n code ++ [i.ren (mv p n)] := by
  simp only [insC, List.take_append_of_le_length h, List.drop_append_of_le_length h, List.map_append, List.map_cons, List.map_nil,
    List.append_assoc]

/-- the state of phase 1 with the `nop`s inserted -/
def ins (p n : Nat) (st : CS) : CS :=
  { st with
    code := insC p n st.code
    mapCtl := st.mapCtl.map fun x => (mv p n x.1, x.2.1, x.2.2.map (mv p n))
    ends := st.ends.map fun x => (mv p n x.1, mv p n x.2)
    elses := st.elses.map fun x => (mv p n x.1, mv p n x.2) }

theorem ren_zero {p n : Nat} (hp : 0 < p) : mv p n 0 = 0 := mv_lt hp

theorem ins_emit {p n : Nat} {st : CS} {i : Instr} (h : p ≤ st.code.length) (hi : i.ren (mv p n) = i) :
    (ins p n st).emit i = ins p n (st.emit i) := by
  simp only [ins, CS.emit, CS.mk.injEq, true_and, and_true]
  rw [insC_snoc h, hi]

theorem finish_ins {K : FnCtx} {p n : Nat} {st : CS} {a : Alloc} {c : Cls} {fold : Bool} {mk : Dst → Instr} {r : List WOp}
    (h : p ≤ st.code.length) (hm : ∀ d, (mk d).ren (mv p n) = mk d) :
    finish K (ins p n st) a c fold mk r = (ins p n (finish K st a c fold mk r).1, (finish K st a c fold mk r).2) := by
  unfold finish
  split
  · simp only [ins, CS.emit, Prod.mk.injEq, CS.mk.injEq, true_and, and_true]
    rw [insC_snoc h, hm]
  · simp only [ins, CS.emit, Prod.mk.injEq, CS.mk.injEq, true_and, and_true]
    rw [insC_snoc h, hm]

theorem finish_ins' {K : FnCtx} {p n : Nat} {st : CS} {pd : List Pend} {a : Alloc} {c : Cls} {fold : Bool} {mk : Dst → Instr} {r : List WOp}
    (h : p ≤ st.code.length) (hm : ∀ d, (mk d).ren (mv p n) = mk d) :
    finish K { ins p n st with pend := pd } a c fold mk r =
      (ins p n (finish K { st with pend := pd } a c fold mk r).1, (finish K { st with pend := pd } a c fold mk r).2) :=
  finish_ins (st := { st with pend := pd }) h hm

theorem branchRegs_ins {p n : Nat} {st : CS} {d : Nat} : branchRegs (ins p n st) d = branchRegs st d := rfl

theorem isSimple_ren {f : Nat → Nat} {i : Instr} (h0 : f 0 = 0)
    (h : match i with | .jump t | .ite _ t _ | .br _ t _ _ | .brIf _ t _ _ _ => t = 0
                      | .brTable ts d _ _ => (∀ x ∈ ts, x.2.1 = 0) ∧ d.2.1 = 0 | _ => True) : i.ren f = i := by
  cases i <;> simp only at h <;> simp only [Instr.ren]
  case brTable ts d i s =>
    obtain ⟨h1, h2⟩ := h
    have : ts.map (fun x => (x.1, f x.2.1, x.2.2)) = ts := by
      conv => rhs; rw [← List.map_id ts]
      apply List.map_congr_left
      intro x hx
      obtain ⟨a, b, c⟩ := x
      have := h1 _ hx
      simp only at this
      subst this
      simp [h0]
    rw [this, h2, h0]
    obtain ⟨a, b, c⟩ := d
    simp only at h2
    subst h2
    rfl
  all_goals rw [h, h0]

theorem compOp_ins {K : FnCtx} {p n : Nat} {st : CS} {o : WOp} {r : List WOp} (h : p ≤ st.code.length) (hp : 0 < p) :
    compOp K (ins p n st) o r = (compOp K st o r).map fun x => (ins p n x.1, x.2) := by
  have h0 : mv p n 0 = 0 := mv_lt hp
  have len : (insC p n st.code).length = mv p n st.code.length := insC_length h
  cases o
  case localGet i =>
    simp only [compOp, compLocalGet]
    cases hc : K.localType i <;> (try dsimp only) <;> (try split) <;> (try simp only [Option.map_some, Option.map_none, Option.some.injEq, Prod.mk.injEq, and_true]) <;>
      first | (simp only [ins, CS.emit, compSelect, CS.mk.injEq, true_and, and_true]; rw [insC_snoc h]; rfl) | rfl
  case localSet i =>
    simp only [compOp]
    cases hc : K.localType i <;> simp only [storeLocal, Option.map_some, Option.map_none, Option.some.injEq, Prod.mk.injEq, and_true] <;>
      (simp only [ins, CS.emit, compSelect, CS.mk.injEq, true_and, and_true]; rw [insC_snoc h]; rfl)
  case localTee i =>
    simp only [compOp]
    have ha : (ins p n st).alloc = st.alloc := rfl
    rw [ha]
    split
    · rfl
    · cases hc : K.localType i <;> simp only [storeLocal, Option.map_some, Option.map_none, Option.some.injEq, Prod.mk.injEq, and_true] <;>
        (simp only [ins, CS.emit, compSelect, CS.mk.injEq, true_and, and_true]; rw [insC_snoc h]; rfl)
  case const c v =>
    simp only [compOp, compConst]
    split
    · rfl
    · split <;> simp only [Option.map_some, Option.some.injEq, Prod.mk.injEq, and_true]
      · rfl
      · (simp only [ins, CS.emit, compSelect, CS.mk.injEq, true_and, and_true]; rw [insC_snoc h]; rfl)
  case globalGet g =>
    simp only [compOp]
    split
    · rfl
    · simp only [Option.map_some, Option.some.injEq]
      refine finish_ins h ?_; intro d; rfl
  case globalSet g =>
    simp only [compOp]
    split
    · rfl
    · simp only [Option.map_some, Option.some.injEq, Prod.mk.injEq, and_true]
      (simp only [ins, CS.emit, compSelect, CS.mk.injEq, true_and, and_true]; rw [insC_snoc h]; rfl)
  case un op =>
    cases op <;> simp only [compOp]
    case mov => rfl
    all_goals
      split
      · simp only [Option.map_some, Option.some.injEq]
        refine finish_ins' h ?_; intro d; rfl
      · simp only [Option.map_some, Option.some.injEq]
        refine finish_ins h ?_; intro d; rfl
  case bin =>
    simp only [compOp, Option.map_some, Option.some.injEq]
    refine finish_ins' h ?_; intro d; rfl
  case load =>
    simp only [compOp, Option.map_some, Option.some.injEq]
    refine finish_ins' h ?_; intro d; rfl
  case selectT =>
    simp only [compOp]
    split
    · rfl
    · simp only [Option.map_some, Option.some.injEq, Prod.mk.injEq, and_true]
      (simp only [ins, CS.emit, compSelect, CS.mk.injEq, true_and, and_true]; rw [insC_snoc h]; rfl)
  case select =>
    simp only [compOp]
    have ha : (ins p n st).alloc = st.alloc := rfl
    rw [ha]
    split
    · rfl
    · simp only [Option.map_some, Option.some.injEq, Prod.mk.injEq, and_true]
      (simp only [ins, CS.emit, compSelect, CS.mk.injEq, true_and, and_true]; rw [insC_snoc h]; rfl)
  case els =>
    simp only [compOp]
    cases hm : st.mapCtl with
    | nil => simp only [ins, hm, List.map_nil]; rfl
    | cons x m =>
      obtain ⟨s, b, e⟩ := x
      simp only [ins, hm, List.map_cons]
      cases b <;> cases e <;> simp only [Option.map_none, Option.map_some]
      simp only [Option.some.injEq, Prod.mk.injEq, and_true, CS.emit, CS.mk.injEq, true_and, List.map_cons, Option.map_some]
      rw [insC_snoc h, len, mv_ge h, mv_ge (show p ≤ st.code.length + 1 by omega)]
      simp only [Instr.ren, h0]
      refine ⟨trivial, ?_, ?_⟩
      · unfold elseAlloc; rfl
      · rw [show st.code.length + n + 1 = st.code.length + 1 + n by omega]
  case fin =>
    simp only [compOp, closeMaps, compEnd, CS.emit]
    cases hm : st.mapCtl with
    | nil =>
      simp only [ins, hm, List.map_nil]
      split
      · simp only [Option.map_some, Option.some.injEq, Prod.mk.injEq, and_true, CS.mk.injEq, true_and, List.map_nil]
        rw [insC_snoc h]
        exact ⟨rfl, rfl⟩
      · rfl
    | cons x m =>
      obtain ⟨s, b, e⟩ := x
      simp only [ins, hm, List.map_cons, Option.map_some, Option.some.injEq, Prod.mk.injEq, and_true, CS.mk.injEq, true_and]
      rw [insC_snoc h, len, mv_ge h, mv_ge (show p ≤ st.code.length + 1 by omega)]
      rw [show st.code.length + n + 1 = st.code.length + 1 + n by omega]
      refine ⟨rfl, rfl, rfl, ?_⟩
      cases b
      · rfl
      · simp only [if_true, List.map_cons]
        cases e
        · simp only [Option.getD_none, Option.map_none]
          rw [mv_ge (show p ≤ st.code.length + 1 by omega)]
        · rfl
  case call f =>
    simp only [compOp]
    split
    · simp only [Option.map_some, Option.some.injEq, Prod.mk.injEq, and_true]
      (simp only [ins, CS.emit, compSelect, CS.mk.injEq, true_and, and_true]; rw [insC_snoc h]; rfl)
    · simp only [Option.map_some, Option.some.injEq, Prod.mk.injEq, and_true]
      (simp only [ins, CS.emit, compSelect, CS.mk.injEq, true_and, and_true]; rw [insC_snoc h]; rfl)
  case callIndirect =>
    simp only [compOp]
    have ha : (ins p n st).alloc = st.alloc := rfl
    rw [ha]
    split
    · rfl
    · simp only [Option.map_some, Option.some.injEq, Prod.mk.injEq, and_true]
      (simp only [ins, CS.emit, compSelect, CS.mk.injEq, true_and, and_true]; rw [insC_snoc h]; rfl)
  case block bt =>
    simp only [compOp, Option.map_some, Option.some.injEq, Prod.mk.injEq, and_true, ins, CS.emit, openBlock, CS.mk.injEq, true_and,
      List.map_cons, Option.map_none]
    rw [insC_snoc h, len]; exact ⟨rfl, rfl⟩
  case loop bt =>
    simp only [compOp, Option.map_some, Option.some.injEq, Prod.mk.injEq, and_true, ins, CS.emit, openBlock, CS.mk.injEq, true_and,
      List.map_cons, Option.map_none]
    rw [insC_snoc h, len]; exact ⟨rfl, rfl⟩
  case ite bt =>
    simp only [compOp, Option.map_some, Option.some.injEq, Prod.mk.injEq, and_true, ins, CS.emit, openBlock, CS.mk.injEq, true_and,
      List.map_cons, Option.map_none]
    rw [insC_snoc h, len]
    simp only [Instr.ren, h0]
    exact ⟨trivial, trivial⟩
  case br d =>
    simp only [compOp, Option.map_some, Option.some.injEq, Prod.mk.injEq, and_true, ins, CS.emit, CS.mk.injEq, true_and]
    rw [insC_snoc h]
    simp only [Instr.ren, h0]
    rfl
  case brIf d =>
    simp only [compOp, Option.map_some, Option.some.injEq, Prod.mk.injEq, and_true, ins, CS.emit, CS.mk.injEq, true_and]
    rw [insC_snoc h]
    simp only [Instr.ren, h0]
    rfl
  case brTable ds d =>
    simp only [compOp, Option.map_some, Option.some.injEq, Prod.mk.injEq, and_true, ins, CS.emit, CS.mk.injEq, true_and]
    rw [insC_snoc h]
    simp only [Instr.ren, h0, List.map_map, Function.comp_def]
    rfl
  case ret =>
    simp only [compOp, Option.map_some, Option.some.injEq, Prod.mk.injEq, and_true, ins, CS.emit, CS.mk.injEq, true_and]
    rw [insC_snoc h]; rfl
  case unreachable =>
    simp only [compOp, Option.map_some, Option.some.injEq, Prod.mk.injEq, and_true, ins, CS.emit, CS.mk.injEq, true_and]
    rw [insC_snoc h]; rfl
  case drop => rfl
  case nop => rfl
  case other => rfl
  all_goals
    simp only [compOp, Option.map_some, Option.some.injEq, Prod.mk.injEq, and_true]
    (simp only [ins, CS.emit, CS.mk.injEq, true_and, and_true]; rw [insC_snoc h]; rfl)

theorem compOp_grows {K : FnCtx} {st st' : CS} {o : WOp} {r r' : List WOp} (h : compOp K st o r = some (st', r')) :
    st.code.length ≤ st'.code.length := by
  by_cases hb : isBracket o = false
  · rcases (compOp_plain hb h).code with h | ⟨i, _, h⟩ <;> rw [h] <;> simp
  · cases o <;> simp only [isBracket, not_true_eq_false, Bool.true_eq_false, not_false_eq_true] at hb
    case els =>
      simp only [compOp] at h
      split at h
      · simp only [Option.some.injEq, Prod.mk.injEq] at h
        rw [← h.1]; simp [CS.emit]
      · cases h
    case fin =>
      simp only [compOp, closeMaps, compEnd, CS.emit, Option.map_eq_some_iff] at h
      obtain ⟨x, hx, he⟩ := h
      cases he
      split at hx
      · cases hx; simp
      · split at hx
        · cases hx; simp
        · cases hx
    all_goals
      simp only [compOp, Option.some.injEq, Prod.mk.injEq, openBlock] at h
      rw [← h.1]; simp [CS.emit]

theorem compStep_ins {K : FnCtx} {p n : Nat} {st : CS} {o : WOp} {r : List WOp} (h : p ≤ st.code.length) (hp : 0 < p) :
    compStep K (ins p n st) o r = (compStep K st o r).map fun x => (ins p n x.1, x.2) := by
  unfold compStep
  have hd : (ins p n st).dead = st.dead := rfl
  rw [hd]
  split
  · exact compOp_ins h hp
  · split
    · simp only [Option.map_some, Option.some.injEq, Prod.mk.injEq, and_true, ins, CS.emit, CS.mk.injEq, true_and]
      rw [insC_snoc h]; rfl
    · exact compOp_ins (st := { st with dead := 0 }) h hp

theorem compAll_ins {K : FnCtx} {p n : Nat} (hp : 0 < p) : ∀ (k : Nat) (ops : List WOp) (st : CS), ops.length ≤ k → p ≤ st.code.length →
    compAll K (ins p n st) ops = (compAll K st ops).map (ins p n)
  | k, [], st, _, h => by
    simp only [compAll, List.length_nil, compRun, ins, List.isEmpty_map]
    split <;> rfl
  | 0, _ :: _, _, h, _ => by simp at h
  | k + 1, o :: r, st, hk, h => by
    simp only [List.length_cons] at hk
    rw [compAll_cons, compAll_cons, compStep_ins h hp]
    cases hs : compStep K st o r with
    | none => rfl
    | some y =>
      obtain ⟨st', r'⟩ := y
      have hl : r'.length ≤ r.length := by
        rcases compStep_rest hs with rfl | ⟨i, rfl⟩ <;> simp
      have hg : st.code.length ≤ st'.code.length := by
        unfold compStep at hs
        split at hs
        · exact compOp_grows hs
        · split at hs
          · cases hs; simp [CS.emit]
          · exact compOp_grows (st := { st with dead := 0 }) hs
      exact compAll_ins hp k r' st' (by omega) (by omega)

end Verif.Lemmas
