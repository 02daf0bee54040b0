import Verif.Lemmas.WebDet
import Verif.Lemmas.WebOp
/-
The operator rules of `Spec.WebAssembly` determine their outcome, and apply wherever the source-level semantics does.
-/
namespace Verif.Lemmas
open Verif.Model Verif.Spec Verif.Props

variable {W : Type}

theorem mem_ext {m m' : Mem} (hx : m.max = m'.max) (h : ∀ i : Nat, m.data[i]? = m'.data[i]?) : m = m' := by
  obtain ⟨d, x⟩ := m
  obtain ⟨d', x'⟩ := m'
  simp only at hx h
  rw [hx, List.ext_getElem? h]

theorem updates_unique {m m1 m2 : Mem} {a n : Nat} {f : Nat → Option Byte} (h1 : m.Updates a n f m1) (h2 : m.Updates a n f m2) :
    m1 = m2 := by
  refine mem_ext (h1.max.trans h2.max.symm) fun i => ?_
  by_cases h : i < a ∨ a + n ≤ i
  · rw [h1.outside i h, h2.outside i h]
  · have e : i = a + (i - a) := by omega
    rw [e, h1.inside _ (by omega), h2.inside _ (by omega)]

theorem toNat_inj {v w : BitVec 32} {n : Nat} (h : v.toNat = n) (h' : w.toNat = n) : v = w :=
  BitVec.eq_of_toNat_eq (h.trans h'.symm)

theorem load_num_inj {op : LoadOp} {v w : op.cls.Carrier} (h : op.cls.num v = op.cls.num w) : v = w :=
  num_inj (by cases op <;> simp) h

theorem op_det {H : FloatHost} {o : WOp} {stk : List Val} {s : SSt W} {x x' : OpOut W} (h : Op H o stk s x)
    (h' : Op H o stk s x') : x = x' := by
  cases h with
  | localGet h => cases h' with | localGet k => rw [h] at k; cases k; rfl
  | localSet h => cases h'; rfl
  | localTee h => cases h'; rfl
  | globalGet h => cases h' with | globalGet k => rw [h] at k; cases k; rfl
  | globalSet h => cases h' with | globalSet k => rw [h] at k; cases k; rfl
  | const => cases h'; rfl
  | un h =>
    cases h' with
    | un k => cases unary_unique h k; rfl
    | unTrap k => cases unary_unique h k
  | unTrap h =>
    cases h' with
    | un k => cases unary_unique h k
    | unTrap k => rfl
  | bin h =>
    cases h' with
    | bin k => cases binary_unique h k; rfl
    | binTrap k => cases binary_unique h k
  | binTrap h =>
    cases h' with
    | bin k => cases binary_unique h k
    | binTrap k => rfl
  | load hm hb hv =>
    cases h' with
    | load km kb kv => rw [hm] at km; cases km; rw [load_num_inj (hv.trans kv.symm)]
    | loadTrap km kb => rw [hm] at km; cases km; exact absurd hb kb
  | loadTrap hm hb =>
    cases h' with
    | load km kb kv => rw [hm] at km; cases km; exact absurd kb hb
    | loadTrap km kb => rfl
  | store hm hb hu =>
    cases h' with
    | store km kb ku => rw [hm] at km; cases km; rw [updates_unique hu ku]
    | storeTrap km kb => rw [hm] at km; cases km; exact absurd hb kb
  | storeTrap hm hb =>
    cases h' with
    | store km kb ku => rw [hm] at km; cases km; exact absurd kb hb
    | storeTrap km kb => rfl
  | memSize hm hv => cases h' with | memSize km kv => rw [hm] at km; cases km; rw [toNat_inj hv kv]
  | memGrow hm ha hv hx hd =>
    cases h' with
    | memGrow km ka kv kx kd =>
      rw [hm] at km; cases km
      rw [toNat_inj hv kv, mem_ext (hx.trans kx.symm) fun i => by rw [hd, kd]]
    | memGrowFail km ka kv => rw [hm] at km; cases km; exact absurd ha ka
  | memGrowFail hm ha hv =>
    cases h' with
    | memGrow km ka kv kx kd => rw [hm] at km; cases km; exact absurd ka ha
    | memGrowFail km ka kv => rw [toNat_inj hv kv]
  | memCopy hm ha hb hu =>
    cases h' with
    | memCopy km ka kb ku => rw [hm] at km; cases km; rw [updates_unique hu ku]
    | memCopyTrap km kb => rw [hm] at km; cases km; rcases kb with k | k <;> exact absurd ‹_› k
  | memCopyTrap hm hb =>
    cases h' with
    | memCopy km ka kb ku => rw [hm] at km; cases km; rcases hb with k | k <;> exact absurd ‹_› k
    | memCopyTrap km kb => rfl
  | memFill hm ha hu =>
    cases h' with
    | memFill km ka ku => rw [hm] at km; cases km; rw [updates_unique hu ku]
    | memFillTrap km kb => rw [hm] at km; cases km; exact absurd ha kb
  | memFillTrap hm hb =>
    cases h' with
    | memFill km ka ku => rw [hm] at km; cases km; exact absurd ka hb
    | memFillTrap km kb => rfl
  | memInit hm hk ha hb hu =>
    cases h' with
    | memInit km kk ka kb ku => rw [hm] at km; cases km; rw [hk] at kk; cases kk; rw [updates_unique hu ku]
    | memInitTrap km kk kb =>
      rw [hm] at km; cases km; rw [hk] at kk; cases kk; rcases kb with k | k <;> exact absurd ‹_› k
  | memInitTrap hm hk hb =>
    cases h' with
    | memInit km kk ka kb ku =>
      rw [hm] at km; cases km; rw [hk] at kk; cases kk; rcases hb with k | k <;> exact absurd ‹_› k
    | memInitTrap km kk kb => rfl
  | dataDrop h => cases h'; rfl
  | select1 h =>
    cases h' with
    | select1 k => rfl
    | select2 => exact absurd rfl h
  | select2 =>
    cases h' with
    | select1 k => exact absurd rfl k
    | select2 => rfl
  | selectT1 h =>
    cases h' with
    | selectT1 k => rfl
    | selectT2 => exact absurd rfl h
  | selectT2 =>
    cases h' with
    | selectT1 k => exact absurd rfl k
    | selectT2 => rfl
  | refNull => cases h'; rfl
  | refIsNull h => cases h' with | refIsNull k => rw [isBool_unique h k]
  | tableGet ht h =>
    cases h' with
    | tableGet kt k => rw [ht] at kt; cases kt; rw [h] at k; cases k; rfl
    | tableGetTrap kt k => rw [ht] at kt; cases kt; rw [List.getElem?_eq_none k] at h; cases h
  | tableGetTrap ht h =>
    cases h' with
    | tableGet kt k => rw [ht] at kt; cases kt; rw [List.getElem?_eq_none h] at k; cases k
    | tableGetTrap kt k => rfl
  | tableSet ht h =>
    cases h' with
    | tableSet kt k => rw [ht] at kt; cases kt; rfl
    | tableSetTrap kt k => rw [ht] at kt; cases kt; omega
  | tableSetTrap ht h =>
    cases h' with
    | tableSet kt k => rw [ht] at kt; cases kt; omega
    | tableSetTrap kt k => rfl
  | tableFill ht h hl hu =>
    cases h' with
    | tableFill kt k kl ku => rw [ht] at kt; cases kt; rw [List.ext_getElem? fun j => (hu j).trans (ku j).symm]
    | tableFillTrap kt k => rw [ht] at kt; cases kt; omega
  | tableFillTrap ht h =>
    cases h' with
    | tableFill kt k kl ku => rw [ht] at kt; cases kt; omega
    | tableFillTrap kt k => rfl
  | drop => cases h'; rfl
  | nop => cases h'; rfl
  | unreachable => cases h'; rfl

theorem pop3_i32 (a b n : BitVec 32) (r : List Val) : pop3 (i32 n :: i32 b :: i32 a :: r) = some ((a, b, n), r) := by
  simp [pop3, i32, popV]

/-- where a rule applies, the source-level semantics is defined -/
theorem op_defined {H : FloatHost} {o : WOp} {stk : List Val} {s : SSt W} {x : OpOut W} (h : Op H o stk s x) :
    ∃ y, opSem H o stk s = some y := by
  cases h with
  | localGet h => exact ⟨_, by simp only [opSem, h]; rfl⟩
  | globalGet h => exact ⟨_, by simp only [opSem, h]; rfl⟩
  | globalSet h => exact ⟨_, by simp only [opSem, h]; rfl⟩
  | tableGet ht h => exact ⟨_, by simp [opSem, popV, ht, h]; rfl⟩
  | tableGetTrap ht h => exact ⟨_, by simp [opSem, popV, ht, List.getElem?_eq_none h]; rfl⟩
  | tableSet ht h => exact ⟨_, by simp [opSem, popV, ht, h]; rfl⟩
  | tableSetTrap ht h => exact ⟨_, by simp [opSem, popV, ht, Nat.not_lt.mpr h]; rfl⟩
  | tableFill ht h => exact ⟨_, by simp [opSem, popV, ht]; rfl⟩
  | tableFillTrap ht h => exact ⟨_, by simp [opSem, popV, ht]; rfl⟩
  | un h => exact ⟨_, by simp [opSem, popV]; rfl⟩
  | unTrap h => exact ⟨_, by simp [opSem, popV]; rfl⟩
  | bin h => exact ⟨_, by simp [opSem, popV]; rfl⟩
  | binTrap h => exact ⟨_, by simp [opSem, popV]; rfl⟩
  | load => exact ⟨_, by simp [opSem, popV]; rfl⟩
  | loadTrap => exact ⟨_, by simp [opSem, popV]; rfl⟩
  | store => exact ⟨_, by simp [opSem, popV]; rfl⟩
  | storeTrap => exact ⟨_, by simp [opSem, popV]; rfl⟩
  | memGrow => exact ⟨_, by simp [opSem, popV]; rfl⟩
  | memGrowFail => exact ⟨_, by simp [opSem, popV]; rfl⟩
  | memCopy => exact ⟨_, by simp [opSem, pop3_i32]; rfl⟩
  | memCopyTrap => exact ⟨_, by simp [opSem, pop3_i32]; rfl⟩
  | memFill => exact ⟨_, by simp [opSem, pop3_i32]; rfl⟩
  | memFillTrap => exact ⟨_, by simp [opSem, pop3_i32]; rfl⟩
  | memInit => exact ⟨_, by simp [opSem, pop3_i32]; rfl⟩
  | memInitTrap => exact ⟨_, by simp [opSem, pop3_i32]; rfl⟩
  | select1 h => exact ⟨_, by simp [opSem, popV]; rfl⟩
  | select2 => exact ⟨_, by simp [opSem, popV]; rfl⟩
  | selectT1 h => exact ⟨_, by simp [opSem, popV]; rfl⟩
  | selectT2 => exact ⟨_, by simp [opSem, popV]; rfl⟩
  | refIsNull h => exact ⟨_, by simp [opSem, popV]; rfl⟩
  | _ => exact ⟨_, rfl⟩

/-- an outcome of the source-level semantics as an outcome of the rules -/
def OpOut.Is (x : OpOut W) : Res (List Val × SSt W) → Prop
  | .ok (stk, s) => x = .next stk s
  | .trap _ | .panic => x = .trap
  | .ub => False

/-- Whatever the rules say happens, happens, unless the use is `Odd`. -/
theorem op_complete {H : FloatHost} {o : WOp} {stk : List Val} {s : SSt W} {x : OpOut W} (g : s.st.Good) (h : Op H o stk s x) :
    (∃ y, Odd y o stk s) ∨ ∃ y, opSem H o stk s = some y ∧ OpOut.Is x y := by
  obtain ⟨y, hy⟩ := op_defined h
  rcases op_sound H g hy with k | k
  · exact .inl k
  · refine .inr ⟨y, hy, ?_⟩
    cases y with
    | ok z => exact op_det h k.1
    | trap e => exact op_det h k
    | panic => exact op_det h k
    | ub => exact k

end Verif.Lemmas
