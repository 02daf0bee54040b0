import Verif.Props.State
import Verif.Spec.ValueType
/-
C35: the type check of `global.set`, stated with the WebAssembly value types.
-/
namespace Verif.Props
open Verif.Model Verif.Spec

/-- the check of the code compares the WebAssembly types, except that the null reference always counts as a `funcref` -/
theorem ty_eq_iff (a b : Val) : a.ty = b.ty ↔
    ∃ t, HasType a t ∧ HasType b t ∧ (t = .externref → ¬ IsNull a ∧ ¬ IsNull b) := by
  constructor
  · intro h
    obtain ⟨ca, va⟩ := a
    obtain ⟨cb, vb⟩ := b
    have hc : ca = cb := congrArg Prod.fst h
    subst hc
    cases ca
    · exact ⟨.i32, .i32 _, .i32 _, by simp⟩
    · exact ⟨.i64, .i64 _, .i64 _, by simp⟩
    · exact ⟨.f32, .f32 _, .f32 _, by simp⟩
    · exact ⟨.f64, .f64 _, .f64 _, by simp⟩
    · have h2 : Val.isExtern ⟨.ref, va⟩ = Val.isExtern ⟨.ref, vb⟩ := congrArg Prod.snd h
      cases va <;> cases vb <;> first
        | exact ⟨.funcref, .nullFunc, .nullFunc, by simp⟩
        | exact ⟨.funcref, .nullFunc, .func _, by simp⟩
        | exact ⟨.funcref, .func _, .nullFunc, by simp⟩
        | exact ⟨.funcref, .func _, .func _, by simp⟩
        | exact ⟨.externref, .extern _, .extern _, fun _ => ⟨by simp [IsNull], by simp [IsNull]⟩⟩
        | (simp [Val.isExtern] at h2)
    · exact ⟨.v128, .v128 _, .v128 _, by simp⟩
  · rintro ⟨t, ha, hb, hn⟩
    cases ha <;> cases hb <;> first
      | rfl
      | (exact absurd rfl (hn rfl).1)
      | (exact absurd rfl (hn rfl).2)

/-- C35, writing, with WebAssembly types.  If the value held by global `g` and the value given are of one type (and, for
external references, neither is null), `global.set g` stores exactly that value, keeps the mutability and every other
global and leaves all else alone. -/
theorem global_set_typed (H : FloatHost) (P : Prog) (len : Nat) (s : VM) (c : Cls) (src : Dst) (g : Nat)
    (v : c.Carrier) (old : Global) (t : WasmType) (hv : s.read c (srcOpnd c src) = .ok v)
    (hg : s.inst.globals[g]? = some old) (ho : HasType old.value t) (ht : HasType ⟨c, v⟩ t)
    (hn : t = .externref → ¬ IsNull old.value ∧ ¬ IsNull ⟨c, v⟩) :
    ∃ gs, step H P len s (.globalSet c src g) = .ok (.cont { s with pc := s.pc + 1, inst := { s.inst with globals := gs } }) ∧
      gs.length = s.inst.globals.length ∧ gs[g]? = some { old with value := ⟨c, v⟩ } ∧
      ∀ g', g' ≠ g → gs[g']? = s.inst.globals[g']? :=
  global_set_correct H P len s c src g v old hv hg ((ty_eq_iff _ _).mpr ⟨t, ho, ht, hn⟩)

/-- C35, type check, with WebAssembly types.  If no type has both the value held by global `g` and the value given,
`global.set g` is refused with an error. -/
theorem global_set_other_type_refused (H : FloatHost) (P : Prog) (len : Nat) (s : VM) (c : Cls) (src : Dst) (g : Nat)
    (v : c.Carrier) (old : Global) (hv : s.read c (srcOpnd c src) = .ok v) (hg : s.inst.globals[g]? = some old)
    (hd : ∀ t, HasType old.value t → ¬ HasType ⟨c, v⟩ t) :
    step H P len s (.globalSet c src g) = .trap .instructionFailed :=
  global_set_type_error H P len s c src g v old hv hg fun h =>
    have ⟨t, ho, hv', _⟩ := (ty_eq_iff _ _).mp h
    hd t ho hv'

/-- a state holding a global with value `r` and a local with value `w`, both references -/
def exRefs (r w : Ref) : VM :=
  { exGlobals with locals := [⟨.ref, w⟩], inst := { exGlobals.inst with globals := [⟨true, ⟨.ref, r⟩⟩] } }

/-- an external reference is stored over an external reference -/
example : (exRefs (.extern 3) (.extern 4)).read .ref (srcOpnd .ref (.loc 0)) = .ok (Ref.extern 4) ∧
    (exRefs (.extern 3) (.extern 4)).inst.globals[0]? = some ⟨true, ⟨.ref, Ref.extern 3⟩⟩ ∧
    HasType ⟨.ref, Ref.extern 3⟩ .externref ∧ HasType ⟨.ref, Ref.extern 4⟩ .externref ∧
    ¬ IsNull ⟨.ref, Ref.extern 3⟩ ∧ ¬ IsNull ⟨.ref, Ref.extern 4⟩ :=
  ⟨rfl, rfl, .extern 3, .extern 4, by simp [IsNull], by simp [IsNull]⟩

/-- an external reference is refused by a global that holds a function reference -/
example : step Sample.host Sample.prog 9 (exRefs (.func 3) (.extern 4)) (.globalSet .ref (.loc 0) 0) =
    .trap .instructionFailed :=
  global_set_other_type_refused Sample.host Sample.prog 9 (exRefs (.func 3) (.extern 4)) .ref (.loc 0) 0 (Ref.extern 4)
    ⟨true, ⟨.ref, Ref.func 3⟩⟩ rfl rfl (by intro t h h'; cases h; cases h')

/-- C35 is false for external references: the null reference is a value of type `externref`, but a mutable global that
holds an external reference cannot be set to null, whatever the state. -/
theorem global_set_null_extern_violated (H : FloatHost) (P : Prog) (len : Nat) (s : VM) (src : Dst) (g a : Nat)
    (hv : s.read .ref (srcOpnd .ref src) = .ok Ref.null) (hg : s.inst.globals[g]? = some ⟨true, ⟨.ref, Ref.extern a⟩⟩) :
    HasType ⟨.ref, Ref.extern a⟩ .externref ∧ HasType ⟨.ref, Ref.null⟩ .externref ∧
      step H P len s (.globalSet .ref src g) = .trap .instructionFailed :=
  ⟨.extern a, .nullExtern, global_set_type_error H P len s .ref src g Ref.null _ hv hg (by simp [Val.ty, Val.isExtern])⟩

example : (exRefs (.extern 3) .null).read .ref (srcOpnd .ref (.loc 0)) = .ok Ref.null ∧
    (exRefs (.extern 3) .null).inst.globals[0]? = some ⟨true, ⟨.ref, Ref.extern 3⟩⟩ := ⟨rfl, rfl⟩

/-- C35, the same in the other direction: an `externref` global that holds null cannot be set to an external reference. -/
theorem global_set_extern_over_null_violated (H : FloatHost) (P : Prog) (len : Nat) (s : VM) (src : Dst) (g a : Nat)
    (hv : s.read .ref (srcOpnd .ref src) = .ok (Ref.extern a)) (hg : s.inst.globals[g]? = some ⟨true, ⟨.ref, Ref.null⟩⟩) :
    HasType ⟨.ref, Ref.null⟩ .externref ∧ HasType ⟨.ref, Ref.extern a⟩ .externref ∧
      step H P len s (.globalSet .ref src g) = .trap .instructionFailed :=
  ⟨.nullExtern, .extern a, global_set_type_error H P len s .ref src g (Ref.extern a) _ hv hg (by simp [Val.ty, Val.isExtern])⟩

example : (exRefs .null (.extern 3)).read .ref (srcOpnd .ref (.loc 0)) = .ok (Ref.extern 3) ∧
    (exRefs .null (.extern 3)).inst.globals[0]? = some ⟨true, ⟨.ref, Ref.null⟩⟩ := ⟨rfl, rfl⟩

/-! ### C36: the whole instruction, with no restriction on the numbers -/

/-- C36, `table.fill`, every case.  Let `start` and `count` be the two numbers given.
* in range: exactly the elements `start … start+count-1` of the addressed table become the reference; no other element, no
  other table and nothing else changes;
* beyond the table, when `start + count` fits in 32 bits and `count` is not zero: the interpreter stops;
* beyond the table, when `start + count` does not fit in 32 bits: the instruction silently does nothing at all. -/
theorem table_fill_all (H : FloatHost) (P : Prog) (len : Nat) (s : VM) (t idx src n : Nat) (tb : List Ref)
    (i k : BitVec 32) (r : Ref) (ht : s.inst.tables[t]? = some tb) (hi : s.rf.get .i32 idx = .ok i)
    (hr : s.rf.get .ref src = .ok r) (hn : s.rf.get .i32 n = .ok k) :
    (i.toNat + k.toNat < 2 ^ 32 → i.toNat + k.toNat ≤ tb.length ∨ k = 0 →
      ∃ ts, step H P len s (.tableFill t idx src n) =
          .ok (.cont { s with pc := s.pc + 1, inst := { s.inst with tables := ts } }) ∧
        (∀ t', t' ≠ t → ts[t']? = s.inst.tables[t']?) ∧
        ∃ tb', ts[t]? = some tb' ∧ tb'.length = tb.length ∧
          ∀ j, tb'[j]? = if i.toNat ≤ j ∧ j < i.toNat + k.toNat then some r else tb[j]?) ∧
    (i.toNat + k.toNat < 2 ^ 32 → tb.length < i.toNat + k.toNat → k ≠ 0 →
      step H P len s (.tableFill t idx src n) = .panic) ∧
    (2 ^ 32 ≤ i.toNat + k.toNat →
      step H P len s (.tableFill t idx src n) = .ok (.cont { s with pc := s.pc + 1 })) := by
  have hs := table_fill_instr H P len s t idx src n tb i k r ht hi hr hn
  have hlt := (List.getElem?_eq_some_iff.mp ht).1
  refine ⟨fun hw hin => ?_, fun hw hout hk => ?_, fun hw => ?_⟩
  · obtain ⟨tb', hf, hl, hj⟩ := (table_fill_partial tb i k r hw).1 hin
    refine ⟨s.inst.tables.set t tb', ?_, fun t' hne => List.getElem?_set_ne (Ne.symm hne), tb', by simp [hlt], hl, hj⟩
    rw [hs, hf]; rfl
  · rw [hs, (table_fill_partial tb i k r hw).2 hout hk]; rfl
  · have hf : fillTable tb i r k = .ok tb := by
      have he : (i + k).toNat = i.toNat + k.toNat - 2 ^ 32 := by
        have := i.isLt; have := k.isLt
        rw [BitVec.toNat_add]; omega
      have := k.isLt
      unfold fillTable
      simp only [he]
      rw [if_pos (by omega)]
    have hset : s.inst.tables.set t tb = s.inst.tables := by
      apply List.ext_getElem?
      intro j
      by_cases hjt : j = t
      · subst hjt; rw [List.getElem?_set_self hlt, ht]
      · rw [List.getElem?_set_ne (Ne.symm hjt)]
    rw [hs, hf]
    simp only [Res.bind_ok, hset]
    rfl

/-- the three cases occur: a table of three, filled from 0 with the numbers in the registers (0 and 0), and the failing sums -/
example : exGlobals.inst.tables[0]? = some [.null, .null, .null] ∧ exGlobals.rf.get .i32 0 = .ok (0 : BitVec 32) ∧
    exGlobals.rf.get .ref 0 = .ok Ref.null ∧
    (∃ i k : BitVec 32, i.toNat + k.toNat < 2 ^ 32 ∧ 3 < i.toNat + k.toNat ∧ k ≠ 0) ∧
    (∃ i k : BitVec 32, 2 ^ 32 ≤ i.toNat + k.toNat) :=
  ⟨rfl, rfl, rfl, ⟨2#32, 2#32, by decide⟩, ⟨4294967295#32, 2#32, by decide⟩⟩

end Verif.Props
