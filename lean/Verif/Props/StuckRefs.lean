import Verif.Props.TypedCells
import Verif.Props.Effects
/-
C35, whole runs: the WebAssembly type of what a global holds.
-/
namespace Verif.Props
open Verif.Model Verif.Spec

theorem global_ty_kept {S : Wasi} {E : Env} {D : Dispatcher} (hD : IsD E D) {en : Bool} {m m' : Machine S}
    (h : Reach E D en m m') {g : Nat} {gl : Global} (hg : m.inst.globals[g]? = some gl) :
    ∃ gl', m'.inst.globals[g]? = some gl' ∧ gl'.mutable_ = gl.mutable_ ∧ gl.value.ty = gl'.value.ty := by
  have ht : m'.inst.globals.map Global.ty = m.inst.globals.map Global.ty := congrArg Prod.fst (types_never_change hD h)
  have h1 := congrArg (fun l => l[g]?) ht
  simp only [List.getElem?_map, hg, Option.map_some] at h1
  obtain ⟨gl', h2, h3⟩ := Option.map_eq_some_iff.mp h1
  exact ⟨gl', h2, congrArg Prod.fst h3, (congrArg Prod.snd h3).symm⟩

/-- C35, typed cells over whole runs.  Whatever a run executes, a global keeps existing and keeps its mutability, and after it
holds a value of the type it held a value of before: for every type except `externref` that type, and an `externref` that is not null stays
an `externref` that is not null. -/
theorem global_keeps_wasm_type {S : Wasi} {E : Env} {D : Dispatcher} (hD : IsD E D) {en : Bool} {m m' : Machine S}
    (h : Reach E D en m m') {g : Nat} {gl : Global} (hg : m.inst.globals[g]? = some gl) :
    ∃ gl', m'.inst.globals[g]? = some gl' ∧ gl'.mutable_ = gl.mutable_ ∧
      ∀ t, HasType gl.value t → (t = .externref → ¬ IsNull gl.value) →
        HasType gl'.value t ∧ (t = .externref → ¬ IsNull gl'.value) := by
  obtain ⟨gl', h1, h2, h3⟩ := global_ty_kept hD h hg
  refine ⟨gl', h1, h2, fun t ht hn => ?_⟩
  obtain ⟨u, hu, hu', hun⟩ := (ty_eq_iff _ _).mp h3
  have : u = t := by
    rcases gl with ⟨_, cls, v⟩
    cases ht <;> cases hu <;> first
      | rfl
      | exact absurd rfl (hun rfl).1
      | exact absurd rfl (hn rfl)
  subst this
  exact ⟨hu', fun he => (hun he).2⟩

/-- C35 is false for `externref` globals over whole runs: one that holds null never comes to hold an external reference, whatever the
program stores into it (an `externref` global declared with `ref.null` is useless) ... -/
theorem null_global_never_extern_violated {S : Wasi} {E : Env} {D : Dispatcher} (hD : IsD E D) {en : Bool} {m m' : Machine S}
    (h : Reach E D en m m') {g : Nat} {mu : Bool} (hg : m.inst.globals[g]? = some ⟨mu, ⟨.ref, Ref.null⟩⟩) (a : Nat) :
    m'.inst.globals[g]? ≠ some ⟨mu, ⟨.ref, Ref.extern a⟩⟩ := by
  intro he
  obtain ⟨gl', h1, -, h3⟩ := global_ty_kept hD h hg
  rw [he] at h1; cases h1
  simp [Val.ty, Val.isExtern] at h3

/-- ... and one that holds an external reference can never be cleared. -/
theorem extern_global_never_null_violated {S : Wasi} {E : Env} {D : Dispatcher} (hD : IsD E D) {en : Bool} {m m' : Machine S}
    (h : Reach E D en m m') {g a : Nat} {mu : Bool} (hg : m.inst.globals[g]? = some ⟨mu, ⟨.ref, Ref.extern a⟩⟩) :
    m'.inst.globals[g]? ≠ some ⟨mu, ⟨.ref, Ref.null⟩⟩ := by
  intro he
  obtain ⟨gl', h1, -, h3⟩ := global_ty_kept hD h hg
  rw [he] at h1; cases h1
  simp [Val.ty, Val.isExtern] at h3

/-- the sample module with a null reference, an external reference and a function reference among its globals -/
def exRefGlobals : Inst :=
  { Ex.inst with globals := [⟨true, ⟨.i32, (0 : BitVec 32)⟩⟩, ⟨true, ⟨.ref, Ref.null⟩⟩, ⟨true, ⟨.ref, Ref.extern 7⟩⟩, ⟨true, ⟨.ref, Ref.func 1⟩⟩] }

/-- on every run of a program with recursion, a loop, an indirect call and host calls -/
example (n : BitVec 32) {m' : Machine Ex.wasi} (h : Reach Ex.env (loopD Ex.env) true (Ex.machine exRefGlobals n) m') :
    m'.inst.globals[1]? ≠ some ⟨true, ⟨.ref, Ref.extern 7⟩⟩ ∧ m'.inst.globals[2]? ≠ some ⟨true, ⟨.ref, Ref.null⟩⟩ ∧
    (∃ n : BitVec 32, m'.inst.globals[0]?.map (·.value) = some ⟨.i32, n⟩) := by
  refine ⟨null_global_never_extern_violated .loop h rfl 7, extern_global_never_null_violated .loop h rfl, ?_⟩
  obtain ⟨gl', h1, -, h3⟩ := global_keeps_wasm_type .loop h (g := 0) (gl := ⟨true, ⟨.i32, (0 : BitVec 32)⟩⟩) rfl
  rw [h1]
  obtain ⟨mu, cls, v⟩ := gl'
  cases (h3 .i32 (.i32 _) nofun).1
  exact ⟨_, rfl⟩

end Verif.Props
