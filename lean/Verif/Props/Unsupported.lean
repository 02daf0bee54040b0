import Verif.Lemmas.Panics
import Verif.Props.Accept
/-
Modules using what the interpreter does not support are not run at all (C52, at the level of the command).
-/
namespace Verif.Props
open Verif.Model Verif.Spec Verif.Lemmas

/-- every function of a module is valid -/
def _root_.Verif.Spec.SMod.Valid (A : SMod) (H : FloatHost) : Prop :=
  ∀ d ∈ A.funcs, ValidFn (fnCtx ((A.source H).info A.globalTypes) (A.type d.type) d.locals) d.body

/-- every function of a module uses, in reachable code, supported operators only -/
def _root_.Verif.Spec.SMod.Supported (A : SMod) (H : FloatHost) : Prop :=
  ∀ d ∈ A.funcs, supported (fnCtx ((A.source H).info A.globalTypes) (A.type d.type) d.locals) d.body = true

theorem wasi_one (w : WasiFn) : w.type.results.length ≤ 1 := by cases w <;> decide

theorem source_hosts {A : SMod} {H : FloatHost} (h : A.Declared) : ∀ t id, SFunc.wasi t id ∈ (A.source H).funcs → t.results.length ≤ 1 := by
  intro t id hm
  simp only [SMod.source, List.mem_append, List.mem_map, reduceCtorEq, and_false, exists_false, or_false] at hm
  obtain ⟨i, hi, he⟩ := hm
  obtain ⟨w, hw, _⟩ := h.imports i hi
  simp only [hostFunc, hw, SFunc.wasi.injEq] at he
  rw [← he.1]; exact wasi_one w

theorem source_info_hosts {A : SMod} {H : FloatHost} (h : A.Declared) : Hosts ((A.source H).info A.globalTypes) := by
  refine ⟨fun f id t hf => ?_⟩
  simp only [SProg.info, List.getElem?_map, Option.map_eq_some_iff] at hf
  obtain ⟨F, h1, h2⟩ := hf
  cases F with
  | wasm => cases h2
  | wasi t' id' => cases h2; exact source_hosts h _ _ (List.mem_of_getElem? h1)

/-- **C52.** A file of a module whose declarations are in order and whose functions are valid is loaded exactly if all
functions are supported.  Otherwise loading panics. -/
theorem loads_iff_supported {A : SMod} {H : FloatHost} (h : A.Declared) (hv : A.Valid H) :
    ((∃ L, loadFile (some A.file) = .ok L) ↔ A.Supported H) ∧ (¬ A.Supported H → loadFile (some A.file) = .panic) := by
  have hbad : ¬ A.Supported H → loadFile (some A.file) = .panic := by
    intro hn
    have he : ∃ d ∈ A.funcs, supported (fnCtx ((A.source H).info A.globalTypes) (A.type d.type) d.locals) d.body = false := by
      apply Classical.byContradiction
      intro hc
      refine hn fun d hd => ?_
      cases hs : supported (fnCtx ((A.source H).info A.globalTypes) (A.type d.type) d.locals) d.body with
      | true => rfl
      | false => exact absurd ⟨d, hd, hs⟩ hc
    obtain ⟨hinfo, hnum⟩ := decls_info (H := H) h (M := { A.decls with datas := [] }) rfl rfl rfl (by simp [SMod.decls, stub])
    have key := codes_panic (A := A) (source_info_hosts h) (pre := []) (s := ⟨{ A.decls with datas := [] }, A.imports.length⟩) hv he hinfo rfl rfl
      (by simp [hnum])
    unfold loadFile
    rw [parse_around H h, key]
    rfl
  refine ⟨⟨fun ⟨L, hL⟩ => ?_, fun hs => ?_⟩, hbad⟩
  · apply Classical.byContradiction
    intro hn
    rw [hbad hn] at hL; cases hL
  · obtain ⟨P, hc⟩ := (valid_module_accepted_iff (Q := A.source H) (globals := A.globalTypes) (source_hosts h) (by
      intro t ls b hm
      simp only [SMod.source, List.mem_append, List.mem_map, SFunc.wasm.injEq] at hm
      rcases hm with ⟨i, _, he⟩ | ⟨d, hd, rfl, rfl, rfl⟩
      · simp only [hostFunc] at he
        split at he <;> cases he
      · exact hv d hd)).mpr (by
      intro t ls b hm
      simp only [SMod.source, List.mem_append, List.mem_map, SFunc.wasm.injEq] at hm
      rcases hm with ⟨i, _, he⟩ | ⟨d, hd, rfl, rfl, rfl⟩
      · simp only [hostFunc] at he
        split at he <;> cases he
      · exact hs d hd)
    obtain ⟨_, L, _, _, hL, _⟩ := load_declared h hc
    exact ⟨L, hL⟩

/-- **C52.** If one function of a module uses an unsupported operator in reachable code, the command panics before executing
anything, whatever function is named — also if that function and all it calls are supported. -/
theorem unsupported_never_runs {S : Wasi} {A : SMod} {H : FloatHost} (h : A.Declared) (hv : A.Valid H) (hn : ¬ A.Supported H)
    (E : Prog → Bool → Env) (D : Env → Dispatcher) (enable : Bool) (fuel : Nat) (name : String) (args : List Val) (world : S.W) :
    mainRun (S := S) E D enable fuel (some A.file) name args world = some .panic := by
  unfold mainRun
  rw [(loads_iff_supported h hv).2 hn]

/-! ### An example: `table.size` in a function nobody calls -/

namespace UnsupEx

/-- the example file with one more function, `table.size 0` behind a branch and, in a second one, in reachable code -/
def B (live : Bool) : SMod := { FileEx.A with funcs := FileEx.A.funcs ++
  [⟨1, [], if live then .op (.localGet 0) <| .op .drop <| .op (.other [] [.i32]) .done
           else .op (.localGet 0) <| .op .ret <| .op (.other [] [.i32]) .done⟩] }

theorem declared (live : Bool) : (B live).Declared := by
  obtain ⟨h1, h2, h3, h4, h5⟩ := FileEx.wellFormed.declared
  refine ⟨h1, h2, h3, ?_, h5⟩
  cases live <;>
  exact {
    imports := h4.imports
    types := by
      intro f hf
      simp only [SMod.decls, B, List.map_append, List.mem_append, List.map_cons, List.map_nil, List.mem_singleton] at hf
      rcases hf with hf | rfl
      · exact h4.types f hf
      · decide
    mems := h4.mems
    globals := h4.globals
    elems := by
      intro e he
      obtain ⟨a, b, c⟩ := h4.elems e he
      exact ⟨a, fun f hf => Nat.lt_of_lt_of_le (b f hf) (by simp [SMod.decls, B]), c⟩
    datas := h4.datas
    exports := by
      intro e he
      have k := h4.exports e he
      cases hx : e.2 <;> rw [hx] at k <;> first | exact k | (simp only [SMod.decls, B, List.length_append, List.length_map] at k ⊢; omega)
    start := by decide +kernel }

theorem valid (live : Bool) : (B live).Valid Sample.host := by
  intro d hd
  have hd' : d ∈ FileEx.A.funcs ++ _ := hd
  cases live <;>
  · simp only [FileEx.A, List.cons_append, List.nil_append, List.mem_cons, List.not_mem_nil, or_false] at hd'
    rcases hd' with rfl | rfl | rfl
    · exact ⟨by simp [FileEx.addG, WSeq.Proper, isBracket], some [.i32], by decide +kernel, by decide⟩
    · exact ⟨by simp [FileEx.main, WSeq.Proper, isBracket], some [.i32], by decide +kernel, by decide⟩
    · exact ⟨by simp [WSeq.Proper, isBracket], _, rfl, by decide⟩

/-- in unreachable code the operator does no harm -/
example : ∃ L, loadFile (some (B false).file) = .ok L := (loads_iff_supported (declared _) (valid _)).1.mpr (by unfold SMod.Supported; decide +kernel)

/-- in reachable code it makes the whole module unusable -/
theorem table_size_rejected : loadFile (some (B true).file) = .panic := (loads_iff_supported (declared _) (valid _)).2 (by unfold SMod.Supported; decide +kernel)

end UnsupEx

end Verif.Props
