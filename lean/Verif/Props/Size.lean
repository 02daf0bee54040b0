import Verif.Lemmas.Growth
import Verif.Props.EndToEndEx
/-
The size of a function's registers, from its text.  This replaces the one assumption of the end-to-end theorems (`Fits`) that
mentions the outcome of the translation by one that only looks at the source.
-/
namespace Verif.Props
open Verif.Model Verif.Spec Verif.Lemmas

/-- The registers of a class the translation of any operators asks for number at most the declared locals of the class
plus the values the operators can push.  (Parameters are kept elsewhere.)  Nothing is assumed about the operators: they need not
be valid, nor even properly bracketed. -/
theorem registers_bounded {K : FnCtx} {ops : List WOp} {code : Code} {W : Cls → Nat} (h : compileFn K ops = some code)
    (ha : code.alloc = some W) (c : Cls) : W c ≤ declared K.locals c + (ops.map (grows K.M)).sum :=
  compile_room h ha c

/-- Whether a function is within the interpreter's limits can be read off its text. -/
theorem fits_of_text {M : MInfo} {t : FuncType} {ls : List (Nat × Cls)} {b : WSeq} (h : FitsText M t ls b) : Fits M t ls b :=
  ⟨h.results, h.noRefs, fun _ _ hc ha c => Nat.le_trans (registers_bounded hc ha c) (h.size c)⟩

/-- A module all of whose functions are valid, in the faithfully translated part of WebAssembly and not too long is accepted. -/
theorem accepted_of_text {S : Wasi} {Q : SProg} {globals : List Cls}
    (hf : ∀ t ls b, SFunc.wasm t ls b ∈ Q.funcs → Spec.Faithful (fnCtx (Q.info globals) t ls) b)
    (ht : ∀ t ls b, SFunc.wasm t ls b ∈ Q.funcs → FitsText (Q.info globals) t ls b)
    (hh : ∀ t id, SFunc.wasi t id ∈ Q.funcs → ∀ args m w (r : Option Val) m' w', args.map (·.cls) = t.params →
      S.call id args m w = .ok (some r, m', w') → r.toList.map (·.cls) = t.results)
    (h1 : ∀ t id, SFunc.wasi t id ∈ Q.funcs → t.results.length ≤ 1) : Accepted S Q globals :=
  ⟨hf, fun t ls b h => fits_of_text (ht t ls b h), hh, h1⟩

/-- the functions of the example file, locals and nested blocks included, meet the condition -/
example : ∀ t ls b, SFunc.wasm t ls b ∈ (FileEx.A.source Sample.host).funcs → FitsText FileEx.info t ls b := by
  intro t ls b h
  rw [FileEx.infoEq]
  rcases FileEx.mem_funcs h with ⟨rfl, rfl, rfl⟩ | ⟨rfl, rfl, rfl⟩
  · exact ⟨by decide, by simp, fun c => by cases c <;> decide⟩
  · exact ⟨by decide, by simp, fun c => by cases c <;> decide⟩

/-- the bound is reached: one constant needs one register -/
example : (compileFn ⟨⟨[], [], []⟩, [], [], []⟩ [.const .i64 (0 : BitVec 64), .drop, .fin]).map (fun c => c.alloc.map (· .i64)) = some (some 1) ∧
    declared [] .i64 + ([WOp.const .i64 (0 : BitVec 64), .drop, .fin].map (grows ⟨[], [], []⟩)).sum = 1 := by
  constructor <;> decide +kernel

end Verif.Props
