import Verif.Props.Loading
/-
C22: local indices are kept in 16 bits.
-/
namespace Verif.Props
open Verif.Model Verif.Spec Verif.Lemmas
namespace WideEx

/-- sets local 65536 to 5 and returns local 0 -/
def body : WSeq := .op (ci 5) <| .op (.localSet 65536) <| .op (.localGet 0) .done

/-- a module with that function, which declares 65537 locals -/
def A : SMod where
  types := [⟨[], [.i32]⟩]
  imports := []
  funcs := [⟨0, [(65537, .i32)], body⟩]
  tables := []
  mems := []
  globals := []
  exports := [("run", .func 0)]
  start := none
  elems := []
  datas := []

/-- **C22 is false of the code for functions with more than 65536 locals.**  Local 0 is never assigned, so WebAssembly says the function
returns 0; the command shows 5, with either dispatcher: the preprocessor takes local 65536 for local 0. -/
theorem many_locals_violated :
    LoadEx.callResult (invoke LoadEx.wasi (A.source Sample.host) ((A.source Sample.host).info A.globalTypes) 5
      (.wasm ⟨[], [.i32]⟩ [(65537, .i32)] body) [] ⟨none, [], [], []⟩ ()) = some ([vi 0], []) ∧
    (∀ atomics en, LoadEx.results (mainRun (S := LoadEx.wasi) (envOf Sample.host atomics fun _ => false) loopD en 10 (some A.file) "run" [] ())
      = some [vi 5]) ∧
    (∀ atomics en, LoadEx.results (mainRun (S := LoadEx.wasi) (envOf Sample.host atomics fun _ => false) tcoD en 10 (some A.file) "run" [] ())
      = some [vi 5]) := by
  refine ⟨by decide +kernel, ?_, ?_⟩ <;> decide +kernel

end WideEx
end Verif.Props
