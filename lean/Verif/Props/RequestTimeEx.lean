import Verif.Props.RequestTime
import Verif.Props.ExecutedEx
import Verif.Props.NoTraceEx
/-
C32, counted in instructions, at work.
-/
namespace Verif.Props
open Verif.Model Verif.Spec Verif.Lemmas
namespace DropEx
open SessionEx (text lz opts)

/-- whatever the flag does before and after its look number 10, and whatever the dispatcher -/
example (p : Process) (ha : p.atomics = true) (hcr : p.cr = true) (h : p.trig 10 = true) {l : List (Nat × Nat)}
    (he : p.Executes (S := SessionEx.wasi) text lz Sample.host (some C.file) opts (0 : Nat) l) : l.length ≤ 10 :=
  executed_before_request_partial p opts _ ha hcr rfl h he

/-- The bound is met (flag up at look 10), by both dispatchers; at look 11 the process has been about to return from a function, which
takes no instruction. -/
theorem bound_met : (execs byTco (SessionEx.stopped 10) opts 0).map (·.length) = some 10 ∧
    (execs byLoop (SessionEx.stoppedL 10) opts 0).map (·.length) = some 10 ∧
    (execs byTco (SessionEx.stopped 11) opts 0).map (·.length) = some 10 := by
  refine ⟨?_, ?_, ?_⟩ <;> decide +kernel

end DropEx
end Verif.Props
