import Verif.Lemmas.Steady
import Verif.Props.Asks
/-
Modules that cannot reach a deviation (C51, C54, C65): nothing has to be assumed about their executions.
-/
namespace Verif.Props
open Verif.Model Verif.Spec Verif.Lemmas

/-- **C51** for modules of steady functions: nothing is assumed about the execution. -/
theorem steady_is_webassembly {S : Wasi} (hS : WasiKeepsSize S) (hD : Defined S) {A : SMod} {H : FloatHost} (h : A.WellFormed S H)
    (hx : MaxPages A) (hN : A.Named H) (hA : A.Steady H) {P : Prog} (hc : (A.source H).compile A.globalTypes = some P)
    (hn : (A.exports.map (·.1)).Nodup) {name : String} {f : Nat}
    (he : (name, .func f) ∈ A.exports) {t : FuncType} {ls : List (Nat × Cls)} {b : WSeq}
    (hf : (A.source H).funcs[f]? = some (.wasm t ls b)) {args : List Val} (hargs : args.map (·.cls) = t.params)
    (atomics : Bool) {D : Env → Dispatcher} (hB : Build D) (enable : Bool) (world : S.W) {st : Store} (hst : InitialStore A st) :
    (∀ vs st' w', MainShows H atomics D enable (some A.file) name args world (.ok (vs, st', w')) ↔
      Call S (A.source H) ((A.source H).info A.globalTypes) (.wasm t ls b) args st world (.ok vs st' w')) ∧
    (∀ c, MainShows (S := S) H atomics D enable (some A.file) name args world (.trap (.processExit c)) ↔
      (∃ st' w', Call S (A.source H) ((A.source H).info A.globalTypes) (.wasm t ls b) args st world (.exit c st' w'))) ∧
    ((∃ o, MainShows (S := S) H atomics D enable (some A.file) name args world o ∧
        (o = .panic ∨ ∃ e, o = .trap e ∧ ∀ c, e ≠ .processExit c)) ↔
      (∃ st' w', Call S (A.source H) ((A.source H).info A.globalTypes) (.wasm t ls b) args st world (.trap st' w'))) ∧
    ¬ MainShows (S := S) H atomics D enable (some A.file) name args world .ub :=
  main_is_webassembly hS h hx hN hc hn he hf hargs atomics hB enable world hst (never_deviates hA hD (List.mem_of_getElem? hf) hst)

/-- **C54, C65** for modules of steady functions.  Begin a session on a module file, let it be checkpointed any number of times, at
any moments, each time continued by a process that restores the checkpoint, and let one more process come to an end.  It ends as the
WebAssembly rules say the call ends — so it ends only if the rules let the call end —, and the host has been asked exactly what
they say. -/
theorem steady_session {S : Wasi} (hS : WasiKeepsSize S) (hD : Defined S) {T : FloatText} {lz : Lz} {A : SMod} {H : FloatHost}
    (h : A.WellFormed S H) (hx : MaxPages A) (hN : A.Named H) (hA : A.Steady H) {P : Prog}
    (hc : (A.source H).compile A.globalTypes = some P)
    (hm : Movable (A.source H)) (hn : (A.exports.map (·.1)).Nodup) {o : Options} (ho : o.restore = none) {f : Nat}
    (he : (o.invoke, .func f) ∈ A.exports) {t : FuncType} {ls : List (Nat × Cls)} {b : WSeq}
    (hf : (A.source H).funcs[f]? = some (.wasm t ls b)) {args : List Val} (hP : parseParams T o.params = .ok args)
    (hargs : args.map (·.cls) = t.params) {world : S.W} {st : Store} (hst : InitialStore A st)
    {o' : Options} {w' : S.W} {asked : Ask S.W → Prop} (hs : SoFar T lz H (some A.file) o world o' w' asked) (p : Process)
    {r : Res (Left S)} (hr : p.run T lz H (some A.file) o' w' = some r) (hfin : Finished r) :
    ((∃ vs st' w', Call S (A.source H) ((A.source H).info A.globalTypes) (.wasm t ls b) args st world (.ok vs st' w') ∧
      seen r = .ok (.result vs.getLast?, some (st', w'))) ∨
    (∃ c, (∃ st' w', Call S (A.source H) ((A.source H).info A.globalTypes) (.wasm t ls b) args st world (.exit c st' w')) ∧
      seen r = .ok (.exited c, none)) ∨
    ((∃ st' w', Call S (A.source H) ((A.source H).info A.globalTypes) (.wasm t ls b) args st world (.trap st' w')) ∧
      (seen r = .panic ∨ ∃ e, (∀ c, e ≠ .processExit c) ∧ seen r = .ok (.runFailed e, none)))) ∧
    ∀ q, asked q ∨ p.Asks T lz H (some A.file) o' w' q ↔
      CallAsks S (A.source H) ((A.source H).info A.globalTypes) (.wasm t ls b) args st world q := by
  have hodd := never_deviates (M := (A.source H).info A.globalTypes) (args := args) (w := world) hA hD (List.mem_of_getElem? hf) hst
  have hsess : Session T lz H (some A.file) o world r := by
    have : ∀ {o' : Options} {w' : S.W} {asked : Ask S.W → Prop}, SoFar T lz H (some A.file) o world o' w' asked →
        Session T lz H (some A.file) o' w' r → Session T lz H (some A.file) o world r := by
      intro o' w' asked hs
      induction hs with
      | start => exact id
      | move before p h hl hb hs hlen ih => exact fun k => ih (.move p h hl hb hs hlen k)
    exact this hs (.last p hr hfin)
  exact ⟨session_is_webassembly_partial hS h hx hN hc hm hn ho he hf hP hargs hst hodd hsess, fun q =>
    (session_asks_webassembly hS h hx hN hc hm hn ho he hf hP hargs hst hodd hs p q).2 r hr hfin⟩

end Verif.Props
