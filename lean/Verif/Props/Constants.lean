import Verif.Props.Loading
/-
C68: initialisers the interpreter does not support.
-/
namespace Verif.Props
open Verif.Model Verif.Spec Verif.Lemmas

/-- the expression uses an operator that is not a single constant, reference or `global.get` (`i32.add`, say) -/
def CExpr.Extended (e : CExpr) : Prop := .other ∈ e

theorem initOk_extended {e : CExpr} (h : CExpr.Extended e) : initOk e = false := by
  have h' : ConstOp.other ∈ e := h
  simp only [initOk, List.all_eq_false, decide_eq_true_eq, Decidable.not_not]
  exact ⟨_, h', rfl⟩

/-- a section with such a global is an error -/
theorem each_globals_fails {g : Bool × Cls × CExpr} (hg : CExpr.Extended g.2.2) : ∀ {gs : List (Option (Bool × Cls × CExpr))} {s : PSt},
    some g ∈ gs → ∃ s', each decodeGlobal s gs = .err s'
  | [], _, h => by cases h
  | none :: gs, s, _ => ⟨s, rfl⟩
  | some a :: gs, s, h => by
    unfold each
    by_cases ha : initOk a.2.2 = true
    · have hne : a ≠ g := by rintro rfl; rw [initOk_extended hg] at ha; cases ha
      have h' : some g ∈ gs := by
        simp only [List.mem_cons, Option.some.injEq] at h
        rcases h with h | h
        · exact (hne h.symm).elim
        · exact h
      simp only [decodeGlobal, ha, if_true]
      exact each_globals_fails hg h'
    · have ha' : initOk a.2.2 = false := by simpa using ha
      simp only [decodeGlobal, ha', Bool.false_eq_true, if_false]
      exact ⟨s, rfl⟩

/-- an error ends the decoding -/
theorem parse_stops {pre : List Payload} {s s' : PSt} (post : List Payload) (h : parseFrom s pre = .err s') :
    parseFrom s (pre ++ post) = .err s' := by rw [parseFrom_append, h]; rfl

/-- so does a panic -/
theorem parse_panics {pre : List Payload} {s : PSt} (post : List Payload) (h : parseFrom s pre = .panic) :
    parseFrom s (pre ++ post) = .panic := by rw [parseFrom_append, h]; rfl

/-- no export has been decoded when a section before the exports fails -/
theorem parse_err_exports : ∀ {pre : List Payload} {s s1 : PSt}, (∀ p ∈ pre, beforeExports p = true) → parseFrom s pre = .err s1 →
    s1.m.exports = s.m.exports
  | [], s, s1, _, h => by cases h
  | p :: ps, s, s1, hp, h => by
    unfold parseFrom at h
    cases hd : decodePayload s p with
    | ok s2 =>
      rw [hd] at h
      exact (parse_err_exports (fun q hq => hp q (by simp [hq])) h).trans ((payload_exports (hp p (by simp)) s).1 s2 hd)
    | err s2 => rw [hd] at h; cases h; exact (payload_exports (hp p (by simp)) s).2 s1 hd
    | panic => rw [hd] at h; cases h

/-- **C68** (partial) A module one of whose globals is initialised by an expression with an operator the interpreter does not
evaluate is never executed, whatever precedes and follows: the command stops with an error or a panic.  Missing: the same for offsets of
data and element segments, which is false of the code (`ConstEx.extended_data_violated`, `ConstEx.extended_elem_violated`). -/
theorem extended_global_refused_partial {S : Wasi} {pre post : List Payload} {gs : List (Option (Bool × Cls × CExpr))}
    (hpre : ∀ q ∈ pre, beforeExports q = true) {g : Bool × Cls × CExpr} (hg : some g ∈ gs) (he : CExpr.Extended g.2.2)
    (E : Prog → Bool → Env) (D : Env → Dispatcher) (enable : Bool) (fuel : Nat) (name : String) (args : List Val) (world : S.W) :
    mainRun (S := S) E D enable fuel (some (pre ++ .globals gs :: post)) name args world = some (.trap .exportNotFound) ∨
    mainRun (S := S) E D enable fuel (some (pre ++ .globals gs :: post)) name args world = some .panic := by
  cases h : parseFile (some pre) with
  | ok s1 =>
    obtain ⟨s2, h2⟩ := each_globals_fails he (s := s1) hg
    exact damaged_head_rejected_partial (p := .globals gs) hpre rfl h h2 E D enable fuel name args world
  | err s =>
    exact malformed_rejected_partial (file := some (pre ++ .globals gs :: post)) (s := s) (parse_stops _ h)
      (parse_err_exports hpre h) E D enable fuel name args world
  | panic =>
    right
    have hp : parseFile (some (pre ++ .globals gs :: post)) = .panic := parse_panics _ h
    unfold mainRun loadFile
    rw [hp]

/-- the hypotheses are met: a global initialised by `1 + 2`, after a type section and before a complete rest -/
example {S : Wasi} (post : List Payload) (E : Prog → Bool → Env) (D : Env → Dispatcher) (fuel : Nat) (world : S.W) :
    mainRun (S := S) E D false fuel (some ([.version 1, .types [some ⟨[], []⟩]] ++ .globals [some (false, .i32, [.i32 1, .i32 2, .other])] :: post))
      "run" [] world = some (.trap .exportNotFound) ∨
    mainRun (S := S) E D false fuel (some ([.version 1, .types [some ⟨[], []⟩]] ++ .globals [some (false, .i32, [.i32 1, .i32 2, .other])] :: post))
      "run" [] world = some .panic :=
  extended_global_refused_partial (by simp [beforeExports]) (List.mem_singleton.2 rfl) (by simp [CExpr.Extended]) E D false fuel "run" [] world

namespace ConstEx

/-- reads the byte at address 3 -/
def byte3 : WSeq := .op (ci 3) <| .op (.load .i32_8u 0) .done

/-- a module with a data segment `[65]` placed at `1 + 2` -/
def file : List Payload :=
  [.version 1, .types [some ⟨[], [.i32]⟩], .funcs [some 0], .mems [some ⟨1, none⟩], .exports [some ("run", .func 0)],
   .code [] byte3.body false, .datas [some ([65], .active 0 [.i32 1, .i32 2, .other])]]

/-- the same module with the offset as one constant -/
def plain : List Payload :=
  [.version 1, .types [some ⟨[], [.i32]⟩], .funcs [some 0], .mems [some ⟨1, none⟩], .exports [some ("run", .func 0)],
   .code [] byte3.body false, .datas [some ([65], .active 0 [.i32 3])]]

/-- **C68 is false of the code.**  The data segment goes to address `1 + 2`; its section is not decoded, and the command runs the function
all the same and shows 0 where the file says 65 — which is what it shows when the offset is written as a single constant. -/
theorem extended_data_violated :
    CExpr.Extended [.i32 1, .i32 2, .other] ∧
    LoadEx.failed (parseFile (some file)) = true ∧
    (∀ atomics en, LoadEx.results (mainRun (S := LoadEx.wasi) (envOf Sample.host atomics fun _ => false) loopD en 10 (some file) "run" [] ())
      = some [vi 0]) ∧
    (∀ atomics en, LoadEx.results (mainRun (S := LoadEx.wasi) (envOf Sample.host atomics fun _ => false) tcoD en 10 (some file) "run" [] ())
      = some [vi 0]) ∧
    (∀ atomics en, LoadEx.results (mainRun (S := LoadEx.wasi) (envOf Sample.host atomics fun _ => false) loopD en 10 (some plain) "run" [] ())
      = some [vi 65]) := by
  refine ⟨by simp [CExpr.Extended], by decide +kernel, ?_, ?_, ?_⟩ <;> decide +kernel

/-- a module with a function placed in the table at `off`, and a function that tells whether entry 3 is null -/
def tableFile (off : CExpr) : List Payload :=
  [.version 1, .types [some ⟨[], [.i32]⟩], .funcs [some 0], .tables [some (⟨4, none⟩, true)], .exports [some ("run", .func 0)],
   .elems [some (.funcs [0], .active none off)],
   .code [] (WSeq.op (ci 3) <| .op (.tableGet 0) <| .op .refIsNull .done).body false]

/-- Worse for an element segment, as the code comes after it in the file: the function has an empty body then, and the command ends
successfully, with no result at all.  With the offset as one constant the result is 0. -/
theorem extended_elem_violated :
    CExpr.Extended [.i32 1, .i32 2, .other] ∧
    LoadEx.failed (parseFile (some (tableFile [.i32 1, .i32 2, .other]))) = true ∧
    (∀ atomics en, LoadEx.results (mainRun (S := LoadEx.wasi) (envOf Sample.host atomics fun _ => false) loopD en 10
      (some (tableFile [.i32 1, .i32 2, .other])) "run" [] ()) = some []) ∧
    (∀ atomics en, LoadEx.results (mainRun (S := LoadEx.wasi) (envOf Sample.host atomics fun _ => false) tcoD en 10
      (some (tableFile [.i32 1, .i32 2, .other])) "run" [] ()) = some []) ∧
    (∀ atomics en, LoadEx.results (mainRun (S := LoadEx.wasi) (envOf Sample.host atomics fun _ => false) loopD en 10
      (some (tableFile [.i32 3])) "run" [] ()) = some [vi 0]) := by
  refine ⟨by simp [CExpr.Extended], by decide +kernel, ?_, ?_, ?_⟩ <;> decide +kernel

end ConstEx

end Verif.Props
