import Verif.Props.EndToEndEx
/-
C37 (the start function) and C43 (malformed files): what the command does with them.
-/
namespace Verif.Props
open Verif.Model Verif.Spec Verif.Lemmas

namespace LoadEx

/-- a host that is never called -/
def wasi : Wasi := Sample.wasi

/-- sets global 0 to 1 -/
def init : WSeq := .op (ci 1) <| .op (.globalSet 0) .done
/-- reads global 0 -/
def get : WSeq := .op (.globalGet 0) .done

/-- a module whose start function sets the global that the exported function reads -/
def A : SMod where
  types := [⟨[], []⟩, ⟨[], [.i32]⟩]
  imports := []
  funcs := [⟨0, [], init⟩, ⟨1, [], get⟩]
  tables := []
  mems := []
  globals := [(true, .i32, [.i32 0])]
  exports := [("get", .func 1)]
  start := some 0
  elems := []
  datas := []

/-- the initial store -/
def store : Store := ⟨none, [⟨true, vi 0⟩], [], []⟩

/-- final results and outcome of a run -/
def results {S : Wasi} : Option (Res (End S)) → Option (List Val)
  | some (.ok (.done vs _)) => some vs
  | _ => none

/-- outcome of a call in the source -/
def callResult {W : Type} : COut W → Option (List Val × List Global)
  | .ok vs st _ => some (vs, st.globals)
  | _ => none

/-- **C37 is false of the code.**  The start function sets the global to 1, so WebAssembly says the exported function
returns 1; the command shows 0, with either dispatcher. -/
theorem start_not_run_violated :
    A.start = some 0 ∧
    callResult (invoke wasi (A.source Sample.host) ((A.source Sample.host).info A.globalTypes) 5 (.wasm ⟨[], []⟩ [] init) [] store ())
      = some ([], [⟨true, vi 1⟩]) ∧
    callResult (invoke wasi (A.source Sample.host) ((A.source Sample.host).info A.globalTypes) 5 (.wasm ⟨[], [.i32]⟩ [] get) []
      { store with globals := [⟨true, vi 1⟩] } ()) = some ([vi 1], [⟨true, vi 1⟩]) ∧
    (∀ atomics en, results (mainRun (S := wasi) (envOf Sample.host atomics fun _ => false) loopD en 10 (some A.file) "get" [] ())
      = some [vi 0]) ∧
    (∀ atomics en, results (mainRun (S := wasi) (envOf Sample.host atomics fun _ => false) tcoD en 10 (some A.file) "get" [] ())
      = some [vi 0]) := by
  refine ⟨rfl, by decide +kernel, by decide +kernel, ?_, ?_⟩ <;> decide +kernel

/-! ## C43 -/

/-- returns 7 -/
def seven : WSeq := .op (ci 7) .done
/-- calls function 1 and returns 7 -/
def callBad : WSeq := .op (.call 1) <| .op (ci 7) .done

/-- a file whose second body breaks off at an undecodable operator (after `i32.const 1`) -/
def broken (first : WSeq) : List Payload :=
  [.version 1, .types [some ⟨[], [.i32]⟩, some ⟨[], []⟩], .funcs [some 0, some 1], .exports [some ("run", .func 0)],
   .code [] first.body false, .code [] [ci 1] true, .datas []]

/-- did decoding fail -/
def failed : Parsed → Bool
  | .err _ => true
  | _ => false

/-- **C43 is false of the code.**  Decoding the file fails at its second function body; the command nevertheless runs the
first function and shows its result — even when that function calls the one that could not be decoded, which then does
nothing. -/
theorem malformed_runs_violated :
    failed (parseFile (some (broken seven))) = true ∧ failed (parseFile (some (broken callBad))) = true ∧
    (∀ atomics en, results (mainRun (S := wasi) (envOf Sample.host atomics fun _ => false) loopD en 10 (some (broken seven)) "run" [] ())
      = some [vi 7]) ∧
    (∀ atomics en, results (mainRun (S := wasi) (envOf Sample.host atomics fun _ => false) tcoD en 10 (some (broken seven)) "run" [] ())
      = some [vi 7]) := by
  refine ⟨by decide +kernel, by decide +kernel, ?_, ?_⟩ <;> decide +kernel

/-- did the run leave the defined behaviour of the interpreter -/
def isUb {S : Wasi} : Option (Res (End S)) → Bool
  | some .ub => true
  | _ => false

/-- Worse: when the first function calls the one that could not be decoded, the return from it discards the caller's register
window, and the caller goes on to access registers outside the register file (without a bounds check). -/
theorem malformed_ub_violated :
    (∀ atomics en, isUb (mainRun (S := wasi) (envOf Sample.host atomics fun _ => false) loopD en 10 (some (broken callBad)) "run" [] ())
      = true) ∧
    (∀ atomics en, isUb (mainRun (S := wasi) (envOf Sample.host atomics fun _ => false) tcoD en 10 (some (broken callBad)) "run" [] ())
      = true) := by
  constructor <;> decide +kernel

end LoadEx

/-- **C43** (partial: decoding fails before any export has been decoded — a missing file, a wrong version, a malformed type,
import, function, table, memory or global section, or the first export).  Then nothing is executed, whatever the rest of
the file holds: the command stops with an error or a panic.  Missing: failures after the exports, see
`LoadEx.malformed_runs_violated`. -/
theorem malformed_rejected_partial {S : Wasi} {file : WFile} {s : PSt} (h : parseFile file = .err s) (he : s.m.exports = [])
    (E : Prog → Bool → Env) (D : Env → Dispatcher) (enable : Bool) (fuel : Nat) (name : String) (args : List Val) (world : S.W) :
    mainRun (S := S) E D enable fuel file name args world = some (.trap .exportNotFound) ∨
    mainRun (S := S) E D enable fuel file name args world = some .panic := by
  unfold mainRun loadFile
  rw [h]
  simp only
  cases hi : instantiate s.m with
  | ok L =>
    left
    simp only
    have hx := export_missing hi name (by simp [he])
    rw [hx]
  | trap e => right; rfl
  | panic => right; rfl
  | ub => right; rfl

/-- the decoders of the sections before the exports do not touch the exports -/
def beforeExports : Payload → Bool
  | .version _ | .types _ | .imports _ | .funcs _ | .tables _ | .mems _ | .globals _ | .ignored | .bad => true
  | _ => false

theorem each_exports {α : Type} {f : PSt → α → Parsed}
    (hf : ∀ s a, (∀ s', f s a = .ok s' → s'.m.exports = s.m.exports) ∧ (∀ s', f s a = .err s' → s'.m.exports = s.m.exports)) :
    ∀ {as : List (Option α)} {s : PSt}, (∀ s', each f s as = .ok s' → s'.m.exports = s.m.exports) ∧
      (∀ s', each f s as = .err s' → s'.m.exports = s.m.exports)
  | [], s => by
    refine ⟨fun s' h => ?_, fun s' h => ?_⟩ <;> cases h
    rfl
  | none :: as, s => by
    refine ⟨fun s' h => ?_, fun s' h => ?_⟩ <;> cases h
    rfl
  | some a :: as, s => by
    unfold each
    cases h1 : f s a with
    | ok s1 =>
      have e := (hf s a).1 s1 h1
      refine ⟨fun s' h => ?_, fun s' h => ?_⟩
      · exact ((each_exports hf (as := as)).1 s' h).trans e
      · exact ((each_exports hf (as := as)).2 s' h).trans e
    | err s1 =>
      refine ⟨fun s' h => (by cases h), fun s' h => ?_⟩
      cases h; exact (hf s a).2 s1 h1
    | panic => exact ⟨fun s' h => (by cases h), fun s' h => (by cases h)⟩

theorem payload_exports {p : Payload} (hp : beforeExports p = true) (s : PSt) :
    (∀ s', decodePayload s p = .ok s' → s'.m.exports = s.m.exports) ∧
    (∀ s', decodePayload s p = .err s' → s'.m.exports = s.m.exports) := by
  cases p with
  | version n =>
    simp only [decodePayload]
    split
    · exact ⟨fun s' h => (by cases h; rfl), fun s' h => (by cases h)⟩
    · exact ⟨fun s' h => (by cases h), fun s' h => (by cases h; rfl)⟩
  | types ts => exact each_exports fun s a => ⟨fun s' h => (by cases h; rfl), fun s' h => (by cases h)⟩
  | imports is =>
    have := each_exports (f := decodeImport) (as := is) (s := s) (by
      intro s a
      unfold decodeImport
      split
      · exact ⟨fun s' h => (by cases h; rfl), fun s' h => (by cases h)⟩
      · exact ⟨fun s' h => (by cases h), fun s' h => (by cases h)⟩)
    simp only [decodePayload]
    cases h1 : each decodeImport s is with
    | ok s1 => exact ⟨fun s' h => (by cases h; exact this.1 s1 h1), fun s' h => (by cases h)⟩
    | err s1 => exact ⟨fun s' h => (by cases h), fun s' h => (by cases h; exact this.2 s1 h1)⟩
    | panic => exact ⟨fun s' h => (by cases h), fun s' h => (by cases h)⟩
  | funcs fs => exact each_exports fun s a => ⟨fun s' h => (by cases h; rfl), fun s' h => (by cases h)⟩
  | tables ts =>
    refine each_exports fun s a => ?_
    unfold decodeTable
    split
    · exact ⟨fun s' h => (by cases h; rfl), fun s' h => (by cases h)⟩
    · exact ⟨fun s' h => (by cases h), fun s' h => (by cases h)⟩
  | mems ms =>
    refine each_exports fun s a => ?_
    unfold decodeMem
    split
    · exact ⟨fun s' h => (by cases h; rfl), fun s' h => (by cases h)⟩
    · exact ⟨fun s' h => (by cases h), fun s' h => (by cases h)⟩
  | globals gs =>
    refine each_exports fun s a => ?_
    unfold decodeGlobal
    split
    · exact ⟨fun s' h => (by cases h; rfl), fun s' h => (by cases h)⟩
    · exact ⟨fun s' h => (by cases h), fun s' h => (by cases h; rfl)⟩
  | ignored => exact ⟨fun s' h => (by cases h; rfl), fun s' h => (by cases h)⟩
  | bad => exact ⟨fun s' h => (by cases h), fun s' h => (by cases h; rfl)⟩
  | exports es => cases hp
  | start f => cases hp
  | elems es => cases hp
  | code ls ops b => cases hp
  | datas ds => cases hp

theorem parseFrom_fails {s s1 : PSt} {pre : List Payload} {p : Payload} (post : List Payload) (h1 : parseFrom s pre = .ok s1)
    {s2 : PSt} (h2 : decodePayload s1 p = .err s2) : parseFrom s (pre ++ p :: post) = .err s2 := by
  rw [parseFrom_append, h1]
  simp only [Parsed.andThen, parseFrom, h2]

theorem parseFrom_exports : ∀ {pre : List Payload} {s s1 : PSt}, (∀ p ∈ pre, beforeExports p = true) → parseFrom s pre = .ok s1 →
    s1.m.exports = s.m.exports
  | [], s, s1, _, h => by cases h; rfl
  | p :: ps, s, s1, hp, h => by
    unfold parseFrom at h
    cases hd : decodePayload s p with
    | ok s2 =>
      rw [hd] at h
      exact (parseFrom_exports (fun q hq => hp q (by simp [hq])) h).trans ((payload_exports (hp p (by simp)) s).1 s2 hd)
    | err s2 => rw [hd] at h; cases h
    | panic => rw [hd] at h; cases h

/-- C43 (partial), by the position of the damage: a file in which a section before the export section cannot be decoded is
never executed, whatever follows. -/
theorem damaged_head_rejected_partial {S : Wasi} {pre post : List Payload} {p : Payload} (hpre : ∀ q ∈ pre, beforeExports q = true)
    (hp : beforeExports p = true) {s1 s2 : PSt} (h1 : parseFile (some pre) = .ok s1) (h2 : decodePayload s1 p = .err s2)
    (E : Prog → Bool → Env) (D : Env → Dispatcher) (enable : Bool) (fuel : Nat) (name : String) (args : List Val) (world : S.W) :
    mainRun (S := S) E D enable fuel (some (pre ++ p :: post)) name args world = some (.trap .exportNotFound) ∨
    mainRun (S := S) E D enable fuel (some (pre ++ p :: post)) name args world = some .panic := by
  have h1' : parseFrom ⟨.empty, 0⟩ pre = .ok s1 := h1
  refine malformed_rejected_partial (file := some (pre ++ p :: post)) (s := s2) (parseFrom_fails post h1' h2) ?_ E D enable fuel name args world
  rw [(payload_exports hp s1).2 s2 h2, parseFrom_exports hpre h1']
  rfl

/-- the hypotheses are met: version 1, a type, then a function section with an undecodable entry, then a complete rest -/
example {S : Wasi} (post : List Payload) (E : Prog → Bool → Env) (D : Env → Dispatcher) (fuel : Nat) (world : S.W) :
    mainRun (S := S) E D false fuel (some ([.version 1, .types [some ⟨[], []⟩]] ++ .funcs [some 0, none] :: post)) "run" [] world
      = some (.trap .exportNotFound) ∨
    mainRun (S := S) E D false fuel (some ([.version 1, .types [some ⟨[], []⟩]] ++ .funcs [some 0, none] :: post)) "run" [] world
      = some .panic :=
  damaged_head_rejected_partial (by simp [beforeExports]) rfl rfl rfl E D false fuel "run" [] world

end Verif.Props
