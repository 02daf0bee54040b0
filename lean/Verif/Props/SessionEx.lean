import Verif.Props.SessionMain
import Verif.Props.EndToEndEx
/-
A session that is checkpointed twice.
-/
namespace Verif.Props
open Verif.Model Verif.Spec Verif.Lemmas

namespace SessionEx

/-- a host whose functions return 0 and count the calls -/
def wasi : Wasi := { W := Nat, call := fun _ _ m w => .ok (some (some (vi 0)), m, w + 1) }

/-- add n + (n - 1) + … + 1 to global 0, yielding to the host each time round -/
def main : WSeq :=
  .block .empty
    (.loop .empty
      (.op (.localGet 0) <| .op (.un (.eqz .s32)) <| .op (.brIf 1) <|
       .op (.call 0) <| .op .drop <|
       .op (.globalGet 0) <| .op (.localGet 0) <| .op (.bin (.int .s32 .add)) <| .op (.globalSet 0) <|
       .op (.localGet 0) <| .op (ci 1) <| .op (.bin (.int .s32 .sub)) <| .op (.localSet 0) <|
       .op (.br 0) .done)
      .done) <|
  .op (.globalGet 0) .done

/-- the module -/
def B : SMod where
  types := [⟨[], [.i32]⟩, ⟨[.i32], [.i32]⟩]
  imports := [("sched_yield", 0)]
  funcs := [⟨1, [], main⟩]
  tables := []
  mems := [⟨0, some 4⟩]
  globals := [(true, .i32, [.i32 5])]
  exports := [("run", .func 1)]
  start := none
  elems := []
  datas := []

theorem funcs : (B.source Sample.host).funcs = [.wasi ⟨[], [.i32]⟩ 13, .wasm ⟨[.i32], [.i32]⟩ [] main] := by
  simp [SMod.source, B, hostFunc, FileEx.yield, SMod.type]
  decide

theorem mem_funcs {t : FuncType} {ls : List (Nat × Cls)} {b : WSeq} (h : SFunc.wasm t ls b ∈ (B.source Sample.host).funcs) :
    t = ⟨[.i32], [.i32]⟩ ∧ ls = [] ∧ b = main := by
  rw [funcs] at h
  simp only [List.mem_cons, SFunc.wasm.injEq, reduceCtorEq, List.not_mem_nil, or_false, false_or] at h
  exact h

/-- what the preprocessor knows -/
def info : MInfo := (B.source Sample.host).info B.globalTypes

/-- registers the function uses -/
def sizes : Bool :=
  match compileFn (fnCtx info ⟨[.i32], [.i32]⟩ []) main.body with
  | some ⟨_, _, some W⟩ => [Cls.i32, .i64, .f32, .f64, .ref, .v128].all fun c => decide (W c ≤ 65536)
  | _ => true

theorem sizes_ok : ∀ code W, compileFn (fnCtx info ⟨[.i32], [.i32]⟩ []) main.body = some code → code.alloc = some W → ∀ c, W c ≤ 65536 := by
  have h : sizes = true := by decide +kernel
  intro code W hc hW c
  obtain ⟨l, bd, al⟩ := code
  simp only at hW
  subst hW
  simp only [sizes, hc, List.all_eq_true, decide_eq_true_eq] at h
  exact h c (by cases c <;> decide)

theorem accepted : Accepted wasi (B.source Sample.host) B.globalTypes := by
  refine ⟨fun t ls b h => ?_, fun t ls b h => ?_, fun t id h args m w r m' w' _ hc => ?_, fun t id h => ?_⟩
  · obtain ⟨rfl, rfl, rfl⟩ := mem_funcs h
    exact ⟨⟨by simp [main, WSeq.Proper, isBracket], some [.i32], by decide +kernel, by decide⟩, by decide +kernel, by decide +kernel, by decide +kernel⟩
  · obtain ⟨rfl, rfl, rfl⟩ := mem_funcs h
    exact ⟨by decide, by simp, sizes_ok⟩
  · rw [funcs] at h
    simp only [List.mem_cons, SFunc.wasi.injEq, reduceCtorEq, List.not_mem_nil, or_false] at h
    obtain ⟨rfl, rfl⟩ := h
    simp only [wasi, Res.ok_inj, Prod.mk.injEq, Option.some.injEq] at hc
    obtain ⟨rfl, _⟩ := hc
    rfl
  · rw [funcs] at h
    simp only [List.mem_cons, SFunc.wasi.injEq, reduceCtorEq, List.not_mem_nil, or_false] at h
    obtain ⟨rfl, rfl⟩ := h
    decide

theorem wellFormed : B.WellFormed wasi Sample.host where
  imports := by
    intro i hi
    simp only [B, List.mem_cons, List.not_mem_nil, or_false] at hi
    subst hi
    exact ⟨_, FileEx.yield, rfl⟩
  tables := by intro l hl; cases hl
  mems := by
    intro l hl
    simp only [B, List.mem_cons, List.not_mem_nil, or_false] at hl
    subst hl; exact ⟨by decide, by simp⟩
  decls :=
    { imports := by
        intro i hi
        simp only [SMod.decls, B, List.map_cons, List.map_nil, List.mem_cons, List.not_mem_nil, or_false] at hi
        subst hi
        exact ⟨.schedYield, by rw [FileEx.yield]; rfl⟩
      types := by
        intro f hf
        simp only [SMod.decls, B, List.map_cons, List.map_nil, List.mem_cons, List.not_mem_nil, or_false] at hf
        subst hf; show 1 < 2; decide
      mems := by
        intro p hp
        simp only [SMod.decls, B, List.map_cons, List.map_nil, List.mem_cons, List.not_mem_nil, or_false] at hp
        subst hp; show 0 < 65536; omega
      globals := by
        intro i m c e h
        have h' : B.globals[i]? = some (m, c, e) := h
        simp only [B] at h'
        rcases i with _ | i
        · simp at h'; obtain ⟨rfl, rfl, rfl⟩ := h'; trivial
        · simp at h'
      elems := by intro e he; cases he
      datas := by intro d hd; cases hd
      exports := by
        intro e he
        simp only [SMod.decls, B, List.mem_cons, List.not_mem_nil, or_false] at he
        subst he; decide
      start := by simp [SMod.decls, B] }
  globals := by
    intro i m c e h v hv
    simp only [B] at h
    rcases i with _ | i
    · simp at h; obtain ⟨rfl, rfl, rfl⟩ := h
      cases hv; rfl
    · simp at h
  exports := by simp [B]
  dataLen := by intro d hd; cases hd
  accepted := accepted

theorem compiles : ∃ P, (B.source Sample.host).compile B.globalTypes = some P := by
  have : ((B.source Sample.host).compile B.globalTypes).isSome = true := by decide +kernel
  exact Option.isSome_iff_exists.mp this

theorem movable : Movable (B.source Sample.host) where
  saved t ls b h := by
    obtain ⟨rfl, rfl, rfl⟩ := mem_funcs h
    decide +kernel
  bodies t ls b h := by
    obtain ⟨rfl, rfl, rfl⟩ := mem_funcs h
    decide +kernel
  funcs := by rw [funcs]; decide
  results t ls b h := by
    obtain ⟨rfl, rfl, rfl⟩ := mem_funcs h
    decide

theorem keeps : WasiKeepsSize wasi := by
  intro id ps m w r m' w' h
  simp only [wasi, Res.ok_inj, Prod.mk.injEq] at h
  obtain ⟨_, rfl, _⟩ := h
  first | rfl | simp

/-- no float parameters -/
def text : FloatText := ⟨fun _ => none, fun _ => none⟩
/-- no compression -/
def lz : Lz := ⟨id, some, fun _ => rfl⟩

/-- `--invoke run --params "I32(3)" --cr` -/
def opts : Options := ⟨"b.wasm".toList, none, "run", ["I32(3)".toList], none, true⟩

/-- a process of the atomics build that sees the trigger at look `n` -/
def stopped (n : Nat) : Process := ⟨true, (· == n), tcoD, .tco, true, none, .fine, 200⟩
/-- one of the other build, never triggered -/
def calm : Process := ⟨false, never, loopD, .loop, false, none, .fine, 200⟩

/-- run and restore -/
def after (p : Process) (o : Options) (w : Nat) : Option (Options × Nat) :=
  match p.run (S := wasi) text lz Sample.host (some B.file) o w with
  | some (.ok ⟨_, .checkpointed, some b, some (_, w')⟩) =>
    if b.length < 2 ^ 32 then some ({ o with restore := some (some b) }, w') else none
  | _ => none

/-- report and world of the last process -/
def ends (p : Process) (o : Options) (w : Nat) : Option (Report × Option Nat) :=
  match p.run (S := wasi) text lz Sample.host (some B.file) o w with
  | some (.ok ⟨_, r, _, s⟩) => some (r, s.map (·.2))
  | _ => none

/-- two checkpoints, then an end -/
def whole : Option (Report × Option Nat) := do
  let (o, w) ← after (stopped 9) opts 0
  let (o, w) ← after (stopped 7) o w
  ends calm o w

/-- 5 + 3 + 2 + 1, three calls to the host -/
theorem whole_ends : whole = some (.result (some (vi 11)), some 3) := by decide +kernel

theorem after_inv {p : Process} {o : Options} {w : Nat} {x : Options × Nat} (h : after p o w = some x) {r : Res (Left wasi)}
    (next : Session (S := wasi) text lz Sample.host (some B.file) x.1 x.2 r) :
    Session (S := wasi) text lz Sample.host (some B.file) o w r := by
  unfold after at h
  split at h
  · rename_i st b i w' hr
    split at h
    · rename_i hlen
      cases h
      exact .move p hr rfl rfl rfl hlen next
    · cases h
  · cases h

theorem ends_inv {p : Process} {o : Options} {w w' : Nat} {v : Option Val} (h : ends p o w = some (.result v, some w')) :
    ∃ r st, Session (S := wasi) text lz Sample.host (some B.file) o w r ∧ seen r = .ok (.result v, some (st, w')) := by
  unfold ends at h
  split at h
  · rename_i st rep c s hr
    obtain ⟨h1, h2⟩ := Prod.mk.inj (Option.some.inj h)
    obtain ⟨⟨i, w2⟩, rfl, rfl⟩ := Option.map_eq_some_iff.mp h2
    subst h1
    exact ⟨_, _, .last p hr (fun l hl => by cases hl; exact ⟨nofun, nofun, nofun⟩), rfl⟩
  · cases h

/-- There is such a session: checkpointed twice in one build, ended in the other. -/
theorem session : ∃ r st, Session (S := wasi) text lz Sample.host (some B.file) opts (0 : Nat) r ∧
    seen r = .ok (.result (some (vi 11)), some (st, (3 : Nat))) := by
  have h := whole_ends
  unfold whole at h
  simp only [Option.bind_eq_bind, Option.bind_eq_some_iff, Prod.exists] at h
  obtain ⟨o1, w1, h1, o2, w2, h2, h3⟩ := h
  obtain ⟨r, st, k1, k2⟩ := ends_inv h3
  exact ⟨r, st, after_inv h1 (after_inv h2 k1), k2⟩

/-- So `session_transparent_partial` applies, and any undisturbed process prints 11. -/
example (q : Process) : ∃ st fuel r', ({ q.undisturbed with fuel := fuel }).run (S := wasi) text lz Sample.host (some B.file) opts
    (0 : Nat) = some r' ∧ seen r' = .ok (.result (some (vi 11)), some (st, (3 : Nat))) := by
  obtain ⟨P, hP⟩ := compiles
  obtain ⟨r, st, h1, h2⟩ := session
  obtain ⟨fuel, r', h3, h4⟩ := (session_transparent_partial keeps wellFormed hP movable rfl h1 q).1
  exact ⟨st, fuel, r', h3, h4.trans h2⟩

/-- a process that is to be checkpointed while `./checkpoint.bin` cannot be created or not be written completely -/
def unlucky (io : Io) : Process := { stopped 9 with io := io }

/-- **C54 is false of the code** when the checkpoint cannot be written: the program is ended with an error (runtime.rs:249-252)
although nothing was wrong with it — left alone, the same process ends with 11. -/
theorem unsaved_violated : ends (unlucky .createFails) opts 0 = some (.runFailed .checkpointSaveError, none) ∧
    (∀ k, ends (unlucky (.stopsAfter k)) opts 0 = some (.runFailed .checkpointSaveError, none)) ∧
    ends (unlucky .createFails).undisturbed opts 0 = some (.result (some (vi 11)), some 3) := by
  refine ⟨by decide +kernel, fun k => ?_, by decide +kernel⟩
  have h0 : ends (unlucky (.stopsAfter 0)) opts 0 = some (.runFailed .checkpointSaveError, none) := by decide +kernel
  revert h0
  simp only [ends, Process.run, command, unlucky, stopped]
  cases hl : loadFile (some B.file) with
  | ok L =>
    simp only [opts]
    cases L.exportFunc "run" with
    | ok f =>
      simp only
      cases parseParams text ["I32(3)".toList] with
      | ok ps =>
        simp only
        cases Machine.new (S := wasi) L.prog L.inst (0 : Nat) f ps with
        | ok m =>
          simp only [Machine.process]
          generalize Machine.run (envOf Sample.host true (fun x => x == 9) L.prog L.hasWasi)
            (tcoD (envOf Sample.host true (fun x => x == 9) L.prog L.hasWasi)) true 200 m = x
          rcases x with _ | (_ | m') | _ | _ | _
          case some.ok.ckpt =>
            simp only [Machine.checkpoint]
            cases m'.snapshot lz (envOf Sample.host true (fun x => x == 9) L.prog L.hasWasi).P with
            | ok s =>
              simp only [saveFile]
              cases encode s <;> exact id
            | trap e => exact id
            | panic => exact id
            | ub => exact id
          all_goals exact id
        | trap e => exact id
        | panic => exact id
        | ub => exact id
      | trap e => exact id
      | panic => exact id
      | ub => exact id
    | trap e => exact id
    | panic => exact id
    | ub => exact id
  | trap e => exact id
  | panic => exact id
  | ub => exact id

end SessionEx
end Verif.Props
