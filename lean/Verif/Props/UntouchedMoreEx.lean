import Verif.Props.UntouchedMore
import Verif.Props.UntouchedAsks
import Verif.Props.UntouchedEx
import Verif.Props.PlatformsEx
import Verif.Props.AsksEx
/-
Sessions as in `Spec/UntouchedMore.lean`.
-/
namespace Verif.Props
open Verif.Model Verif.Spec Verif.Lemmas

namespace WriterEx
open SessionEx (text lz calm opts keeps)

/-! ### C76: there and back -/

theorem neutral : Neutral C := by
  intro d hd
  simp only [C, List.mem_cons, List.not_mem_nil, or_false] at hd
  rcases hd with rfl | rfl <;> decide +kernel

/-- run on a machine and restore, if tables and data segments are as loaded -/
def afterOn (H : FloatHost) (p : Process) (o : Options) (w : Nat) : Option (Options × Nat) :=
  match p.run (S := SessionEx.wasi) text lz H (some C.file) o w with
  | some (.ok ⟨_, .checkpointed, some b, some (i, w')⟩) =>
    if b.length < 2 ^ 32 ∧ clean i then some ({ o with restore := some (some b) }, w') else none
  | _ => none

/-- what the last process leaves -/
def endsOn (H : FloatHost) (p : Process) (o : Options) (w : Nat) : Option (Report × Option (List (List Ref))) :=
  match p.run (S := SessionEx.wasi) text lz H (some C.file) o w with
  | some (.ok ⟨_, r, _, s⟩) => some (r, s.map fun p => p.1.tables)
  | _ => none

instance shownOnEq : DecidableEq (Report × Option (List (List Ref))) := inferInstance

theorem afterOn_inv {H : FloatHost} {p : Process} {o : Options} {w : Nat} {x : Options × Nat} (h : afterOn H p o w = some x)
    {r : Res (Left SessionEx.wasi)}
    (next : CleanMixedSession (S := SessionEx.wasi) text lz (some C.file) x.1 x.2 r) :
    CleanMixedSession (S := SessionEx.wasi) text lz (some C.file) o w r := by
  unfold afterOn at h
  split at h
  · rename_i st b i w' hr
    split at h
    · rename_i hlen
      cases h
      exact .move H p hr rfl rfl rfl hlen.1 (clean_ok hlen.2) next
    · cases h
  · cases h

theorem endsOn_inv {H : FloatHost} {p : Process} {o : Options} {w : Nat} {v : Option Val} {ts : List (List Ref)}
    (h : endsOn H p o w = some (.result v, some ts)) :
    ∃ r st w', CleanMixedSession (S := SessionEx.wasi) text lz (some C.file) o w r ∧ seen r = .ok (.result v, some (st, w')) ∧ st.tables = ts := by
  unfold endsOn at h
  split at h
  · rename_i st rep c s hr
    obtain ⟨h1, h2⟩ := Prod.mk.inj (Option.some.inj h)
    obtain ⟨⟨i, w2⟩, rfl, h3⟩ := Option.map_eq_some_iff.mp h2
    subst h1
    cases h3
    exact ⟨_, _, _, .last H p hr (fun l hl => by cases hl; exact ⟨nofun, nofun, nofun⟩), rfl, rfl⟩
  · cases h

/-- two checkpoints, every process on another machine than its predecessor -/
def travels : Option (Report × Option (List (List Ref))) := do
  let (o, w) ← afterOn Sample.host (SessionEx.stopped 12) opts 0
  let (o, w) ← afterOn PlatformsEx.negative (SessionEx.stopped 9) o w
  endsOn Sample.host calm o w

/-- So `clean_moved_between_machines` applies: any undisturbed process on any machine prints 8 and leaves the table empty. -/
example (q : Process) (H : FloatHost) : ∃ st w' fuel r', ({ q.undisturbed with fuel := fuel }).run (S := SessionEx.wasi) text lz H (some C.file)
    opts (0 : Nat) = some r' ∧ seen r' = .ok (.result (some (vi 8)), some (st, w')) ∧ st.tables = [[.null, .null]] := by
  have h : travels = some (.result (some (vi 8)), some [[.null, .null]]) := by decide +kernel
  unfold travels at h
  simp only [Option.bind_eq_bind, Option.bind_eq_some_iff, Prod.exists] at h
  obtain ⟨o1, w1, h1, o2, w2, h2, h3⟩ := h
  obtain ⟨r, st, w', k1, k2, k3⟩ := endsOn_inv h3
  obtain ⟨P, hP⟩ := compiles
  obtain ⟨fuel, r', h4, h5⟩ := (clean_moved_between_machines keeps wellFormed hP small neutral rfl (afterOn_inv h1 (afterOn_inv h2 k1)) q H).1
  exact ⟨st, w', fuel, r', h4, h5.trans k2, k3⟩

/-! ### C62: the next process finds a world in which nothing has happened -/

theorem unaware : Unaware SessionEx.wasi (fun _ => (0 : Nat)) (fun _ _ => True) where
  call id ps mem w w' _ := by
    simp only [SessionEx.wasi]
    exact ⟨rfl, rfl, trivial⟩
  fresh _ _ _ := trivial

theorem after_moved {p : Process} {o : Options} {w : Nat} {x : Options × Nat} (h : after p o w = some x) {r : Res (Left SessionEx.wasi)}
    (next : CleanMovedSession (S := SessionEx.wasi) (fun _ => (0 : Nat)) text lz Sample.host (some C.file) x.1 (0 : Nat) r) :
    CleanMovedSession (S := SessionEx.wasi) (fun _ => (0 : Nat)) text lz Sample.host (some C.file) o w r := by
  unfold after at h
  split at h
  · rename_i st b i w' hr
    split at h
    · rename_i hlen
      cases h
      exact .move p hr rfl rfl rfl hlen.1 (clean_ok hlen.2) next
    · cases h
  · cases h

/-- two checkpoints; every process starts in the world 0, and the last one makes the last call -/
def forgetful : Option (Report × Option (List (List Ref) × List (List Byte) × Nat)) := do
  let (o, _) ← after (SessionEx.stopped 12) opts 0
  let (o, _) ← after (SessionEx.stopped 9) o 0
  ends calm o 0

/-- So `clean_moved_session_transparent` applies. -/
example (q : Process) : ∃ st w' fuel r', ({ q.undisturbed with fuel := fuel }).run (S := SessionEx.wasi) text lz Sample.host (some C.file)
    opts (0 : Nat) = some r' ∧ seen r' = .ok (.result (some (vi 8)), some (st, w')) ∧ st.tables = [[.null, .null]] ∧ st.datas = [[]] := by
  have h : forgetful = some (.result (some (vi 8)), some ([[.null, .null]], [[]], 1)) := by decide +kernel
  unfold forgetful at h
  simp only [Option.bind_eq_bind, Option.bind_eq_some_iff, Prod.exists] at h
  obtain ⟨o1, w1, h1, o2, w2, h2, h3⟩ := h
  unfold ends at h3
  split at h3
  · rename_i st rep c s hr
    obtain ⟨e1, e2⟩ := Prod.mk.inj (Option.some.inj h3)
    obtain ⟨⟨i, w3⟩, rfl, e3⟩ := Option.map_eq_some_iff.mp e2
    subst e1
    obtain ⟨t1, t2⟩ := Prod.mk.inj e3
    obtain ⟨t2, t3⟩ := Prod.mk.inj t2
    obtain ⟨P, hP⟩ := compiles
    have hs := after_moved h1 (after_moved h2 (.last calm hr (fun l hl => by cases hl; exact ⟨nofun, nofun, nofun⟩)))
    obtain ⟨fuel, r', h4, h5⟩ := (clean_moved_session_transparent keeps unaware wellFormed hP small rfl trivial hs q).1
    cases hr' : seen r' with
    | ok x =>
      rw [hr'] at h5
      obtain ⟨rep, s⟩ := x
      obtain ⟨k1, k2⟩ := h5
      cases s with
      | none => exact k2.elim
      | some y =>
        obtain ⟨st', w'⟩ := y
        refine ⟨st', w', fuel, r', h4, ?_, ?_, ?_⟩
        · rw [hr']; exact congrArg _ (Prod.ext k1 rfl)
        · rw [k2.1]; exact t1
        · rw [k2.1]; exact t2
    | _ => rw [hr'] at h5; exact h5.elim
  · cases h3

end WriterEx

namespace DropEx
open SessionEx (text lz calm opts keeps)

/-- the argument, plus one -/
def inc : WSeq := .op (.localGet 0) <| .op (ci 1) <| .op (.bin (.int .s32 .add)) .done

/-- n times yield to the host and add one to global 0; then drop data segment 0 -/
def main : WSeq :=
  .block .empty
    (.loop .empty
      (.op (.localGet 0) <| .op (.un (.eqz .s32)) <| .op (.brIf 1) <|
       .op (.call 0) <| .op .drop <|
       .op (.globalGet 0) <| .op (ci 1) <| .op (.callIndirect 1 0) <| .op (.globalSet 0) <|
       .op (.localGet 0) <| .op (ci 1) <| .op (.bin (.int .s32 .sub)) <| .op (.localSet 0) <|
       .op (.br 0) .done)
      .done) <|
  .op (.dataDrop 0) <|
  .op (.globalGet 0) .done

/-- the module -/
def C : SMod where
  types := [⟨[], [.i32]⟩, ⟨[.i32], [.i32]⟩]
  imports := [("sched_yield", 0)]
  funcs := [⟨1, [], inc⟩, ⟨1, [], main⟩]
  tables := [⟨2, none⟩]
  mems := [⟨0, some 4⟩]
  globals := [(true, .i32, [.i32 5])]
  exports := [("run", .func 2)]
  start := none
  elems := [([1], .active none [.i32 1])]
  datas := [([9], .passive)]

/-- what the preprocessor knows -/
def info : MInfo := (C.source Sample.host).info C.globalTypes

/-- registers the functions use -/
def sizes (t : FuncType) (ls : List (Nat × Cls)) (b : WSeq) : Bool :=
  match compileFn (fnCtx info t ls) b.body with
  | some ⟨_, _, some W⟩ => [Cls.i32, .i64, .f32, .f64, .ref, .v128].all fun c => decide (W c ≤ 65536)
  | _ => true

theorem sizes_ok {t : FuncType} {ls : List (Nat × Cls)} {b : WSeq} (h : sizes t ls b = true) :
    ∀ code W, compileFn (fnCtx info t ls) b.body = some code → code.alloc = some W → ∀ c, W c ≤ 65536 := by
  intro code W hc hW c
  obtain ⟨l, bd, al⟩ := code
  simp only at hW
  subst hW
  simp only [sizes, hc, List.all_eq_true, decide_eq_true_eq] at h
  exact h c (by cases c <;> decide)

theorem funcs : (C.source Sample.host).funcs =
    [.wasi ⟨[], [.i32]⟩ 13, .wasm ⟨[.i32], [.i32]⟩ [] inc, .wasm ⟨[.i32], [.i32]⟩ [] main] := by
  simp [SMod.source, C, hostFunc, FileEx.yield, SMod.type]
  decide

theorem mem_funcs {t : FuncType} {ls : List (Nat × Cls)} {b : WSeq} (h : SFunc.wasm t ls b ∈ (C.source Sample.host).funcs) :
    (t = ⟨[.i32], [.i32]⟩ ∧ ls = [] ∧ b = inc) ∨ (t = ⟨[.i32], [.i32]⟩ ∧ ls = [] ∧ b = main) := by
  rw [funcs] at h
  simp only [List.mem_cons, SFunc.wasm.injEq, reduceCtorEq, List.not_mem_nil, or_false, false_or] at h
  exact h

theorem accepted : Accepted SessionEx.wasi (C.source Sample.host) C.globalTypes := by
  refine ⟨fun t ls b h => ?_, fun t ls b h => ?_, fun t id h args m w r m' w' _ hc => ?_, fun t id h => ?_⟩
  · rcases mem_funcs h with ⟨rfl, rfl, rfl⟩ | ⟨rfl, rfl, rfl⟩
    · exact ⟨⟨by simp [inc, WSeq.Proper, isBracket], some [.i32], by decide +kernel, by decide⟩, by decide +kernel, by decide +kernel, by decide +kernel⟩
    · exact ⟨⟨by simp [main, WSeq.Proper, isBracket], some [.i32], by decide +kernel, by decide⟩, by decide +kernel, by decide +kernel, by decide +kernel⟩
  · rcases mem_funcs h with ⟨rfl, rfl, rfl⟩ | ⟨rfl, rfl, rfl⟩
    · exact ⟨by decide, by simp, sizes_ok (by decide +kernel)⟩
    · exact ⟨by decide, by simp, sizes_ok (by decide +kernel)⟩
  · rw [funcs] at h
    simp only [List.mem_cons, SFunc.wasi.injEq, reduceCtorEq, List.not_mem_nil, or_false] at h
    obtain ⟨rfl, rfl⟩ := h
    simp only [SessionEx.wasi, Res.ok_inj, Prod.mk.injEq, Option.some.injEq] at hc
    obtain ⟨rfl, _⟩ := hc
    rfl
  · rw [funcs] at h
    simp only [List.mem_cons, SFunc.wasi.injEq, reduceCtorEq, List.not_mem_nil, or_false] at h
    obtain ⟨rfl, rfl⟩ := h
    decide

theorem wellFormed : C.WellFormed SessionEx.wasi Sample.host where
  imports := by
    intro i hi
    simp only [C, List.mem_cons, List.not_mem_nil, or_false] at hi
    subst hi
    exact ⟨_, FileEx.yield, rfl⟩
  tables := by
    intro l hl
    simp only [C, List.mem_cons, List.not_mem_nil, or_false] at hl
    subst hl; exact ⟨by decide, by simp⟩
  mems := by
    intro l hl
    simp only [C, List.mem_cons, List.not_mem_nil, or_false] at hl
    subst hl; exact ⟨by decide, by simp⟩
  decls :=
    { imports := by
        intro i hi
        simp only [SMod.decls, C, List.map_cons, List.map_nil, List.mem_cons, List.not_mem_nil, or_false] at hi
        subst hi
        exact ⟨.schedYield, by rw [FileEx.yield]; rfl⟩
      types := by
        intro f hf
        simp only [SMod.decls, C, List.map_cons, List.map_nil, List.mem_cons, List.not_mem_nil, or_false] at hf
        rcases hf with rfl | rfl <;> (show 1 < 2; decide)
      mems := by
        intro p hp
        simp only [SMod.decls, C, List.map_cons, List.map_nil, List.mem_cons, List.not_mem_nil, or_false] at hp
        subst hp; show 0 < 65536; omega
      globals := by
        intro i m c e h
        have h' : C.globals[i]? = some (m, c, e) := h
        simp only [C] at h'
        rcases i with _ | i
        · simp at h'; obtain ⟨rfl, rfl, rfl⟩ := h'; trivial
        · simp at h'
      elems := by
        intro e he
        simp only [SMod.decls, C, List.map_cons, List.map_nil, List.mem_cons, List.not_mem_nil, or_false] at he
        subst he
        refine ⟨rfl, by simp [SMod.decls, C], ?_⟩
        intro k ex ha
        cases ha
        exact ⟨2, rfl, trivial, 1, .i32 _, by decide⟩
      datas := by
        intro d hd k ex ha
        simp only [SMod.decls, C, List.map_cons, List.map_nil, List.mem_cons, List.not_mem_nil, or_false] at hd
        subst hd
        cases ha
      exports := by
        intro e he
        simp only [SMod.decls, C, List.mem_cons, List.not_mem_nil, or_false] at he
        subst he; decide
      start := by simp [SMod.decls, C] }
  globals := by
    intro i m c e h v hv
    simp only [C] at h
    rcases i with _ | i
    · simp at h; obtain ⟨rfl, rfl, rfl⟩ := h
      cases hv; rfl
    · simp at h
  exports := by simp [C]
  dataLen := by simp [C]
  accepted := accepted

theorem compiles : ∃ P, (C.source Sample.host).compile C.globalTypes = some P := by
  have : ((C.source Sample.host).compile C.globalTypes).isSome = true := by decide +kernel
  exact Option.isSome_iff_exists.mp this

theorem small : Small (C.source Sample.host) where
  bodies t ls b h := by
    rcases mem_funcs h with ⟨rfl, rfl, rfl⟩ | ⟨rfl, rfl, rfl⟩ <;> decide +kernel
  funcs := by rw [funcs]; decide
  results t ls b h := by
    rcases mem_funcs h with ⟨rfl, rfl, rfl⟩ | ⟨rfl, rfl, rfl⟩ <;> decide

/-- `session_transparent_partial` does not cover it -/
theorem not_movable : ¬ Movable (C.source Sample.host) := by
  intro h
  have h1 := h.saved ⟨[.i32], [.i32]⟩ [] main (by rw [funcs]; simp) (.dataDrop 0) (by simp [main, WSeq.body, WSeq.flat])
  cases h1

/-- are tables and data segments as loaded? -/
def clean (i : Inst) : Bool :=
  match loadFile (some C.file) with
  | .ok L => decide (i.tables = L.inst.tables) && decide (i.datas = L.inst.datas)
  | _ => true

theorem clean_ok {i : Inst} (h : clean i = true) : AsLoaded (some C.file) i := by
  intro L hL
  simpa [clean, hL] using h

/-- run and restore, if tables and data segments are as loaded -/
def after (p : Process) (o : Options) (w : Nat) : Option (Options × Nat) :=
  match p.run (S := SessionEx.wasi) text lz Sample.host (some C.file) o w with
  | some (.ok ⟨_, .checkpointed, some b, some (i, w')⟩) =>
    if b.length < 2 ^ 32 ∧ clean i then some ({ o with restore := some (some b) }, w') else none
  | _ => none

/-- what the last process prints and which data segments are left -/
def ends (p : Process) (o : Options) (w : Nat) : Option (Report × Option (List (List Byte))) :=
  match p.run (S := SessionEx.wasi) text lz Sample.host (some C.file) o w with
  | some (.ok ⟨_, r, _, s⟩) => some (r, s.map fun p => p.1.datas)
  | _ => none

instance shownEq : DecidableEq (Report × Option (List (List Byte))) := inferInstance

theorem after_asked {p : Process} {o : Options} {w : Nat} {x : Options × Nat} (h : after p o w = some x) {o₀ : Options} {w₀ : Nat}
    {asked : Ask Nat → Prop} (before : CleanAsked (S := SessionEx.wasi) text lz Sample.host (some C.file) o₀ w₀ o w asked) :
    ∃ asked', CleanAsked (S := SessionEx.wasi) text lz Sample.host (some C.file) o₀ w₀ x.1 x.2 asked' := by
  unfold after at h
  split at h
  · rename_i st b i w' hr
    split at h
    · rename_i hlen
      cases h
      exact ⟨_, .move before p hr rfl rfl rfl hlen.1 (clean_ok hlen.2)⟩
    · cases h
  · cases h

theorem after_session {p : Process} {o : Options} {w : Nat} {x : Options × Nat} (h : after p o w = some x) {r : Res (Left SessionEx.wasi)}
    (next : CleanSession (S := SessionEx.wasi) text lz Sample.host (some C.file) x.1 x.2 r) :
    CleanSession (S := SessionEx.wasi) text lz Sample.host (some C.file) o w r := by
  unfold after at h
  split at h
  · rename_i st b i w' hr
    split at h
    · rename_i hlen
      cases h
      exact .move p hr rfl rfl rfl hlen.1 (clean_ok hlen.2) next
    · cases h
  · cases h

/-- two checkpoints, then an end -/
def whole : Option (Report × Option (List (List Byte))) := do
  let (o, w) ← after (SessionEx.stopped 12) opts 0
  let (o, w) ← after (SessionEx.stopped 9) o w
  ends calm o w

theorem maxPages : MaxPages C := by
  intro l hl x hx
  simp only [C, List.mem_cons, List.not_mem_nil, or_false] at hl
  subst hl
  cases hx
  omega

theorem namedC : C.Named Sample.host := by
  intro t ls b h
  rcases mem_funcs h with ⟨rfl, rfl, rfl⟩ | ⟨rfl, rfl, rfl⟩ <;> decide

theorem steadyC : C.Steady Sample.host where
  bodies t ls b h := by
    rcases mem_funcs h with ⟨rfl, rfl, rfl⟩ | ⟨rfl, rfl, rfl⟩ <;> decide
  elems := by
    intro e he f hf
    simp only [C, List.mem_cons, List.not_mem_nil, or_false] at he
    subst he
    simp only [List.mem_cons, List.not_mem_nil, or_false] at hf
    subst hf
    decide
  mem := by simp [C]

/-- The session, checkpointed twice, drops its segment in the end; its call ends by the rules, the host has been asked what the rules
say, and the line printed is what `clean_result_line` says. -/
example {st : Store} (hst : InitialStore C st) : ∃ o' w' asked r,
    CleanAsked (S := SessionEx.wasi) text lz Sample.host (some C.file) opts (0 : Nat) o' w' asked ∧
    calm.run (S := SessionEx.wasi) text lz Sample.host (some C.file) o' w' = some r ∧
    (∃ vs st' w', Call SessionEx.wasi (C.source Sample.host) info (.wasm ⟨[.i32], [.i32]⟩ [] main) [vi 3] st (0 : Nat) (.ok vs st' w') ∧
      vs.getLast? = some (vi 8) ∧ st'.datas = [[]]) ∧
    (∀ q, asked q ∨ calm.Asks (S := SessionEx.wasi) text lz Sample.host (some C.file) o' w' q ↔
      CallAsks SessionEx.wasi (C.source Sample.host) info (.wasm ⟨[.i32], [.i32]⟩ [] main) [vi 3] st (0 : Nat) q) ∧
    (∀ (R : Ref → List Char) (X : Err → List Char), ∃ l t, r = .ok l ∧ l.report.line R X = some (.out, "Result: ".toList ++ t) ∧ Tells t (vi 8)) := by
  have h : whole = some (.result (some (vi 8)), some [[]]) := by decide +kernel
  unfold whole at h
  simp only [Option.bind_eq_bind, Option.bind_eq_some_iff, Prod.exists] at h
  obtain ⟨o1, w1, h1, o2, w2, h2, h3⟩ := h
  obtain ⟨_, s1⟩ := after_asked h1 .start
  obtain ⟨asked, s2⟩ := after_asked h2 s1
  unfold ends at h3
  split at h3
  · rename_i s rep c x hr
    obtain ⟨e1, e2⟩ := Prod.mk.inj (Option.some.inj h3)
    obtain ⟨⟨i, w3⟩, rfl, e3⟩ := Option.map_eq_some_iff.mp e2
    subst e1
    obtain ⟨P, hP⟩ := compiles
    have hfin : Finished (S := SessionEx.wasi) (.ok ⟨s, .result (some (vi 8)), c, some (i, w3)⟩) :=
      fun l hl => by cases hl; exact ⟨nofun, nofun, nofun⟩
    have k := clean_steady_session keeps SessionEx.defined wellFormed maxPages namedC steadyC hP small (by decide) rfl (f := 2)
      (by simp [C, opts]) (by rw [funcs]; rfl) (args := [vi 3]) (by decide +kernel) rfl hst s2 calm hr hfin
    have hcall : ∃ vs st' w', Call SessionEx.wasi (C.source Sample.host) info (.wasm ⟨[.i32], [.i32]⟩ [] main) [vi 3] st (0 : Nat) (.ok vs st' w') ∧
        vs.getLast? = some (vi 8) ∧ st'.datas = [[]] := by
      rcases k.1 with ⟨vs, st', w', k1, k2⟩ | ⟨c', _, k2⟩ | ⟨_, k2 | ⟨e, _, k2⟩⟩
      · simp only [seen, Option.map_some, Res.ok.injEq, Prod.mk.injEq, Report.result.injEq, Option.some.injEq] at k2
        exact ⟨vs, st', w', k1, k2.1.symm, by rw [← k2.2.1]; exact e3⟩
      · simp [seen] at k2
      · simp [seen] at k2
      · simp [seen] at k2
    refine ⟨o2, w2, asked, _, s2, hr, hcall, k.2, fun R X => ?_⟩
    obtain ⟨vs, st', w', k1, k2, _⟩ := hcall
    have hs := after_session h1 (after_session h2 (.last calm hr hfin))
    exact (clean_result_line keeps wellFormed maxPages namedC hP small (by decide) rfl (f := 2) (by simp [C, opts]) (by rw [funcs]; rfl)
      (args := [vi 3]) (by decide +kernel) rfl hst (never_deviates steadyC SessionEx.defined (by rw [funcs]; simp) hst) hs R X (v := vi 8)
      (.i32 _)).mpr ⟨vs, st', w', k1, k2⟩
  · cases h3

end DropEx

namespace PlatformsEx

/-- are tables and data segments as loaded when the process stops? -/
def asLoaded (p : Process) (o : Options) (w : Nat) : Bool :=
  match p.run (S := SessionEx.wasi) SessionEx.text SessionEx.lz Sample.host (some F.file) o w, loadFile (some F.file) with
  | some (.ok ⟨_, _, _, some (i, _)⟩), .ok L => decide (i.tables = L.inst.tables) && decide (i.datas = L.inst.datas)
  | _, _ => true

theorem asLoaded_ok {p : Process} {o : Options} {w w' : Nat} {s : Nat} {r : Report} {c : Option (List Byte)} {i : Inst} (h : asLoaded p o w = true)
    (hr : p.run (S := SessionEx.wasi) SessionEx.text SessionEx.lz Sample.host (some F.file) o w = some (.ok ⟨s, r, c, some (i, w')⟩)) :
    AsLoaded (some F.file) i := by
  intro L hL
  simpa [asLoaded, hr, hL] using h

/-- stopped after the addition on one machine, ended on the other: `clean_moved_without_nan` applies too -/
example (q : Process) : ∃ s fuel r', ({ q.undisturbed with fuel := fuel }).run (S := SessionEx.wasi) SessionEx.text
    SessionEx.lz Sample.host (some F.file) opts (0 : Nat) = some r' ∧ seen r' = .ok (.result (some (vi 14)), s) := by
  have h : squared = some (.result (some (vi 14))) := by decide +kernel
  unfold squared at h
  simp only [Option.bind_eq_bind, Option.bind_eq_some_iff, Prod.exists] at h
  obtain ⟨o1, w1, h1, h3⟩ := h
  split at h3
  · rename_i hc
    rw [Bool.and_eq_true] at hc
    have hn1 := calmProcess_sound hc.1
    have hn2 := calmProcess_sound hc.2
    unfold after at h1
    split at h1
    · rename_i st b i w' hr
      split at h1
      · rename_i hlen
        cases h1
        unfold ends at h3
        split at h3
        · rename_i st2 rep c s hr2
          cases h3
          have hd : asLoaded (SessionEx.stopped 1) opts 0 = true := by decide +kernel
          have hs : CleanNaNFreeSession (S := SessionEx.wasi) SessionEx.text SessionEx.lz (some F.file) opts (0 : Nat) _ :=
            .move Sample.host _ hr hn1 rfl rfl rfl hlen (asLoaded_ok hd hr) (.last PlatformsEx.negative _ hr2 hn2 (fun l hl => by cases hl; exact ⟨nofun, nofun, nofun⟩))
          obtain ⟨P, hP⟩ := fcompiles
          obtain ⟨fuel, r', k1, k2⟩ := (clean_moved_without_nan SessionEx.keeps fwell hP ⟨fmovable.bodies, fmovable.funcs, fmovable.results⟩ rfl hs q).1
          exact ⟨_, fuel, r', k1, k2⟩
        · cases h3
      · cases h1
    · cases h1
  · cases h3

end PlatformsEx
end Verif.Props
