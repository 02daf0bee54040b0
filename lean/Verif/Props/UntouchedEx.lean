import Verif.Props.Untouched
import Verif.Props.NoTraceEx
/-
A module that writes a table and drops a data segment, and sessions of it.
-/
namespace Verif.Props
open Verif.Model Verif.Spec Verif.Lemmas

namespace WriterEx
open SessionEx (text lz calm opts keeps)

/-- the argument, plus one -/
def inc : WSeq := .op (.localGet 0) <| .op (ci 1) <| .op (.bin (.int .s32 .add)) .done

/-- n times yield to the host, add one to global 0 and write null over table entry 0, which is null; then write null over entry 1,
which is `inc`, and drop data segment 0 -/
def main : WSeq :=
  .block .empty
    (.loop .empty
      (.op (.localGet 0) <| .op (.un (.eqz .s32)) <| .op (.brIf 1) <|
       .op (.call 0) <| .op .drop <|
       .op (ci 0) <| .op .refNull <| .op (.tableSet 0) <|
       .op (.globalGet 0) <| .op (ci 1) <| .op (.callIndirect 1 0) <| .op (.globalSet 0) <|
       .op (.localGet 0) <| .op (ci 1) <| .op (.bin (.int .s32 .sub)) <| .op (.localSet 0) <|
       .op (.br 0) .done)
      .done) <|
  .op (ci 1) <| .op .refNull <| .op (.tableSet 0) <| .op (.dataDrop 0) <|
  .op (.globalGet 0) .done

/-- the module -/
def C : SMod where
  types := [⟨[], [.i32]⟩, ⟨[.i32], [.i32]⟩]
  imports := [("sched_yield", 0)]
  funcs := [⟨1, [], inc⟩, ⟨1, [], main⟩]
  tables := [⟨2, none⟩]
  mems := [⟨0, some 4⟩]
  globals := [(true, .i32, [.i32 5])]
  exports := [("run", .func 2)]
  start := none
  elems := [([1], .active none [.i32 1])]
  datas := [([9], .passive)]

/-- what the preprocessor knows -/
def info : MInfo := (C.source Sample.host).info C.globalTypes

/-- registers the functions use -/
def sizes (t : FuncType) (ls : List (Nat × Cls)) (b : WSeq) : Bool :=
  match compileFn (fnCtx info t ls) b.body with
  | some ⟨_, _, some W⟩ => [Cls.i32, .i64, .f32, .f64, .ref, .v128].all fun c => decide (W c ≤ 65536)
  | _ => true

theorem sizes_ok {t : FuncType} {ls : List (Nat × Cls)} {b : WSeq} (h : sizes t ls b = true) :
    ∀ code W, compileFn (fnCtx info t ls) b.body = some code → code.alloc = some W → ∀ c, W c ≤ 65536 := by
  intro code W hc hW c
  obtain ⟨l, bd, al⟩ := code
  simp only at hW
  subst hW
  simp only [sizes, hc, List.all_eq_true, decide_eq_true_eq] at h
  exact h c (by cases c <;> decide)

theorem funcs : (C.source Sample.host).funcs =
    [.wasi ⟨[], [.i32]⟩ 13, .wasm ⟨[.i32], [.i32]⟩ [] inc, .wasm ⟨[.i32], [.i32]⟩ [] main] := by
  simp [SMod.source, C, hostFunc, FileEx.yield, SMod.type]
  decide

theorem mem_funcs {t : FuncType} {ls : List (Nat × Cls)} {b : WSeq} (h : SFunc.wasm t ls b ∈ (C.source Sample.host).funcs) :
    (t = ⟨[.i32], [.i32]⟩ ∧ ls = [] ∧ b = inc) ∨ (t = ⟨[.i32], [.i32]⟩ ∧ ls = [] ∧ b = main) := by
  rw [funcs] at h
  simp only [List.mem_cons, SFunc.wasm.injEq, reduceCtorEq, List.not_mem_nil, or_false, false_or] at h
  exact h

theorem accepted : Accepted SessionEx.wasi (C.source Sample.host) C.globalTypes := by
  refine ⟨fun t ls b h => ?_, fun t ls b h => ?_, fun t id h args m w r m' w' _ hc => ?_, fun t id h => ?_⟩
  · rcases mem_funcs h with ⟨rfl, rfl, rfl⟩ | ⟨rfl, rfl, rfl⟩
    · exact ⟨⟨by simp [inc, WSeq.Proper, isBracket], some [.i32], by decide +kernel, by decide⟩, by decide +kernel, by decide +kernel, by decide +kernel⟩
    · exact ⟨⟨by simp [main, WSeq.Proper, isBracket], some [.i32], by decide +kernel, by decide⟩, by decide +kernel, by decide +kernel, by decide +kernel⟩
  · rcases mem_funcs h with ⟨rfl, rfl, rfl⟩ | ⟨rfl, rfl, rfl⟩
    · exact ⟨by decide, by simp, sizes_ok (by decide +kernel)⟩
    · exact ⟨by decide, by simp, sizes_ok (by decide +kernel)⟩
  · rw [funcs] at h
    simp only [List.mem_cons, SFunc.wasi.injEq, reduceCtorEq, List.not_mem_nil, or_false] at h
    obtain ⟨rfl, rfl⟩ := h
    simp only [SessionEx.wasi, Res.ok_inj, Prod.mk.injEq, Option.some.injEq] at hc
    obtain ⟨rfl, _⟩ := hc
    rfl
  · rw [funcs] at h
    simp only [List.mem_cons, SFunc.wasi.injEq, reduceCtorEq, List.not_mem_nil, or_false] at h
    obtain ⟨rfl, rfl⟩ := h
    decide

theorem wellFormed : C.WellFormed SessionEx.wasi Sample.host where
  imports := by
    intro i hi
    simp only [C, List.mem_cons, List.not_mem_nil, or_false] at hi
    subst hi
    exact ⟨_, FileEx.yield, rfl⟩
  tables := by
    intro l hl
    simp only [C, List.mem_cons, List.not_mem_nil, or_false] at hl
    subst hl; exact ⟨by decide, by simp⟩
  mems := by
    intro l hl
    simp only [C, List.mem_cons, List.not_mem_nil, or_false] at hl
    subst hl; exact ⟨by decide, by simp⟩
  decls :=
    { imports := by
        intro i hi
        simp only [SMod.decls, C, List.map_cons, List.map_nil, List.mem_cons, List.not_mem_nil, or_false] at hi
        subst hi
        exact ⟨.schedYield, by rw [FileEx.yield]; rfl⟩
      types := by
        intro f hf
        simp only [SMod.decls, C, List.map_cons, List.map_nil, List.mem_cons, List.not_mem_nil, or_false] at hf
        rcases hf with rfl | rfl <;> (show 1 < 2; decide)
      mems := by
        intro p hp
        simp only [SMod.decls, C, List.map_cons, List.map_nil, List.mem_cons, List.not_mem_nil, or_false] at hp
        subst hp; show 0 < 65536; omega
      globals := by
        intro i m c e h
        have h' : C.globals[i]? = some (m, c, e) := h
        simp only [C] at h'
        rcases i with _ | i
        · simp at h'; obtain ⟨rfl, rfl, rfl⟩ := h'; trivial
        · simp at h'
      elems := by
        intro e he
        simp only [SMod.decls, C, List.map_cons, List.map_nil, List.mem_cons, List.not_mem_nil, or_false] at he
        subst he
        refine ⟨rfl, by simp [SMod.decls, C], ?_⟩
        intro k ex ha
        cases ha
        exact ⟨2, rfl, trivial, 1, .i32 _, by decide⟩
      datas := by
        intro d hd k ex ha
        simp only [SMod.decls, C, List.map_cons, List.map_nil, List.mem_cons, List.not_mem_nil, or_false] at hd
        subst hd
        cases ha
      exports := by
        intro e he
        simp only [SMod.decls, C, List.mem_cons, List.not_mem_nil, or_false] at he
        subst he; decide
      start := by simp [SMod.decls, C] }
  globals := by
    intro i m c e h v hv
    simp only [C] at h
    rcases i with _ | i
    · simp at h; obtain ⟨rfl, rfl, rfl⟩ := h
      cases hv; rfl
    · simp at h
  exports := by simp [C]
  dataLen := by simp [C]
  accepted := accepted

theorem compiles : ∃ P, (C.source Sample.host).compile C.globalTypes = some P := by
  have : ((C.source Sample.host).compile C.globalTypes).isSome = true := by decide +kernel
  exact Option.isSome_iff_exists.mp this

theorem small : Small (C.source Sample.host) where
  bodies t ls b h := by
    rcases mem_funcs h with ⟨rfl, rfl, rfl⟩ | ⟨rfl, rfl, rfl⟩ <;> decide +kernel
  funcs := by rw [funcs]; decide
  results t ls b h := by
    rcases mem_funcs h with ⟨rfl, rfl, rfl⟩ | ⟨rfl, rfl, rfl⟩ <;> decide

/-- `session_transparent_partial` does not cover it -/
theorem not_movable : ¬ Movable (C.source Sample.host) := by
  intro h
  have h1 := h.saved ⟨[.i32], [.i32]⟩ [] main (by rw [funcs]; simp) (.dataDrop 0) (by simp [main, WSeq.body, WSeq.flat])
  cases h1

/-- are tables and data segments as loaded? -/
def clean (i : Inst) : Bool :=
  match loadFile (some C.file) with
  | .ok L => decide (i.tables = L.inst.tables) && decide (i.datas = L.inst.datas)
  | _ => true

theorem clean_ok {i : Inst} (h : clean i = true) : AsLoaded (some C.file) i := by
  intro L hL
  simpa [clean, hL] using h

instance shownEq : DecidableEq (List (List Ref) × List (List Byte) × Nat) := inferInstance
instance reportEq : DecidableEq (Report × Option (List (List Ref) × List (List Byte) × Nat)) := inferInstance

/-- run and restore, if tables and data segments are as loaded -/
def after (p : Process) (o : Options) (w : Nat) : Option (Options × Nat) :=
  match p.run (S := SessionEx.wasi) text lz Sample.host (some C.file) o w with
  | some (.ok ⟨_, .checkpointed, some b, some (i, w')⟩) =>
    if b.length < 2 ^ 32 ∧ clean i then some ({ o with restore := some (some b) }, w') else none
  | _ => none

/-- what there is to see of the last process: report, tables, data segments, world -/
def ends (p : Process) (o : Options) (w : Nat) : Option (Report × Option (List (List Ref) × List (List Byte) × Nat)) :=
  match p.run (S := SessionEx.wasi) text lz Sample.host (some C.file) o w with
  | some (.ok ⟨_, r, _, s⟩) => some (r, s.map fun p => (p.1.tables, p.1.datas, p.2))
  | _ => none

/-- two checkpoints while the function that writes the table runs, then an end -/
def whole : Option (Report × Option (List (List Ref) × List (List Byte) × Nat)) := do
  let (o, w) ← after (SessionEx.stopped 12) opts 0
  let (o, w) ← after (SessionEx.stopped 9) o w
  ends calm o w

/-- 5 + 1 + 1 + 1, three calls to the host; at the end the table is empty and the segment dropped -/
theorem whole_ends : whole = some (.result (some (vi 8)), some ([[.null, .null]], [[]], 3)) := by decide +kernel

theorem after_inv {p : Process} {o : Options} {w : Nat} {x : Options × Nat} (h : after p o w = some x) {r : Res (Left SessionEx.wasi)}
    (next : CleanSession (S := SessionEx.wasi) text lz Sample.host (some C.file) x.1 x.2 r) :
    CleanSession (S := SessionEx.wasi) text lz Sample.host (some C.file) o w r := by
  unfold after at h
  split at h
  · rename_i st b i w' hr
    split at h
    · rename_i hlen
      cases h
      exact .move p hr rfl rfl rfl hlen.1 (clean_ok hlen.2) next
    · cases h
  · cases h

theorem ends_inv {p : Process} {o : Options} {w w' : Nat} {v : Option Val} {ts : List (List Ref)} {ds : List (List Byte)}
    (h : ends p o w = some (.result v, some (ts, ds, w'))) :
    ∃ r st, CleanSession (S := SessionEx.wasi) text lz Sample.host (some C.file) o w r ∧ seen r = .ok (.result v, some (st, w')) ∧
      st.tables = ts ∧ st.datas = ds := by
  unfold ends at h
  split at h
  · rename_i st rep c s hr
    obtain ⟨h1, h2⟩ := Prod.mk.inj (Option.some.inj h)
    obtain ⟨⟨i, w2⟩, rfl, h3⟩ := Option.map_eq_some_iff.mp h2
    subst h1
    cases h3
    exact ⟨_, _, .last p hr (fun l hl => by cases hl; exact ⟨nofun, nofun, nofun⟩), rfl, rfl, rfl⟩
  · cases h

/-- There is such a session. -/
theorem session : ∃ r st, CleanSession (S := SessionEx.wasi) text lz Sample.host (some C.file) opts (0 : Nat) r ∧
    seen r = .ok (.result (some (vi 8)), some (st, (3 : Nat))) ∧ st.tables = [[.null, .null]] ∧ st.datas = [[]] := by
  have h := whole_ends
  unfold whole at h
  simp only [Option.bind_eq_bind, Option.bind_eq_some_iff, Prod.exists] at h
  obtain ⟨o1, w1, h1, o2, w2, h2, h3⟩ := h
  obtain ⟨r, st, k1, k2⟩ := ends_inv h3
  exact ⟨r, st, after_inv h1 (after_inv h2 k1), k2⟩

/-- So `clean_session_transparent` applies: any undisturbed process prints 8 and leaves the table empty. -/
example (q : Process) : ∃ st fuel r', ({ q.undisturbed with fuel := fuel }).run (S := SessionEx.wasi) text lz Sample.host (some C.file)
    opts (0 : Nat) = some r' ∧ seen r' = .ok (.result (some (vi 8)), some (st, (3 : Nat))) ∧ st.tables = [[.null, .null]] := by
  obtain ⟨P, hP⟩ := compiles
  obtain ⟨r, st, h1, h2, h5, -⟩ := session
  obtain ⟨fuel, r', h3, h4⟩ := (clean_session_transparent keeps wellFormed hP small rfl h1 q).1
  exact ⟨st, fuel, r', h3, h4.trans h2, h5⟩

/-- stopped when the table has been written, moved, and what is then to be seen at the end -/
def late : Option (Report × Option (List (List Ref) × List (List Byte) × Nat)) :=
  match (SessionEx.stopped 55).run (S := SessionEx.wasi) text lz Sample.host (some C.file) opts (0 : Nat) with
  | some (.ok ⟨_, .checkpointed, some b, some (_, w')⟩) => ends calm { opts with restore := some (some b) } w'
  | _ => none

/-- **C54 is false of the code** without the condition: the same program, moved after it has written the table, prints the same but
ends with the table as loaded. -/
theorem late_violated : late = some (.result (some (vi 8)), some ([[.null, .func 1]], [[]], 3)) ∧
    ends calm opts 0 = some (.result (some (vi 8)), some ([[.null, .null]], [[]], 3)) := by
  constructor <;> decide +kernel

/-! ### C77 -/

theorem after_sofar {p : Process} {o : Options} {w : Nat} {x : Options × Nat} (h : after p o w = some x) {o0 : Options} {w0 : Nat}
    (hs : CleanSoFar (S := SessionEx.wasi) text lz Sample.host (some C.file) o0 w0 o w) :
    CleanSoFar (S := SessionEx.wasi) text lz Sample.host (some C.file) o0 w0 x.1 x.2 := by
  unfold after at h
  split at h
  · rename_i st b i w' hr
    split at h
    · rename_i hlen
      cases h
      exact .move hs p hr rfl rfl rfl hlen.1 (clean_ok hlen.2)
    · cases h
  · cases h

/-- the file and the tables of a process that stops for a checkpoint -/
def leavesT (p : Process) (o : Options) (w : Nat) : Option (List Byte × List (List Ref)) :=
  match p.run (S := SessionEx.wasi) text lz Sample.host (some C.file) o w with
  | some (.ok ⟨_, .checkpointed, some b, some (i, _)⟩) => some (b, i.tables)
  | _ => none

theorem leavesT_inv {p : Process} {o : Options} {w : Nat} {b : List Byte} {ts : List (List Ref)} (h : leavesT p o w = some (b, ts)) :
    ∃ l i w', p.run (S := SessionEx.wasi) text lz Sample.host (some C.file) o w = some (.ok l) ∧ l.report = .checkpointed ∧
      l.ckpt = some b ∧ l.state = some (i, w') ∧ i.tables = ts := by
  unfold leavesT at h
  split at h
  · rename_i st b' i w' hr
    cases h
    exact ⟨_, i, w', hr, rfl, rfl, rfl, rfl⟩
  · cases h

/-- two moves, then a checkpoint after the table has been written -/
def third : Option (List Byte × List (List Ref)) := do
  let (o, w) ← after (SessionEx.stopped 12) opts 0
  let (o, w) ← after (SessionEx.stopped 9) o w
  leavesT (SessionEx.stopped 34) o w

/-- So `clean_moved_without_trace` applies to that third checkpoint: a process that was never moved could have left it, with the table
written too. -/
example : ∃ b, third = some (b, [[.null, .null]]) ∧ ∃ (q : Process) (l' : Left SessionEx.wasi) (b' : List Byte) (i' : Inst) (w' : Nat),
    q.run (S := SessionEx.wasi) text lz Sample.host (some C.file) opts (0 : Nat) = some (.ok l') ∧ l'.ckpt = some b' ∧
    b'.length = b.length ∧ l'.state = some (i', w') ∧ i'.tables = [[.null, .null]] := by
  have h0 : third.any (fun b => decide (b.1.length < 2 ^ 32) && decide (b.2 = [[.null, .null]])) = true := by decide +kernel
  obtain ⟨⟨b, ts⟩, h, hlen⟩ := (Option.any_eq_true ..).mp h0
  simp only [Bool.and_eq_true, decide_eq_true_eq] at hlen
  obtain ⟨hlen, rfl⟩ := hlen
  refine ⟨b, h, ?_⟩
  unfold third at h
  simp only [Option.bind_eq_bind, Option.bind_eq_some_iff, Prod.exists] at h
  obtain ⟨o1, w1, h1, o2, w2, h2, h3⟩ := h
  have s2 := after_sofar h2 (after_sofar h1 .start)
  obtain ⟨l, i, w3, hl, hrep, hb, hs, hts⟩ := leavesT_inv h3
  obtain ⟨P, hP⟩ := compiles
  obtain ⟨q, l', b', e1, e2, e3, e4, -⟩ := clean_moved_without_trace keeps wellFormed hP small rfl s2 hl hrep hb hlen
  simp only [seen, hs, Res.ok_inj, Prod.mk.injEq] at e2
  obtain ⟨-, e2⟩ := e2
  cases hst : l'.state with
  | none => rw [hst] at e2; cases e2
  | some p =>
    obtain ⟨i', w'⟩ := p
    rw [hst] at e2
    simp only [Option.map_some, Option.some.injEq, Prod.mk.injEq] at e2
    exact ⟨q, l', b', i', w', e1, e3, e4, hst, (congrArg Store.tables e2.1).trans hts⟩

end WriterEx
end Verif.Props
