import Verif.Props.Steady
import Verif.Props.SessionEx
/-
Examples for C65: a session checkpointed twice, and a program that never ends.
-/
namespace Verif.Props
open Verif.Model Verif.Spec Verif.Lemmas

namespace SessionEx

theorem maxPages : MaxPages B := by
  intro l hl x hx
  simp only [B, List.mem_cons, List.not_mem_nil, or_false] at hl
  subst hl
  cases hx
  omega

theorem namedB : B.Named Sample.host := by
  intro t ls b h
  obtain ⟨rfl, rfl, rfl⟩ := mem_funcs h
  decide

theorem steadyB : B.Steady Sample.host where
  bodies t ls b h := by
    obtain ⟨rfl, rfl, rfl⟩ := mem_funcs h
    decide
  elems := by intro e he; cases he
  mem := by simp [B]

theorem defined : Defined wasi := by intro id ps m w h; cases h

theorem after_soFar {p : Process} {o : Options} {w : Nat} {x : Options × Nat} (h : after p o w = some x) {o₀ : Options} {w₀ : Nat}
    {asked : Ask Nat → Prop} (before : SoFar (S := wasi) text lz Sample.host (some B.file) o₀ w₀ o w asked) :
    ∃ asked', SoFar (S := wasi) text lz Sample.host (some B.file) o₀ w₀ x.1 x.2 asked' := by
  unfold after at h
  split at h
  · rename_i st b i w' hr
    split at h
    · rename_i hlen
      cases h
      exact ⟨_, .move before p hr rfl rfl rfl hlen⟩
    · cases h
  · cases h

/-- the first call of the host, according to the rules -/
theorem first_ask {st : Store} {m : Mem} (hm : st.mem = some m) : CallAsks wasi (B.source Sample.host) info (.wasm ⟨[.i32], [.i32]⟩ [] main)
    [vi 3] st (0 : Nat) ⟨13, [], m, (0 : Nat)⟩ := by
  refine .body (.inBlock (ps := []) rfl (.inLoop (ps := []) rfl ?_))
  refine .next (.localGet (v := vi 3) rfl) ?_
  refine .next (.un (op := .eqz .s32) (v := (0 : BitVec 32)) (show Unary Sample.host (.eqz .s32) (3 : BitVec 32) (some (0 : BitVec 32)) from ⟨_, rfl, by decide⟩)) ?_
  refine .brIf0 ?_
  refine .inCall (args := []) (F := .wasi ⟨[], [.i32]⟩ 13) (by rw [funcs]; rfl) rfl ?_
  exact .host hm

/-- The session of `session`, checkpointed twice: it has asked what the rules say, among it the first call. -/
example {st : Store} (hst : InitialStore B st) : ∃ o' w' asked r m,
    SoFar (S := wasi) text lz Sample.host (some B.file) opts (0 : Nat) o' w' asked ∧
    calm.run (S := wasi) text lz Sample.host (some B.file) o' w' = some r ∧
    (∀ q, asked q ∨ calm.Asks (S := wasi) text lz Sample.host (some B.file) o' w' q ↔
      CallAsks wasi (B.source Sample.host) info (.wasm ⟨[.i32], [.i32]⟩ [] main) [vi 3] st (0 : Nat) q) ∧
    (asked ⟨13, [], m, (0 : Nat)⟩ ∨ calm.Asks (S := wasi) text lz Sample.host (some B.file) o' w' ⟨13, [], m, (0 : Nat)⟩) := by
  have h := whole_ends
  unfold whole at h
  simp only [Option.bind_eq_bind, Option.bind_eq_some_iff, Prod.exists] at h
  obtain ⟨o1, w1, h1, o2, w2, h2, h3⟩ := h
  obtain ⟨_, s1⟩ := after_soFar h1 .start
  obtain ⟨asked, s2⟩ := after_soFar h2 s1
  obtain ⟨m, hm⟩ : ∃ m, st.mem = some m := by
    cases hm : st.mem with
    | some m => exact ⟨m, rfl⟩
    | none => exact absurd (hst.mem.1.mp hm) (by simp [B])
  unfold ends at h3
  split at h3
  · rename_i s rep c x hr
    have hrep : rep = .result (some (vi 11)) := (Prod.mk.inj (Option.some.inj h3)).1
    subst hrep
    obtain ⟨P, hP⟩ := compiles
    have k := (steady_session keeps defined wellFormed maxPages namedB steadyB hP movable (by decide) rfl (f := 1) (by simp [B, opts])
      (by rw [funcs]; rfl) (args := [vi 3]) (by decide +kernel) rfl hst s2 calm hr (fun l hl => by cases hl; exact ⟨nofun, nofun, nofun⟩)).2
    exact ⟨o2, w2, asked, _, m, s2, hr, k, (k _).mpr (first_ask hm)⟩
  · cases h3

end SessionEx

namespace SpinEx

/-- call the host for ever -/
def spin : WSeq :=
  .loop .empty (.op (.call 0) <| .op .drop <| .op (.br 0) .done) .done

/-- the module -/
def C : SMod where
  types := [⟨[], [.i32]⟩, ⟨[], []⟩]
  imports := [("sched_yield", 0)]
  funcs := [⟨1, [], spin⟩]
  tables := []
  mems := [⟨0, some 4⟩]
  globals := []
  exports := [("run", .func 1)]
  start := none
  elems := []
  datas := []

theorem funcs : (C.source Sample.host).funcs = [.wasi ⟨[], [.i32]⟩ 13, .wasm ⟨[], []⟩ [] spin] := by
  simp [SMod.source, C, hostFunc, FileEx.yield, SMod.type]
  decide

theorem mem_funcs {t : FuncType} {ls : List (Nat × Cls)} {b : WSeq} (h : SFunc.wasm t ls b ∈ (C.source Sample.host).funcs) :
    t = ⟨[], []⟩ ∧ ls = [] ∧ b = spin := by
  rw [funcs] at h
  simp only [List.mem_cons, SFunc.wasm.injEq, reduceCtorEq, List.not_mem_nil, or_false, false_or] at h
  exact h

/-- what the preprocessor knows -/
def info : MInfo := (C.source Sample.host).info C.globalTypes

/-- registers the function uses -/
def sizes : Bool :=
  match compileFn (fnCtx info ⟨[], []⟩ []) spin.body with
  | some ⟨_, _, some W⟩ => [Cls.i32, .i64, .f32, .f64, .ref, .v128].all fun c => decide (W c ≤ 65536)
  | _ => true

theorem sizes_ok : ∀ code W, compileFn (fnCtx info ⟨[], []⟩ []) spin.body = some code → code.alloc = some W → ∀ c, W c ≤ 65536 := by
  have h : sizes = true := by decide +kernel
  intro code W hc hW c
  obtain ⟨l, bd, al⟩ := code
  simp only at hW
  subst hW
  simp only [sizes, hc, List.all_eq_true, decide_eq_true_eq] at h
  exact h c (by cases c <;> decide)

theorem accepted : Accepted SessionEx.wasi (C.source Sample.host) C.globalTypes := by
  refine ⟨fun t ls b h => ?_, fun t ls b h => ?_, fun t id h args m w r m' w' _ hc => ?_, fun t id h => ?_⟩
  · obtain ⟨rfl, rfl, rfl⟩ := mem_funcs h
    exact ⟨⟨by simp [spin, WSeq.Proper, isBracket], some [], by decide +kernel, by decide⟩, by decide +kernel, by decide +kernel, by decide +kernel⟩
  · obtain ⟨rfl, rfl, rfl⟩ := mem_funcs h
    exact ⟨by decide, by simp, sizes_ok⟩
  · rw [funcs] at h
    simp only [List.mem_cons, SFunc.wasi.injEq, reduceCtorEq, List.not_mem_nil, or_false] at h
    obtain ⟨rfl, rfl⟩ := h
    simp only [SessionEx.wasi, Res.ok_inj, Prod.mk.injEq, Option.some.injEq] at hc
    obtain ⟨rfl, _⟩ := hc
    rfl
  · rw [funcs] at h
    simp only [List.mem_cons, SFunc.wasi.injEq, reduceCtorEq, List.not_mem_nil, or_false] at h
    obtain ⟨rfl, rfl⟩ := h
    decide

theorem wellFormed : C.WellFormed SessionEx.wasi Sample.host where
  imports := by
    intro i hi
    simp only [C, List.mem_cons, List.not_mem_nil, or_false] at hi
    subst hi
    exact ⟨_, FileEx.yield, rfl⟩
  tables := by intro l hl; cases hl
  mems := by
    intro l hl
    simp only [C, List.mem_cons, List.not_mem_nil, or_false] at hl
    subst hl; exact ⟨by decide, by simp⟩
  decls :=
    { imports := by
        intro i hi
        simp only [SMod.decls, C, List.map_cons, List.map_nil, List.mem_cons, List.not_mem_nil, or_false] at hi
        subst hi
        exact ⟨.schedYield, by rw [FileEx.yield]; rfl⟩
      types := by
        intro f hf
        simp only [SMod.decls, C, List.map_cons, List.map_nil, List.mem_cons, List.not_mem_nil, or_false] at hf
        subst hf; show 1 < 2; decide
      mems := by
        intro p hp
        simp only [SMod.decls, C, List.map_cons, List.map_nil, List.mem_cons, List.not_mem_nil, or_false] at hp
        subst hp; show 0 < 65536; omega
      globals := by
        intro i m c e h
        have h' : C.globals[i]? = some (m, c, e) := h
        simp [C] at h'
      elems := by intro e he; cases he
      datas := by intro d hd; cases hd
      exports := by
        intro e he
        simp only [SMod.decls, C, List.mem_cons, List.not_mem_nil, or_false] at he
        subst he; decide
      start := by simp [SMod.decls, C] }
  globals := by
    intro i m c e h v hv
    simp [C] at h
  exports := by simp [C]
  dataLen := by intro d hd; cases hd
  accepted := accepted

theorem compiles : ∃ P, (C.source Sample.host).compile C.globalTypes = some P := by
  have : ((C.source Sample.host).compile C.globalTypes).isSome = true := by decide +kernel
  exact Option.isSome_iff_exists.mp this

theorem maxPages : MaxPages C := by
  intro l hl x hx
  simp only [C, List.mem_cons, List.not_mem_nil, or_false] at hl
  subst hl
  cases hx
  omega

theorem namedC : C.Named Sample.host := by
  intro t ls b h
  obtain ⟨rfl, rfl, rfl⟩ := mem_funcs h
  decide

theorem steadyC : C.Steady Sample.host where
  bodies t ls b h := by
    obtain ⟨rfl, rfl, rfl⟩ := mem_funcs h
    decide
  elems := by intro e he; cases he
  mem := by simp [C]

/-- `--invoke run` -/
def opts : Options := ⟨"c.wasm".toList, none, "run", [], none, true⟩

/-- according to the rules the host is asked again and again -/
theorem loop_asks {st : Store} {m : Mem} (hm : st.mem = some m) (k : Nat) : ∀ w : Nat,
    Asks SessionEx.wasi (C.source Sample.host) info spin [] ⟨[], st, w⟩ ⟨13, [], m, w + k⟩ := by
  induction k with
  | zero =>
    intro w
    exact .inLoop (ps := []) rfl (.inCall (args := []) (F := .wasi ⟨[], [.i32]⟩ 13) (by rw [funcs]; rfl) rfl (.host hm))
  | succ k ih =>
    intro w
    have hst : ({ st with mem := some m } : Store) = st := by rw [← hm]
    have hc : Call SessionEx.wasi (C.source Sample.host) info (.wasi ⟨[], [.i32]⟩ 13) [] st w (.ok [vi 0] { st with mem := some m } (w + 1 : Nat)) :=
      .host (v := some (vi 0)) hm rfl rfl
    rw [hst] at hc
    have := ih (w + 1)
    rw [show w + 1 + k = w + (k + 1) by omega] at this
    refine .again (ps := []) (stk := []) (vs := []) (s' := ⟨[], st, (w + 1 : Nat)⟩) rfl ?_ (by simpa [spin] using this)
    exact .call (args := []) (F := .wasi ⟨[], [.i32]⟩ 13) (by rw [funcs]; rfl) rfl hc .ok (.go (.next .drop .br))

/-- The program never ends, and every process, however built, asks the host for ever: if only it is watched long enough, it calls
`sched_yield` in the outside world after any number of calls. -/
example {st : Store} (hst : InitialStore C st) (p : Process) (k : Nat) : ∃ m fuel,
    ({ p.undisturbed with fuel := fuel }).Asks (S := SessionEx.wasi) SessionEx.text SessionEx.lz Sample.host (some C.file) opts (0 : Nat)
      ⟨13, [], m, k⟩ := by
  obtain ⟨m, hm⟩ : ∃ m, st.mem = some m := by
    cases hm : st.mem with
    | some m => exact ⟨m, rfl⟩
    | none => exact absurd (hst.mem.1.mp hm) (by simp [C])
  obtain ⟨P, hP⟩ := compiles
  refine ⟨m, (asks_webassembly SessionEx.keeps wellFormed maxPages namedC hP (by decide) rfl (f := 1) (by simp [C, opts])
    (by rw [funcs]; rfl) (args := []) rfl rfl hst (never_deviates steadyC SessionEx.defined (by rw [funcs]; simp) hst) p _).mpr ?_⟩
  have := loop_asks hm k 0
  rw [Nat.zero_add] at this
  exact .body this

end SpinEx
end Verif.Props
