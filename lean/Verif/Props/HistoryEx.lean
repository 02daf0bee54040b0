import Verif.Props.History
import Verif.Props.AsksEx
/-
Examples for C66: calls after a call that trapped.
-/
namespace Verif.Props
open Verif.Model Verif.Spec Verif.Lemmas

/-- a call answers and leaves one thing only -/
theorem call_unique {S : Wasi} {L : Loaded} {E : Env} (hE : E.P = L.prog) (hq : Quiet E) (hp : Preprocessed E.P) {D : DispatcherL} (hD : IsDL E D)
    {n n' : Nat} {i : Inst} {w : S.W} {r : Request} {x y : Res (List Val) × Inst × S.W} (h : L.call E D n i w r = some x)
    (h' : L.call E D n' i w r = some y) : x.1 = y.1 ∧ storeOf x.2.1 = storeOf y.2.1 ∧ x.2.2 = y.2.2 := by
  unfold Loaded.call at h h'
  split at h
  · rename_i f hf
    rw [hf] at h'
    simp only at h h'
    split at h
    · rename_i m hm
      rw [hm] at h'
      simp only [Option.map_eq_some_iff] at h h'
      obtain ⟨a, ha, rfl⟩ := h
      obtain ⟨b, hb, rfl⟩ := h'
      exact answersL_unique hq hp hD (m := m) (en := r.ckpt) ⟨n, a.1, a.2, ha, rfl, rfl, rfl⟩ ⟨n', b.1, b.2, hb, rfl, rfl, rfl⟩
    all_goals rename_i hm; rw [hm] at h'; cases h; cases h'; exact ⟨rfl, rfl, rfl⟩
  all_goals rename_i hf; rw [hf] at h'; cases h; cases h'; exact ⟨rfl, rfl, rfl⟩

/-- which dispatcher is used does not matter for a call -/
theorem call_any {S : Wasi} {L : Loaded} {E : Env} (hq : Quiet E) (hp : Preprocessed E.P) {D D' : DispatcherL} (hD : IsDL E D)
    (hD' : IsDL E D') {n : Nat} {i i1 : Inst} {w w1 : S.W} {r : Request} {o : Res (List Val)} (h : L.call E D n i w r = some (o, i1, w1)) :
    ∃ n' i1', L.call E D' n' i w r = some (o, i1', w1) ∧ storeOf i1' = storeOf i1 := by
  unfold Loaded.call at h ⊢
  split at h
  · rename_i f hf
    split at h
    · rename_i m hm
      simp only [Option.map_eq_some_iff] at h
      obtain ⟨a, ha, e⟩ := h
      simp only [Prod.mk.injEq] at e
      obtain ⟨n', x, l, k1, k2, k3, k4⟩ := answersL_any hq hp hD hD' r.ckpt r.ckpt (m := m) ⟨n, a.1, a.2, ha, rfl, rfl, rfl⟩
      refine ⟨n', l.1, ?_, by rw [k3, e.2]⟩
      simp only [k1, Option.map_some, k2, e.1, Option.some.injEq, Prod.mk.injEq, true_and]
      exact Prod.ext rfl (by rw [k4, e.2])
    all_goals cases h; exact ⟨0, _, rfl, rfl⟩
  all_goals cases h; exact ⟨0, _, rfl, rfl⟩

/-- the first of several calls -/
theorem answers_first {S : Wasi} {L : Loaded} {E : Env} {D : DispatcherL} {i i' : Inst} {w w' : S.W} {r : Request} {rs : List Request}
    {os : List (Res (List Val))} (h : L.Answers E D i w (r :: rs) os i' w') : ∃ n o i1 w1, L.call E D n i w r = some (o, i1, w1) ∧
      ((os = [o] ∧ (o = .panic ∨ o = .ub)) ∨ (o ≠ .panic ∧ o ≠ .ub ∧ ∃ os', os = o :: os' ∧ L.Answers E D i1 w1 rs os' i' w')) := by
  cases h with
  | next h ha hs => exact ⟨_, _, _, _, h, .inr ⟨ha.1, ha.2, _, rfl, hs⟩⟩
  | dies h ha => exact ⟨_, _, _, _, h, .inl ⟨rfl, ha⟩⟩

namespace HistoryEx

/-- count the call, then convert the argument to an integer -/
def bump : WSeq :=
  .op (.globalGet 0) <| .op (.const .i32 (1 : BitVec 32)) <| .op (.bin (.int .s32 .add)) <| .op (.globalSet 0) <|
  .op (.localGet 0) <| .op (.un (.trunc .i32_f64_s)) .done

/-- the number of calls counted -/
def count : WSeq := .op (.globalGet 0) .done

def boom : WSeq := .op .unreachable .done

/-- the module -/
def G : SMod where
  types := [⟨[.f64], [.i32]⟩, ⟨[], []⟩, ⟨[], [.i32]⟩]
  imports := []
  funcs := [⟨0, [], bump⟩, ⟨1, [], boom⟩, ⟨2, [], count⟩]
  tables := []
  mems := []
  globals := [(true, .i32, [.i32 0])]
  exports := [("bump", .func 0), ("boom", .func 1), ("count", .func 2)]
  start := none
  elems := []
  datas := []

theorem funcs : (G.source Sample.host).funcs = [.wasm ⟨[.f64], [.i32]⟩ [] bump, .wasm ⟨[], []⟩ [] boom,
    .wasm ⟨[], [.i32]⟩ [] count] := by
  simp [SMod.source, G, SMod.type]

theorem mem_funcs {t : FuncType} {ls : List (Nat × Cls)} {b : WSeq} (h : SFunc.wasm t ls b ∈ (G.source Sample.host).funcs) :
    (t = ⟨[.f64], [.i32]⟩ ∧ ls = [] ∧ b = bump) ∨ (t = ⟨[], []⟩ ∧ ls = [] ∧ b = boom) ∨ (t = ⟨[], [.i32]⟩ ∧ ls = [] ∧ b = count) := by
  rw [funcs] at h
  simp only [List.mem_cons, SFunc.wasm.injEq, List.not_mem_nil, or_false] at h
  exact h

/-- what the preprocessor knows -/
def info : MInfo := (G.source Sample.host).info G.globalTypes

/-- registers the functions use -/
def sizes (t : FuncType) (b : WSeq) : Bool :=
  match compileFn (fnCtx info t []) b.body with
  | some ⟨_, _, some W⟩ => [Cls.i32, .i64, .f32, .f64, .ref, .v128].all fun c => decide (W c ≤ 65536)
  | _ => true

theorem sizes_ok {t : FuncType} {b : WSeq} (h : sizes t b = true) :
    ∀ code W, compileFn (fnCtx info t []) b.body = some code → code.alloc = some W → ∀ c, W c ≤ 65536 := by
  intro code W hc hW c
  obtain ⟨l, bd, al⟩ := code
  simp only at hW
  subst hW
  simp only [sizes, hc, List.all_eq_true, decide_eq_true_eq] at h
  exact h c (by cases c <;> decide)

theorem noHost {t : FuncType} {id : Nat} : SFunc.wasi t id ∉ (G.source Sample.host).funcs := by
  rw [funcs]; simp

theorem accepted : Accepted SessionEx.wasi (G.source Sample.host) G.globalTypes := by
  refine ⟨fun t ls b h => ?_, fun t ls b h => ?_, fun t id h => (noHost h).elim, fun t id h => (noHost h).elim⟩
  · rcases mem_funcs h with ⟨rfl, rfl, rfl⟩ | ⟨rfl, rfl, rfl⟩ | ⟨rfl, rfl, rfl⟩
    · exact ⟨⟨by simp [bump, WSeq.Proper, isBracket], some [.i32], by decide +kernel, by decide⟩, by decide +kernel, by decide +kernel, by decide +kernel⟩
    · exact ⟨⟨by simp [boom, WSeq.Proper, isBracket], none, by decide +kernel, by decide⟩, by decide +kernel, by decide +kernel, by decide +kernel⟩
    · exact ⟨⟨by simp [count, WSeq.Proper, isBracket], some [.i32], by decide +kernel, by decide⟩, by decide +kernel, by decide +kernel, by decide +kernel⟩
  · rcases mem_funcs h with ⟨rfl, rfl, rfl⟩ | ⟨rfl, rfl, rfl⟩ | ⟨rfl, rfl, rfl⟩
    · exact ⟨by decide, by simp, sizes_ok (by decide +kernel)⟩
    · exact ⟨by decide, by simp, sizes_ok (by decide +kernel)⟩
    · exact ⟨by decide, by simp, sizes_ok (by decide +kernel)⟩

theorem wellFormed : G.WellFormed SessionEx.wasi Sample.host where
  imports := by intro i hi; cases hi
  tables := by intro l hl; cases hl
  mems := by intro l hl; cases hl
  decls :=
    { imports := by intro i hi; cases hi
      types := by
        intro f hf
        simp only [SMod.decls, G, List.map_cons, List.map_nil, List.mem_cons, List.not_mem_nil, or_false] at hf
        rcases hf with rfl | rfl | rfl
        · show 0 < 3; decide
        · show 1 < 3; decide
        · show 2 < 3; decide
      mems := by intro p hp; cases hp
      globals := by
        intro i m c e h
        have h' : G.globals[i]? = some (m, c, e) := h
        rcases i with _ | i <;> simp [G] at h'
        obtain ⟨rfl, rfl, rfl⟩ := h'
        trivial
      elems := by intro e he; cases he
      datas := by intro d hd; cases hd
      exports := by
        intro e he
        simp only [SMod.decls, G, List.mem_cons, List.not_mem_nil, or_false] at he
        rcases he with rfl | rfl | rfl <;> decide
      start := by simp [SMod.decls, G] }
  globals := by
    intro i m c e h v hv
    rcases i with _ | i <;> simp [G] at h
    obtain ⟨rfl, rfl, rfl⟩ := h
    cases hv
    rfl
  exports := by simp [G]
  dataLen := by intro d hd; cases hd
  accepted := accepted

theorem compiles : ∃ P, (G.source Sample.host).compile G.globalTypes = some P := by
  have : ((G.source Sample.host).compile G.globalTypes).isSome = true := by decide +kernel
  exact Option.isSome_iff_exists.mp this

theorem maxPages : MaxPages G := by intro l hl; cases hl

theorem namedG : G.Named Sample.host := by
  intro t ls b h
  rcases mem_funcs h with ⟨rfl, rfl, rfl⟩ | ⟨rfl, rfl, rfl⟩ | ⟨rfl, rfl, rfl⟩ <;> decide

theorem steadyG : G.Steady Sample.host where
  bodies t ls b h := by rcases mem_funcs h with ⟨rfl, rfl, rfl⟩ | ⟨rfl, rfl, rfl⟩ | ⟨rfl, rfl, rfl⟩ <;> decide
  elems := by intro e he; cases he
  mem := by simp [G]

/-- run the requests with the loop dispatcher -/
def serve (L : Loaded) : Inst → Nat → List Request → Option (List (Res (List Val)))
  | _, _, [] => some []
  | i, w, r :: rs =>
    match L.call (S := SessionEx.wasi) (envOf Sample.host false (fun _ => false) L.prog L.hasWasi)
      (loopDL (envOf Sample.host false (fun _ => false) L.prog L.hasWasi)) 100 i w r with
    | some (.panic, _) => some [.panic]
    | some (.ub, _) => some [.ub]
    | some (.ok vs, i1, w1) => (serve L i1 w1 rs).map (.ok vs :: ·)
    | some (.trap e, i1, w1) => (serve L i1 w1 rs).map (.trap e :: ·)
    | none => none

theorem serve_answers {L : Loaded} : ∀ {rs : List Request} {i : Inst} {w : Nat} {os : List (Res (List Val))}, serve L i w rs = some os →
    ∃ i' w', L.Answers (S := SessionEx.wasi) (envOf Sample.host false (fun _ => false) L.prog L.hasWasi)
      (loopDL (envOf Sample.host false (fun _ => false) L.prog L.hasWasi)) i w rs os i' w'
  | [], i, w, os, h => by cases h; exact ⟨i, w, .nil⟩
  | r :: rs, i, w, os, h => by
    simp only [serve] at h
    split at h
    · rename_i x hx
      cases h
      exact ⟨_, _, .dies hx (.inl rfl)⟩
    · rename_i x hx
      cases h
      exact ⟨_, _, .dies hx (.inr rfl)⟩
    · rename_i vs i1 w1 hx
      obtain ⟨os', h1, rfl⟩ := Option.map_eq_some_iff.mp h
      obtain ⟨i', w', k⟩ := serve_answers h1
      exact ⟨i', w', .next hx ⟨nofun, nofun⟩ k⟩
    · rename_i e i1 w1 hx
      obtain ⟨os', h1, rfl⟩ := Option.map_eq_some_iff.mp h
      obtain ⟨i', w', k⟩ := serve_answers h1
      exact ⟨i', w', .next hx ⟨nofun, nofun⟩ k⟩
    · cases h

/-- convert a NaN, call what is not there, ask for the count -/
def calls : List Request := [⟨"bump", [⟨.f64, (0x7ff8000000000000 : BitVec 64)⟩], true⟩, ⟨"nope", [], false⟩, ⟨"count", [], false⟩]

/-- what the caller gets -/
def gets (rs : List Request) : Option (List (Res (List Val))) :=
  match loadFile (some G.file) with
  | .ok L => serve L L.inst 0 rs
  | _ => none

def isTrap : Res (List Val) → Bool
  | .trap (.processExit _) => false
  | .trap _ => true
  | _ => false

def check : Bool :=
  match gets calls with
  | some [a, b, .ok vs] => isTrap a && isTrap b && decide (vs = [vi 1])
  | _ => false

theorem check_ok : check = true := by decide +kernel

theorem loads : ∃ L, loadFile (some G.file) = .ok L := by
  obtain ⟨P, hP⟩ := compiles
  obtain ⟨_, L, _, _, h, _⟩ := load_ok wellFormed hP
  exact ⟨L, h⟩

theorem isTrap_of {x : Res (List Val)} (h : isTrap x = true) : Outcome.of x = .error := by
  rcases x with _ | e | _ | _
  · cases h
  · cases e <;> first | rfl | cases h
  · cases h
  · cases h

/-- `bump` had counted before it trapped. -/
example {st : Store} (hst : InitialStore G st) : ∃ st' w',
    History SessionEx.wasi G Sample.host st (0 : Nat) calls [.error, .error, .values [vi 1]] st' w' := by
  obtain ⟨P, hP⟩ := compiles
  obtain ⟨L, hL⟩ := loads
  have hc := check_ok
  simp only [check, gets, hL] at hc
  split at hc
  · rename_i a b vs hs
    simp only [Bool.and_eq_true, decide_eq_true_eq] at hc
    obtain ⟨⟨ha, hb⟩, rfl⟩ := hc
    obtain ⟨i, w, h⟩ := serve_answers hs
    have k := (history_correct_partial SessionEx.keeps wellFormed maxPages namedG hP (by decide) hL false .loop (0 : Nat) hst
      (by
        intro r hr
        simp only [calls, List.mem_cons, List.not_mem_nil, or_false] at hr
        rcases hr with rfl | rfl | rfl
        · exact .inl ⟨0, _, _, _, by simp [G], by rw [funcs]; rfl, rfl⟩
        · exact .inr (by simp [G])
        · exact .inl ⟨2, _, _, _, by simp [G], by rw [funcs]; rfl, rfl⟩)
      (steady_neverOdd steadyG SessionEx.defined hst _ _)).1 _ _ _ h
    have := k.1
    simp only [List.map_cons, List.map_nil, isTrap_of ha, isTrap_of hb] at this
    exact ⟨storeOf i, w, this⟩
  · cases hc

def bad : List Request := [⟨"boom", [], false⟩, ⟨"count", [], false⟩]

def checkBad : Bool :=
  match gets bad with
  | some [.panic] => true
  | _ => false

theorem checkBad_ok : checkBad = true := by decide +kernel

/-- the initial store of the example -/
theorem store {st : Store} (hst : InitialStore G st) : ∃ m, st.globals[0]? = some ⟨m, vi 0⟩ := by
  have hl : st.globals.length = 1 := hst.globals.1
  obtain ⟨g, hg⟩ : ∃ g, st.globals[0]? = some g := ⟨_, List.getElem?_eq_getElem (by omega)⟩
  obtain ⟨c, e, h1, h2⟩ := hst.globals.2 0 g hg
  simp only [G, List.getElem?_cons_zero, Option.some.injEq, Prod.mk.injEq] at h1
  obtain ⟨h0, rfl, rfl⟩ := h1
  generalize hv : g.value = v at h2
  cases h2
  exact ⟨g.mutable_, by rw [hg]; exact congrArg some (by cases g; cases hv; rfl)⟩

end HistoryEx

/-- C66, a panic ends it: WebAssembly says an instance whose function trapped can go on to be called; here a call that reaches
`unreachable` ends the process, and the next call never happens. -/
theorem after_panic_violated : ∃ (A : SMod) (L : Loaded) (rs : List Request), loadFile (some A.file) = .ok L ∧ rs.length = 2 ∧
    (∀ st, InitialStore A st → History SessionEx.wasi A Sample.host st (0 : Nat) rs [.error, .values [vi 0]] st (0 : Nat)) ∧
    ∀ D, IsDL (envOf Sample.host false (fun _ => false) L.prog L.hasWasi) D → ∀ os i w,
      L.Answers (S := SessionEx.wasi) (envOf Sample.host false (fun _ => false) L.prog L.hasWasi) D L.inst (0 : Nat) rs os i w →
      os = [.panic] := by
  obtain ⟨P, hP⟩ := HistoryEx.compiles
  obtain ⟨L, hL⟩ := HistoryEx.loads
  refine ⟨HistoryEx.G, L, HistoryEx.bad, hL, rfl, fun st hst => ?_, fun D hD os i w h => ?_⟩
  · obtain ⟨m, hg⟩ := HistoryEx.store hst
    refine .next (.traps (f := 1) (by simp [HistoryEx.G]) (by rw [HistoryEx.funcs]; rfl) rfl (.trapOut (.trap .unreachable)))
      (.next (.returns (f := 2) (by simp [HistoryEx.G]) (by rw [HistoryEx.funcs]; rfl) rfl ?_) .nil)
    have := Call.norm (S := SessionEx.wasi) (Q := HistoryEx.G.source Sample.host) (M := HistoryEx.info) (t := ⟨[], [.i32]⟩) (ls := [])
      (b := HistoryEx.count) (args := []) (st := st) (w := (0 : Nat)) (vs := [vi 0]) (s' := ⟨[], st, (0 : Nat)⟩)
      (.next (.globalGet hg) .done)
    exact this
  · have hc := HistoryEx.checkBad_ok
    simp only [HistoryEx.checkBad, HistoryEx.gets, hL] at hc
    split at hc
    · rename_i hs
      obtain ⟨_, L', _, _, hl, hp, _⟩ := load_ok HistoryEx.wellFormed hP
      rw [hL] at hl
      cases hl
      have hpre : Preprocessed L.prog := by rw [hp]; exact compile_preprocessed hP
      have hq : Quiet (envOf Sample.host false (fun _ => false) L.prog L.hasWasi) := fun _ => rfl
      obtain ⟨_, _, k⟩ := HistoryEx.serve_answers hs
      have first : ∃ n i1 w1, L.call (S := SessionEx.wasi) (envOf Sample.host false (fun _ => false) L.prog L.hasWasi) D n L.inst (0 : Nat)
          ⟨"boom", [], false⟩ = some (.panic, i1, w1) := by
        obtain ⟨n, o, i1, w1, h1, h2⟩ := answers_first k
        have : o = .panic := by
          rcases h2 with ⟨h2, _⟩ | ⟨_, _, os', h2, _⟩ <;> cases h2 <;> rfl
        subst this
        obtain ⟨n, i1, k, _⟩ := call_any (E := envOf _ _ _ _ _) hq hpre .loop hD h1
        exact ⟨n, i1, _, k⟩
      obtain ⟨n, i1, w1, h1⟩ := first
      obtain ⟨n', o, i2, w2, h2, h3⟩ := answers_first h
      have e := (call_unique (E := envOf _ _ _ _ _) rfl hq hpre hD h2 h1).1
      simp only at e
      subst e
      rcases h3 with ⟨h3, _⟩ | ⟨h3, _⟩
      · exact h3
      · exact (h3 rfl).elim
    · cases hc

end Verif.Props
