import Verif.Props.EndToEnd
import Verif.Props.CorrectEx
/-
A file that meets the assumptions of `main_correct_partial`, and the start function (C37) and malformed files (C43) at work.
-/
namespace Verif.Props
open Verif.Model Verif.Spec Verif.Lemmas

namespace FileEx

/-- a host whose functions return 0 and count the calls -/
def wasi : Wasi := { W := Nat, call := fun _ _ m w => .ok (some (some (vi 0)), m, w + 1) }

/-- add global 0 -/
def addG : WSeq := .op (.localGet 0) <| .op (.globalGet 0) <| .op (.bin (.int .s32 .add)) .done

/-- call `addG` through the table, yield, add -/
def main : WSeq := .op (.localGet 0) <| .op (ci 1) <| .op (.callIndirect 1 0) <| .op (.call 0) <| .op (.bin (.int .s32 .add)) .done

/-- one WASI import, two functions, a table, a memory, two globals, an element and two data segments -/
def A : SMod where
  types := [⟨[], [.i32]⟩, ⟨[.i32], [.i32]⟩]
  imports := [("sched_yield", 0)]
  funcs := [⟨1, [], addG⟩, ⟨1, [(2, .i64)], main⟩]
  tables := [⟨2, none⟩]
  mems := [⟨1, some 4⟩]
  globals := [(true, .i32, [.i32 5]), (false, .i32, [.globalGet 0])]
  exports := [("memory", .mem 0), ("run", .func 2)]
  start := none
  elems := [([1], .active none [.i32 1])]
  datas := [([1, 2, 3], .active 0 [.i32 16]), ([9], .passive), ([4], .active 0 [.globalGet 1])]

/-- what the preprocessor knows -/
def info : MInfo := (A.source Sample.host).info A.globalTypes

/-- registers the functions use -/
def sizes (t : FuncType) (ls : List (Nat × Cls)) (b : WSeq) : Bool :=
  match compileFn (fnCtx info t ls) b.body with
  | some ⟨_, _, some W⟩ => [Cls.i32, .i64, .f32, .f64, .ref, .v128].all fun c => decide (W c ≤ 65536)
  | _ => true

theorem sizes_ok {t : FuncType} {ls : List (Nat × Cls)} {b : WSeq} (h : sizes t ls b = true) :
    ∀ code W, compileFn (fnCtx info t ls) b.body = some code → code.alloc = some W → ∀ c, W c ≤ 65536 := by
  intro code W hc hW c
  obtain ⟨l, bd, al⟩ := code
  simp only at hW
  subst hW
  simp only [sizes, hc, List.all_eq_true, decide_eq_true_eq] at h
  exact h c (by cases c <;> decide)

theorem yield : parseWasi "sched_yield" = some .schedYield := by decide +kernel

theorem funcs : (A.source Sample.host).funcs =
    [.wasi ⟨[], [.i32]⟩ 13, .wasm ⟨[.i32], [.i32]⟩ [] addG, .wasm ⟨[.i32], [.i32]⟩ [(2, .i64)] main] := by
  simp [SMod.source, A, hostFunc, yield, SMod.type]
  decide

theorem source : A.source Sample.host = ⟨Sample.host, [⟨[], [.i32]⟩, ⟨[.i32], [.i32]⟩],
    [.wasi ⟨[], [.i32]⟩ 13, .wasm ⟨[.i32], [.i32]⟩ [] addG, .wasm ⟨[.i32], [.i32]⟩ [(2, .i64)] main]⟩ := by
  rw [← funcs]; rfl

theorem infoEq : info = ⟨[⟨[], [.i32]⟩, ⟨[.i32], [.i32]⟩], [.i32, .i32],
    [(some 13, ⟨[], [.i32]⟩), (none, ⟨[.i32], [.i32]⟩), (none, ⟨[.i32], [.i32]⟩)]⟩ := by
  rw [info, source]; rfl

theorem mem_funcs {t : FuncType} {ls : List (Nat × Cls)} {b : WSeq} (h : SFunc.wasm t ls b ∈ (A.source Sample.host).funcs) :
    (t = ⟨[.i32], [.i32]⟩ ∧ ls = [] ∧ b = addG) ∨ (t = ⟨[.i32], [.i32]⟩ ∧ ls = [(2, .i64)] ∧ b = main) := by
  rw [funcs] at h
  simp only [List.mem_cons, SFunc.wasm.injEq, reduceCtorEq, List.not_mem_nil, or_false, false_or] at h
  exact h

theorem accepted : Accepted wasi (A.source Sample.host) A.globalTypes := by
  refine ⟨fun t ls b h => ?_, fun t ls b h => ?_, fun t id h args m w r m' w' _ hc => ?_, fun t id h => ?_⟩
  · rcases mem_funcs h with ⟨rfl, rfl, rfl⟩ | ⟨rfl, rfl, rfl⟩
    · exact ⟨⟨by simp [addG, WSeq.Proper, isBracket], some [.i32], by decide +kernel, by decide⟩, by decide +kernel, by decide +kernel, by decide +kernel⟩
    · exact ⟨⟨by simp [main, WSeq.Proper, isBracket], some [.i32], by decide +kernel, by decide⟩, by decide +kernel, by decide +kernel, by decide +kernel⟩
  · rcases mem_funcs h with ⟨rfl, rfl, rfl⟩ | ⟨rfl, rfl, rfl⟩
    · exact ⟨by decide, by simp, sizes_ok (by decide +kernel)⟩
    · exact ⟨by decide, by simp, sizes_ok (by decide +kernel)⟩
  · rw [funcs] at h
    simp only [List.mem_cons, SFunc.wasi.injEq, reduceCtorEq, List.not_mem_nil, or_false] at h
    obtain ⟨rfl, rfl⟩ := h
    simp only [wasi, Res.ok_inj, Prod.mk.injEq, Option.some.injEq] at hc
    obtain ⟨rfl, _⟩ := hc
    rfl
  · rw [funcs] at h
    simp only [List.mem_cons, SFunc.wasi.injEq, reduceCtorEq, List.not_mem_nil, or_false] at h
    obtain ⟨rfl, rfl⟩ := h
    decide

theorem wellFormed : A.WellFormed wasi Sample.host where
  imports := by
    intro i hi
    simp only [A, List.mem_cons, List.not_mem_nil, or_false] at hi
    subst hi
    exact ⟨_, yield, rfl⟩
  tables := by
    intro l hl
    simp only [A, List.mem_cons, List.not_mem_nil, or_false] at hl
    subst hl; exact ⟨by decide, by simp⟩
  mems := by
    intro l hl
    simp only [A, List.mem_cons, List.not_mem_nil, or_false] at hl
    subst hl; exact ⟨by decide, by simp⟩
  decls :=
    { imports := by
        intro i hi
        simp only [SMod.decls, A, List.map_cons, List.map_nil, List.mem_cons, List.not_mem_nil, or_false] at hi
        subst hi
        exact ⟨.schedYield, by rw [yield]; rfl⟩
      types := by
        intro f hf
        simp only [SMod.decls, A, List.map_cons, List.map_nil, List.mem_cons, List.not_mem_nil, or_false] at hf
        rcases hf with rfl | rfl <;> (show 1 < 2; decide)
      mems := by
        intro p hp
        simp only [SMod.decls, A, List.map_cons, List.map_nil, List.mem_cons, List.not_mem_nil, or_false] at hp
        subst hp; show 1 < 65536; omega
      globals := by
        intro i m c e h
        have h' : A.globals[i]? = some (m, c, e) := h
        simp only [A] at h'
        rcases i with _ | _ | i
        · simp at h'; obtain ⟨rfl, rfl, rfl⟩ := h'; trivial
        · simp at h'; obtain ⟨rfl, rfl, rfl⟩ := h'; exact Nat.one_pos
        · simp at h'
      elems := by
        intro e he
        simp only [SMod.decls, A, List.map_cons, List.map_nil, List.mem_cons, List.not_mem_nil, or_false] at he
        subst he
        refine ⟨rfl, by simp [SMod.decls, A], ?_⟩
        intro k ex ha
        cases ha
        exact ⟨2, rfl, trivial, 1, .i32 _, by decide⟩
      datas := by
        intro d hd k ex ha
        simp only [SMod.decls, A, List.map_cons, List.map_nil, List.mem_cons, List.not_mem_nil, or_false] at hd
        rcases hd with rfl | rfl | rfl
        · cases ha; exact ⟨(1, some 4), rfl, trivial, 16, .i32 _, by show 16 + 3 ≤ 1 * 65536; omega⟩
        · cases ha
        · cases ha
          exact ⟨(1, some 4), rfl, by show 1 < 2; decide, 5, .global (g := 1) rfl (.global (g := 0) rfl (.i32 _)),
            by show 5 + 1 ≤ 1 * 65536; omega⟩
      exports := by
        intro e he
        simp only [SMod.decls, A, List.mem_cons, List.not_mem_nil, or_false] at he
        rcases he with rfl | rfl <;> decide
      start := by simp [SMod.decls, A] }
  globals := by
    intro i m c e h v hv
    simp only [A] at h
    rcases i with _ | _ | i
    · simp at h; obtain ⟨rfl, rfl, rfl⟩ := h
      cases hv; rfl
    · simp at h; obtain ⟨rfl, rfl, rfl⟩ := h
      cases hv with
      | global hg h' => simp [A] at hg; obtain ⟨_, _, rfl⟩ := hg; cases h'; rfl
    · simp at h
  exports := by simp [A]
  dataLen := by simp [A]
  accepted := accepted

theorem compiles : ∃ P, (A.source Sample.host).compile A.globalTypes = some P := by
  have : ((A.source Sample.host).compile A.globalTypes).isSome = true := by decide +kernel
  exact Option.isSome_iff_exists.mp this

/-- results of an outcome -/
def resultsOf : COut wasi.W → Option (List Val × Nat)
  | .ok vs _ w => some (vs, w)
  | _ => none

/-- results of an outcome -/
def shownResults {S : Wasi} : Res (List Val × Store × S.W) → Option (List Val × S.W)
  | .ok (vs, _, w) => some (vs, w)
  | _ => none

/-- Running `run` on 7 shows 7 + 5 + 0, with one call to the host, with either dispatcher, checkpointing on or off. -/
example (atomics : Bool) {D : Env → Dispatcher} (hD : Build D) (en : Bool) :
    ∃ o, MainShows (S := wasi) Sample.host atomics D en (some A.file) "run" [vi 7] (0 : Nat) o ∧
      shownResults (S := wasi) o = some ([vi 12], (1 : Nat)) := by
  obtain ⟨P, hP⟩ := compiles
  obtain ⟨st, hst⟩ := initialStore_exists wellFormed hP
  have hg : ∃ m, st = ⟨m, [⟨true, vi 5⟩, ⟨false, vi 5⟩], [[.null, .func 1]], [[1, 2, 3], [9], [4]]⟩ := by
    obtain ⟨fs, L, _, hL, _, _, _, hti⟩ := load_ok wellFormed hP
    have hs := initialStore_unique hst (load_store wellFormed hL)
    obtain ⟨imported, own, tables, mems, h1, h2, h3, h4, h5, h6, h7, h8, h9, h10, h11, _⟩ := (instantiate_parts hL).parts
    have e1 : L.inst.globals = [⟨true, vi 5⟩, ⟨false, vi 5⟩] := (Res.ok.inj h2).symm
    have e3 : imported = [.wasi ⟨[], [.i32]⟩ 13] := by
      have : linkImports A.decls.imports = .ok imported := h1
      simp only [SMod.decls, A, List.map_cons, List.map_nil, yield] at this
      exact (Res.ok.inj this).symm
    have e2 : tables = [[.null, .func 1]] := by
      rw [e1, e3] at h3
      have hl : (A.loaded fs).funcs.length = fs.length := rfl
      have h3' : initElems (1 + fs.length) [⟨true, vi 5⟩, ⟨false, vi 5⟩] [[.null, .null]] [⟨true, some [1], some (0, [.i32 1])⟩] = .ok tables := h3
      have hf : fs.length = 2 := by simpa [A] using congrArg List.length hti
      rw [hf] at h3'
      exact (Res.ok.inj h3').symm
    refine ⟨L.inst.mem, ?_⟩
    rw [hs, storeOf, e1, h10, e2, h11]
    rfl
  obtain ⟨m, rfl⟩ := hg
  cases m with
  | none => exact absurd (hst.mem.1.mp rfl) (by simp [A])
  | some m =>
    have hr : resultsOf (invoke wasi (A.source Sample.host) info 10 (.wasm ⟨[.i32], [.i32]⟩ [(2, .i64)] main) [vi 7]
        ⟨some m, [⟨true, vi 5⟩, ⟨false, vi 5⟩], [[.null, .func 1]], [[1, 2, 3], [9], [4]]⟩ (0 : Nat)) = some ([vi 12], 1) := by
      rw [infoEq, source]; rfl
    unfold resultsOf at hr
    split at hr
    · rename_i vs st' w hi
      obtain ⟨h1, h2⟩ := Prod.mk.inj (Option.some.inj hr)
      subst h1 h2
      exact ⟨_, (main_correct_partial wellFormed hP (by decide) (f := 2) (by simp [A]) (by rw [funcs]; rfl) rfl atomics hD en (0 : Nat) hst).1
        _ (.ok hi), rfl⟩
    · cases hr

end FileEx
end Verif.Props
