import Verif.Props.Correct
import Verif.Props.CompileBugs
/-
A module that meets the assumptions of `program_correct_partial`: recursion, a loop, conditionals, memory, a global,
an indirect call and a host call.
-/
namespace Verif.Props
open Verif.Model Verif.Spec Verif.Lemmas

namespace Ex

/-- a host whose only function records its argument and returns 0 -/
def wasi : Wasi := { W := List Val, call := fun _ ps m w => .ok (some (some (vi 0)), m, ps ++ w) }

/-- factorial: `if x = 0 then 1 else x * fact (x - 1)` -/
def fact : WSeq :=
  .op (.localGet 0) <| .op (.un (.eqz .s64)) <|
  .itee (.val .i64) (.op (.const .i64 (1 : BitVec 64)) .done)
    (.op (.localGet 0) <| .op (.localGet 0) <| .op (.const .i64 (1 : BitVec 64)) <| .op (.bin (.int .s64 .sub)) <|
     .op (.call 1) <| .op (.bin (.int .s64 .mul)) .done)
  .done

/-- sum of the factorials of 1 to n, low 32 bits, stored to memory and to a global; says so to the host -/
def main : WSeq :=
  .block .empty
    (.loop .empty
      (.op (.localGet 0) <| .op (.un (.eqz .s32)) <| .op (.brIf 1) <|
       .op (.localGet 1) <|
       .op (.localGet 0) <| .op (.un .extU) <| .op (ci 0) <| .op (.callIndirect 1 0) <|
       .op (.un .wrap) <| .op (.bin (.int .s32 .add)) <| .op (.localSet 1) <|
       .op (.localGet 0) <| .op (ci 1) <| .op (.bin (.int .s32 .sub)) <| .op (.localSet 0) <|
       .op (.br 0) <| .op .memGrow .done)
      .done) <|
  .op (ci 8) <| .op (.localGet 1) <| .op (.store .i32 0) <|
  .op (.localGet 1) <| .op (.globalSet 0) <|
  .op (.globalGet 0) <| .op (.call 0) <| .op .drop <|
  .op (ci 4) <| .op (.load .i32 4) .done

/-- the module -/
def prog : SProg :=
  { H := Sample.host
    types := [⟨[.i32], [.i32]⟩, ⟨[.i64], [.i64]⟩]
    funcs := [.wasi ⟨[.i32], [.i32]⟩ 7, .wasm ⟨[.i64], [.i64]⟩ [] fact, .wasm ⟨[.i32], [.i32]⟩ [(1, .i32)] main] }

/-- its globals -/
def gl : List Cls := [.i32]

/-- the program the interpreter makes of it -/
def loaded : Prog := (prog.compile gl).getD ⟨[], []⟩

theorem load : prog.compile gl = some loaded := rfl

/-- registers the functions use -/
def sizes (t : FuncType) (ls : List (Nat × Cls)) (b : WSeq) : Bool :=
  match compileFn (fnCtx (prog.info gl) t ls) b.body with
  | some ⟨_, _, some W⟩ => [Cls.i32, .i64, .f32, .f64, .ref, .v128].all fun c => decide (W c ≤ 65536)
  | _ => true

theorem sizes_ok {t : FuncType} {ls : List (Nat × Cls)} {b : WSeq} (h : sizes t ls b = true) :
    ∀ code W, compileFn (fnCtx (prog.info gl) t ls) b.body = some code → code.alloc = some W → ∀ c, W c ≤ 65536 := by
  intro code W hc hW c
  obtain ⟨l, bd, al⟩ := code
  simp only at hW
  subst hW
  simp only [sizes, hc, List.all_eq_true, decide_eq_true_eq] at h
  exact h c (by cases c <;> decide)

theorem mem_funcs {t : FuncType} {ls : List (Nat × Cls)} {b : WSeq} (h : SFunc.wasm t ls b ∈ prog.funcs) :
    (t = ⟨[.i64], [.i64]⟩ ∧ ls = [] ∧ b = fact) ∨ (t = ⟨[.i32], [.i32]⟩ ∧ ls = [(1, .i32)] ∧ b = main) := by
  simp only [prog, List.mem_cons, SFunc.wasm.injEq, reduceCtorEq, List.not_mem_nil, or_false, false_or] at h
  exact h

theorem accepted : Accepted wasi prog gl := by
  refine ⟨fun t ls b h => ?_, fun t ls b h => ?_, fun t id h args m w r m' w' _ hc => ?_, fun t id h => ?_⟩
  · rcases mem_funcs h with ⟨rfl, rfl, rfl⟩ | ⟨rfl, rfl, rfl⟩
    · exact ⟨⟨by simp [fact, WSeq.Proper, isBracket], _, rfl, by decide⟩, by decide +kernel, by decide +kernel, by decide +kernel⟩
    · exact ⟨⟨by simp [main, WSeq.Proper, isBracket], _, rfl, by decide⟩, by decide +kernel, by decide +kernel, by decide +kernel⟩
  · rcases mem_funcs h with ⟨rfl, rfl, rfl⟩ | ⟨rfl, rfl, rfl⟩
    · exact ⟨by decide, by simp, sizes_ok (by decide +kernel)⟩
    · exact ⟨by decide, by simp, sizes_ok (by decide +kernel)⟩
  · simp only [prog, List.mem_cons, SFunc.wasi.injEq, reduceCtorEq, List.not_mem_nil, or_false] at h
    obtain ⟨rfl, rfl⟩ := h
    simp only [wasi, Res.ok_inj, Prod.mk.injEq, Option.some.injEq] at hc
    obtain ⟨rfl, _⟩ := hc
    rfl
  · simp only [prog, List.mem_cons, SFunc.wasi.injEq, reduceCtorEq, List.not_mem_nil, or_false] at h
    obtain ⟨rfl, rfl⟩ := h
    decide

/-- the environment: checkpointing possible, never triggered -/
def env : Env := { H := Sample.host, P := loaded, atomics := true, hasWasi := true, trig := fun _ => false }

/-- an instance: 16 bytes of memory (a page would do as well), a global, a table with the factorial -/
def inst : Inst := ⟨some ⟨List.replicate 16 0, none⟩, 0, [⟨true, vi 0⟩], [[.func 1]], []⟩

theorem start (n : BitVec 32) : Start wasi env prog gl inst 2 ⟨[.i32], [.i32]⟩ [(1, .i32)] main [⟨.i32, n⟩] :=
  ⟨rfl, load, accepted, fun _ _ _ => rfl, rfl, rfl, rfl⟩

/-- what it computes for 4: 24 + 6 + 2 + 1 -/
def out4 : Res (List Val × Store × wasi.W) :=
  .ok ([vi 33], ⟨some ⟨[0, 0, 0, 0, 0, 0, 0, 0, 33, 0, 0, 0, 0, 0, 0, 0], none⟩, [⟨true, vi 33⟩], [[.func 1]], []⟩, [vi 33])

deriving instance DecidableEq for Mem, Global, Store

/-- is this the outcome -/
def isOut (o : COut (List Val)) (vs : List Val) (st : Store) (w : List Val) : Bool :=
  match o with
  | .ok vs' st' w' => decide (vs' = vs ∧ st' = st ∧ w' = w)
  | _ => false

theorem isOut_eq {o : COut (List Val)} {vs : List Val} {st : Store} {w : List Val} (h : isOut o vs st w = true) :
    o = .ok vs st w := by
  unfold isOut at h
  split at h
  · simp only [decide_eq_true_eq] at h
    obtain ⟨rfl, rfl, rfl⟩ := h; rfl
  · cases h

theorem gives4 : Gives wasi prog (prog.info gl) (.wasm ⟨[.i32], [.i32]⟩ [(1, .i32)] main) [vi 4] (storeOf inst) [] out4 :=
  .ok (n := 12) (isOut_eq (by decide +kernel))

/-- the theorem at work: the interpreter answers 33, with either dispatcher -/
example : ∃ m : Machine wasi, Machine.new env.P inst ([] : List Val) 2 [vi 4] = .ok m ∧ Answers env (tcoD env) true m out4 := by
  obtain ⟨m, h1, h2, _⟩ := program_correct_partial (start 4) (fun _ => rfl) .tco true ([] : List Val)
  exact ⟨m, h1, h2 _ gives4⟩

/-- C17 at work: any schedule of triggers, the module just started -/
example (atomics : Bool) (trig : Nat → Bool) (n : BitVec 32) (m : Machine wasi)
    (hm : Machine.new loaded inst ([] : List Val) 2 [⟨.i32, n⟩] = .ok m) (r : Res (End wasi)) :
    let E : Env := { H := Sample.host, P := loaded, atomics := atomics, hasWasi := true, trig := trig }
    (∃ k, m.run E (loopD E) true k = some r) ↔ (∃ k, m.run E (tcoD E) true k = some r) :=
  dispatchers_agree_compiled (compile_preprocessed load) (.start hm) true r

/-- the same module with a table that holds the host function instead -/
def instHost : Inst := { inst with tables := [[.func 0]] }

/-- a function that calls through the table: `local.get 0; i32.const 0; call_indirect (type 0)` -/
def through : WSeq := seq [.localGet 0, ci 0, .callIndirect 0 0]

/-- the module with it -/
def prog2 : SProg :=
  { prog with funcs := [.wasi ⟨[.i32], [.i32]⟩ 7, .wasm ⟨[.i32], [.i32]⟩ [] through] }

/-- what the interpreter makes of it -/
def loaded2 : Prog := (prog2.compile gl).getD ⟨[], []⟩
/-- its environment -/
def env2 : Env := { env with P := loaded2 }

/-- did the run end with this failure -/
def endsWith (r : Option (Res (End wasi))) (e : Err) : Bool :=
  match r with
  | some (.trap e') => decide (e' = e)
  | _ => false

/-- **C23 is false of the code** for indirect calls of imported functions: the table entry exists and has the expected
type, so WebAssembly calls the host function; the interpreter fails instead. -/
theorem indirect_host_call_violated : ValidFn (fnCtx (prog2.info gl) ⟨[.i32], [.i32]⟩ []) through ∧
    instHost.tables = [[.func 0]] ∧ prog2.funcs[0]? = some (.wasi ⟨[.i32], [.i32]⟩ 7) ∧
    prog2.types[0]? = some ⟨[.i32], [.i32]⟩ ∧
    ∃ m : Machine wasi, Machine.new loaded2 instHost ([] : List Val) 1 [vi 5] = .ok m ∧
      m.run env2 (loopD env2) false 20 = some (.trap .executionFailed) := by
  refine ⟨⟨seq_proper _ rfl, _, rfl, by decide⟩, rfl, rfl, rfl, _, rfl, ?_⟩
  have key : ∀ r, endsWith r .executionFailed = true → r = some (.trap .executionFailed) := by
    intro r h
    unfold endsWith at h
    split at h
    · simp only [decide_eq_true_eq] at h; rw [h]
    · cases h
  exact key _ (by decide +kernel)

end Ex
end Verif.Props
