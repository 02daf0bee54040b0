import Verif.Props.CommandSafe
/-
A command with undefined behaviour: the hypotheses of `command_undefined_partial` are met.
-/
namespace Verif.Props
open Verif.Model Verif.Spec

namespace CommandEx
open SessionEx

/-- reads the word at 70000 -/
def far : WSeq := .op (ci 70000) <| .op (.load .i32 0) .done

/-- a module with one page of memory -/
def U : SMod where
  types := [⟨[], [.i32]⟩]
  imports := []
  funcs := [⟨0, [], far⟩]
  tables := []
  mems := [⟨1, none⟩]
  globals := []
  exports := [("run", .func 0)]
  start := none
  elems := []
  datas := []

theorem mem_U {t : FuncType} {ls : List (Nat × Cls)} {b : WSeq} (h : SFunc.wasm t ls b ∈ (U.source Sample.host).funcs) :
    t = ⟨[], [.i32]⟩ ∧ ls = [] ∧ b = far := by
  have hf : (U.source Sample.host).funcs = [.wasm ⟨[], [.i32]⟩ [] far] := rfl
  rw [hf] at h
  simp only [List.mem_cons, SFunc.wasm.injEq, List.not_mem_nil, or_false] at h
  exact h

theorem validU : Validated (U.source Sample.host) U.globalTypes where
  valid t ls b h := by
    obtain ⟨rfl, rfl, rfl⟩ := mem_U h
    exact ⟨by simp [far, WSeq.Proper, isBracket, ci], some [.i32], by decide +kernel, by decide⟩
  noRef t ls b h := by
    obtain ⟨rfl, rfl, rfl⟩ := mem_U h
    simp [far, NoRefSelect, ci]
  one t id h := by
    have hf : (U.source Sample.host).funcs = [.wasm ⟨[], [.i32]⟩ [] far] := rfl
    rw [hf] at h
    simp at h

theorem declaredU : U.Declared where
  imports := by intro i hi; cases hi
  tables := by intro i hi; cases hi
  mems := by
    intro l hl
    simp only [U, List.mem_cons, List.not_mem_nil, or_false] at hl
    subst hl; exact ⟨by decide, by simp⟩
  decls :=
    { imports := by intro i hi; cases hi
      types := by
        intro f hf
        simp only [SMod.decls, U, List.map_cons, List.map_nil, List.mem_cons, List.not_mem_nil, or_false] at hf
        subst hf; show 0 < 1; decide
      mems := by
        intro p hp
        simp only [SMod.decls, U, List.map_cons, List.map_nil, List.mem_cons, List.not_mem_nil, or_false] at hp
        subst hp; decide
      globals := by intro i m c e h; simp [SMod.decls, U] at h
      elems := by intro e he; cases he
      datas := by intro d hd; cases hd
      exports := by
        intro e he
        simp only [SMod.decls, U, List.mem_cons, List.not_mem_nil, or_false] at he
        subst he; decide
      start := by simp [SMod.decls, U] }
  exports := by simp [U]

/-- `--invoke run` -/
def run : Options := ⟨"u.wasm".toList, none, "run", [], none, true⟩

/-- is it undefined -/
def wrong : Option (Res (Left wasi)) → Bool
  | some .ub => true
  | _ => false

theorem wrong_eq : ∀ {r : Option (Res (Left wasi))}, wrong r = true → r = some .ub
  | some .ub, _ => rfl
  | none, h => nomatch h
  | some (.ok _), h => nomatch h
  | some (.trap _), h => nomatch h
  | some .panic, h => nomatch h

/-- the command has undefined behaviour, and the theorem says where it comes from -/
example : command (S := wasi) text lz (envOf Sample.host true fun _ => false) tcoD 20 (some U.file) run (0 : Nat) none .fine = some .ub ∧
    ∃ L m m' f fs, loadFile (some U.file) = .ok L ∧ Started (S := wasi) text lz L run (0 : Nat) m ∧
      Reach (envOf Sample.host true (fun _ => false) L.prog L.hasWasi) (tcoD (envOf Sample.host true (fun _ => false) L.prog L.hasWasi)) true
        { m with frames := setFirstEnable true m.frames } m' ∧ m'.frames = f :: fs ∧
      (MemoryWrong (envOf Sample.host true (fun _ => false) L.prog L.hasWasi) m' f ∨
        HostWrong (envOf Sample.host true (fun _ => false) L.prog L.hasWasi) (tcoD (envOf Sample.host true (fun _ => false) L.prog L.hasWasi)) m' f) := by
  have hub : command (S := wasi) text lz (envOf Sample.host true fun _ => false) tcoD 20 (some U.file) run (0 : Nat) none .fine = some .ub :=
    wrong_eq (by decide +kernel)
  refine ⟨hub, ?_⟩
  have hP : ((U.source Sample.host).compile U.globalTypes).isSome = true := by decide +kernel
  obtain ⟨P, hP⟩ := Option.isSome_iff_exists.mp hP
  obtain ⟨fs, L, -, -, hl, rfl, -, -⟩ := load_declared declaredU hP
  obtain ⟨m, m', f, fs, h⟩ := command_undefined_partial (fun _ _ => rfl) (fun e => .tco) hl validU hP (fun b s rest hb _ => by cases hb) hub
  exact ⟨L, m, m', f, fs, hl, h⟩

end CommandEx
end Verif.Props
