import Verif.Props.Platforms
import Verif.Props.SessionEx
/-
C43, C56: what happens when the module cannot be read, and which options matter with `--restore`.
-/
namespace Verif.Props
open Verif.Model Verif.Spec Verif.Lemmas

theorem missing_loads : ∃ L, loadFile none = .ok L ∧ L.prog.funcs = [] ∧ L.exports = [] ∧ L.inst.mem = none ∧ L.inst.globals = [] := by
  refine ⟨_, rfl, rfl, rfl, rfl, rfl⟩

/-- A module file that cannot be read: without `--restore` the command says that the function was not found, with status 1,
whatever else it is given; the checkpoint file stays as it was. -/
theorem missing_file {S : Wasi} {T : FloatText} {lz : Lz} {H : FloatHost} (p : Process) {o : Options} (ho : o.restore = none) (world : S.W) :
    p.run T lz H none o world = some (.ok ⟨1, .noFunction, p.old, none⟩) := by
  obtain ⟨L, h, -, he, -⟩ := missing_loads
  have hx : L.exportFunc o.invoke = .trap .exportNotFound := by simp [Loaded.exportFunc, he]
  simp only [Process.run, command, h, ho, hx]

theorem restoreFrames_none {P : Prog} (hP : P.funcs = []) {i : Inst} {f : FrameData} {fs : List FrameData} {k : Nat} {ks : List Nat} :
    restoreFrames P i (f :: fs) (k :: ks) = none := by
  simp [restoreFrames, hP]

/-- With `--restore` and a file that holds a stopped program (it has a frame, and the frame a function), the command runs
nothing either: it aborts. -/
theorem missing_file_restore {S : Wasi} {T : FloatText} {lz : Lz} {H : FloatHost} (p : Process) {o : Options} {b : List Byte}
    (ho : o.restore = some (some b)) {s : Snapshot} {rest : List Byte} (hd : decode b = some (s, rest)) (hf : s.frames ≠ [])
    (hk : s.funcs ≠ []) (world : S.W) :
    p.run T lz H none o world = some .panic := by
  obtain ⟨L, h, hp, -, hm, hg⟩ := missing_loads
  obtain ⟨f, fs, e1⟩ := List.exists_cons_of_ne_nil hf
  obtain ⟨k, ks, e2⟩ := List.exists_cons_of_ne_nil hk
  have hr : ∃ i, restore lz L.prog L.inst (some b) = (.panic, i) := by
    have hg' : restoreGlobals? L.inst.globals s.globals = ([], true) := by
      rw [hg]; unfold restoreGlobals?
      split
      · rfl
      · rfl
    simp only [restore, hd, restoreState, restoreMem, hm, hg', e1, e2, restoreFrames_none hp, if_true]
    exact ⟨_, rfl⟩
  obtain ⟨i, hr⟩ := hr
  simp only [Process.run, command, h, ho, hr]

/-- With `--restore`, it makes no difference which function is named, with which parameters, or what the guest's command line
is: the same host functions being given, the process is the same. -/
theorem restore_ignores_invocation {S : Wasi} {T T' : FloatText} {lz : Lz} {H : FloatHost} (p : Process) (file : WFile) {o o' : Options}
    {saved : Option (List Byte)} (ho : o.restore = some saved) (ho' : o'.restore = some saved) (world : S.W) :
    p.run T lz H file o world = p.run T' lz H file o' world := by
  simp only [Process.run, command, ho, ho']

/-- a function and parameters without any sense -/
example (p : Process) (b : List Byte) (world : Nat) :
    p.run (S := SessionEx.wasi) SessionEx.text SessionEx.lz Sample.host (some SessionEx.B.file) { SessionEx.opts with restore := some (some b) } world =
    p.run (S := SessionEx.wasi) SessionEx.text SessionEx.lz Sample.host (some SessionEx.B.file)
      { SessionEx.opts with restore := some (some b), invoke := "no such function", params := ["I32(x)".toList], wasmFile := [], appArgs := some [] } world :=
  by apply restore_ignores_invocation (saved := some b) <;> rfl

/-- a checkpoint of a running program, and the module file gone -/
example : ∃ b s rest, (SessionEx.after (SessionEx.stopped 9) SessionEx.opts 0).map (·.1.restore) = some (some (some b)) ∧
    decode b = some (s, rest) ∧ s.frames ≠ [] ∧ s.funcs ≠ [] := by
  have h : (match (SessionEx.after (SessionEx.stopped 9) SessionEx.opts 0).map (·.1.restore) with
      | some (some (some b)) => (match decode b with | some (s, _) => !s.frames.isEmpty && !s.funcs.isEmpty | none => false)
      | _ => false) = true := by decide +kernel
  split at h
  · rename_i b hb
    split at h
    · rename_i s rest hd
      simp only [Bool.and_eq_true, Bool.not_eq_true', List.isEmpty_eq_false_iff] at h
      exact ⟨b, s, rest, hb, hd, h.1, h.2⟩
    · cases h
  · cases h

end Verif.Props
