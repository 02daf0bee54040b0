import Verif.Props.MemExact
import Verif.Props.State
import Verif.Props.SessionMain
import Verif.Props.Safety
/-
Parts of the instance no executed instruction writes do not change (C12, C35, C36).
-/
namespace Verif.Props
open Verif.Model Verif.Spec Verif.Lemmas

/-- an instruction changes only what it writes -/
theorem step_same {H : FloatHost} {P : Prog} {len : Nat} {s : VM} {i : Instr} {o : Out} (h : step H P len s i = .ok o) {p : Part}
    (hp : p ∉ i.writes) : p.Same o.vm.inst s.inst := by
  obtain ⟨h1, h2, h3, h4⟩ := changed_only_by H P len s i o h
  cases p with
  | global g =>
    refine global_changed_only_by_set H P len s i o g h fun hs => hp ?_
    cases i <;> simp_all [setsGlobal, Instr.writes]
  | table t =>
    refine h3 t fun hs => hp ?_
    cases i <;> simp_all [writesTable, Instr.writes]
  | data d =>
    refine h4 d fun hs => hp ?_
    cases i <;> simp_all [dropsData, Instr.writes]
  | size =>
    have hk := (step_keeps h).mem
    have hg : ∀ dst arg, i ≠ .memGrow dst arg := by rintro dst arg rfl; exact hp (by simp [Instr.writes])
    cases hm : s.inst.mem <;> cases hm' : o.vm.inst.mem <;> rw [hm, hm'] at hk <;> simp only [OptMemStep] at hk
    · simp only [Part.Same, hm, hm']
    · have := h2 hg _ _ hm hm'
      simp only [Part.Same, hm, hm', Option.map_some, this.1, this.2]
  | mem =>
    have : ¬ writesMem i := fun hs => hp (by cases i <;> simp_all [writesMem, Instr.writes])
    simp only [Part.Same, h1 this]

theorem same_trans {p : Part} {i j k : Inst} (h : p.Same i j) (h' : p.Same j k) : p.Same i k := by
  cases p <;> exact Eq.trans h h'

/-- C12, C35, C36 for whole runs.  A global, a table, a data segment, the size of memory: what no instruction writes that the run comes
to execute is, at the end and in every state met on the way, what it was at the beginning — whatever else is executed, called or done by
WASI. -/
theorem unwritten_unchanged {S : Wasi} {E : Env} {D : Dispatcher} (hD : IsD E D) {en : Bool} {m m' : Machine S} (hS : WasiKeepsSize S)
    {p : Part} (hp : p ≠ .mem) (hno : ∀ s i, Comes E D en m s i → p ∉ i.writes) (h : Reach E D en m m') :
    p.Same m'.inst m.inst ∧
    ∀ f fs d, m'.frames = f :: fs → Visits E (E.P.body f.func) (m'.enter f) d → p.Same d.vm.inst m.inst := by
  have refl : ∀ i, p.Same i i := by intro i; cases p <;> exact rfl
  have one : ∀ {m1 : Machine S} {n : Nat} {r : Round S}, Reach E D en m m1 → m1.round E D en n = some (.ok r) →
      p.Same m1.inst m.inst → p.Same r.m.inst m.inst := by
    intro m1 n r hreach hr hk
    rcases round_inv hD hr with ⟨_, rfl⟩ | ⟨f, fs, fin, hf, hd, _, hre⟩
    · exact hk
    · have h1 : p.Same fin.d.vm.inst m.inst := by
        refine disp_visits (J := fun s => p.Same s.inst m.inst) ?_ ?_ hD (d0 := m1.enter f) hk hd
        · intro d i o hv hi hj hs
          exact same_trans (step_same hs (hno d.vm i ⟨m1, f, fs, d, hreach, hf, hv, rfl, hi⟩)) hj
        · intro s ls pc hj; cases p <;> exact hj
      rcases react_inst hre with h3 | ⟨mem1, id, ps, res, w, h4, h5, h3⟩
      · rw [h3]; exact h1
      · rw [h3]
        have h9 := hS _ _ _ _ _ _ _ h5
        refine same_trans ?_ h1
        cases p
        case mem => exact absurd rfl hp
        case size => simp only [Part.Same, h4, Option.map_some, h9.1, h9.2]
        all_goals exact rfl
  have all : p.Same m'.inst m.inst := by
    induction h with
    | refl => exact refl _
    | next h k ih => obtain ⟨n, k⟩ := k; exact one h k ih
    | done h k ih => exact one h k ih
    | ckpt h k ih => exact one h k ih
  refine ⟨all, fun f fs d hf hv => ?_⟩
  have : ∀ {d0 d1}, Visits E (E.P.body f.func) d0 d1 → d0 = m'.enter f → p.Same d1.vm.inst m.inst := by
    intro d0 d1 hv
    induction hv with
    | refl => rintro rfl; exact all
    | step hv hq hi hs ih =>
      rintro rfl
      rw [poll_vm' hq] at hi hs
      exact same_trans (step_same hs (hno _ _ ⟨m', f, fs, _, h, hf, hv, rfl, hi⟩)) (ih rfl)
    | unwind _ hq _ _ _ _ ih =>
      rintro rfl
      have := ih rfl
      rw [← poll_vm' hq] at this
      cases p <;> exact this
  exact this hv rfl

/-- ... in terms of the module: what no operator of its functions writes never changes. -/
theorem unwritten_part_unchanged {S : Wasi} {Q : SProg} {globals : List Cls} {E : Env} (hc : Q.compile globals = some E.P) {D : Dispatcher}
    (hD : IsD E D) {en : Bool} {m m' : Machine S} (hS : WasiKeepsSize S) {p : Part} (hp : p ≠ .mem)
    (hw : ∀ t ls b, SFunc.wasm t ls b ∈ Q.funcs → ∀ o ∈ b.body, p ∉ o.writes) (h : Reach E D en m m') :
    p.Same m'.inst m.inst ∧
    ∀ f fs d, m'.frames = f :: fs → Visits E (E.P.body f.func) (m'.enter f) d → p.Same d.vm.inst m.inst := by
  refine unwritten_unchanged hD hS hp ?_ h
  rintro s i ⟨m1, f, fs, d, _, _, _, rfl, hi⟩
  rcases body_or (P := E.P) f.func with e | ⟨t, code, hf, e⟩
  · rw [e] at hi; cases hi
  · obtain ⟨ls, b, h1, h2⟩ := compile_code hc hf
    rw [e] at hi
    exact compile_writes h2 p (hw t ls b h1) i (List.mem_of_getElem? hi)

/-- C35, immutable globals.  In a module that contains no `global.set` of an immutable global — as WebAssembly's validation demands, and
the interpreter does not check — no run ever changes the value of an immutable global.  Partial: without the condition the claim is
false (`global_set_immutable_violated`). -/
theorem immutable_global_constant_partial {S : Wasi} {Q : SProg} {globals : List Cls} {E : Env} (hc : Q.compile globals = some E.P)
    {D : Dispatcher} (hD : IsD E D) {en : Bool} {m m' : Machine S} (hS : WasiKeepsSize S)
    (hw : ∀ t ls b, SFunc.wasm t ls b ∈ Q.funcs → ∀ g, .globalSet g ∈ b.body → ∃ gl, m.inst.globals[g]? = some gl ∧ gl.mutable_ = true)
    (h : Reach E D en m m') {g : Nat} {gl : Global} (hg : m.inst.globals[g]? = some gl) (hi : gl.mutable_ = false) :
    m'.inst.globals[g]? = some gl ∧
    ∀ f fs d, m'.frames = f :: fs → Visits E (E.P.body f.func) (m'.enter f) d → d.vm.inst.globals[g]? = some gl := by
  have hno : ∀ t ls b, SFunc.wasm t ls b ∈ Q.funcs → ∀ o ∈ b.body, Part.global g ∉ o.writes := by
    intro t ls b hb o ho hm
    cases o <;> simp [WOp.writes] at hm
    subst hm
    obtain ⟨gl', h1, h2⟩ := hw t ls b hb g ho
    rw [hg] at h1; cases h1
    rw [hi] at h2; cases h2
  obtain ⟨h1, h2⟩ := unwritten_part_unchanged hc hD hS (p := .global g) nofun hno h
  exact ⟨h1.trans hg, fun f fs d hf hv => (h2 f fs d hf hv).trans hg⟩

/-- the sample module with a second, immutable global -/
def exConst : Inst := { Ex.inst with globals := [⟨true, ⟨.i32, (0 : BitVec 32)⟩⟩, ⟨false, ⟨.i32, (5 : BitVec 32)⟩⟩] }

theorem exKeepsSize : WasiKeepsSize Ex.wasi := by intro _ _ _ _ _ _ _ h; cases h; exact ⟨rfl, rfl⟩

/-- the hypotheses are met by a program with recursion, a loop, an indirect call and host calls that sets a mutable global: its immutable
global never changes -/
example (n : BitVec 32) {m' : Machine Ex.wasi} (h : Reach Ex.env (loopD Ex.env) true (Ex.machine exConst n) m') :
    m'.inst.globals[1]? = some ⟨false, ⟨.i32, (5 : BitVec 32)⟩⟩ := by
  refine (immutable_global_constant_partial (E := Ex.env) Ex.load .loop exKeepsSize ?_ h rfl rfl).1
  intro t ls b hb g hg
  rcases Ex.mem_funcs hb with ⟨rfl, rfl, rfl⟩ | ⟨rfl, rfl, rfl⟩
  · simp [Ex.fact, WSeq.body, WSeq.flat] at hg
  · simp [Ex.main, WSeq.body, WSeq.flat, ci] at hg
    exact ⟨_, by rw [hg]; rfl, rfl⟩

/-- ... nor does its table -/
example (n : BitVec 32) {m' : Machine Ex.wasi} (h : Reach Ex.env (tcoD Ex.env) true (Ex.machine exConst n) m') :
    m'.inst.tables[0]? = some [.func 1] := by
  refine (unwritten_part_unchanged (E := Ex.env) Ex.load .tco exKeepsSize (p := .table 0) nofun ?_ h).1
  intro t ls b hb o ho
  rcases Ex.mem_funcs hb with ⟨rfl, rfl, rfl⟩ | ⟨rfl, rfl, rfl⟩
  · revert o; decide
  · revert o; decide

end Verif.Props
