import Verif.Lemmas.CompNest
/-
C17 and C31 for the programs the interpreter really runs: those made by its preprocessor.
-/
namespace Verif.Props
open Verif.Model Verif.Lemmas

/-- every function of the program was made by the preprocessor, from some operators in some context -/
def Preprocessed (P : Prog) : Prop :=
  ∀ (f : Nat) (t : FuncType) (code : Code), P.funcs[f]? = some (FuncInst.runtime t code) → ∃ K ops, compileFn K ops = some code

/-- label counts for every function -/
def ShapedP (P : Prog) (L : Nat → Nat → Nat) : Prop := ∀ f, Shaped (P.body f) (L f)

theorem Preprocessed.shaped {P : Prog} (h : Preprocessed P) : ∃ L, ShapedP P L := by
  have : ∀ f, ∃ l, Shaped (P.body f) l := by
    intro f
    unfold Prog.body
    split
    · rename_i t code hf
      obtain ⟨K, ops, hc⟩ := h f t code hf
      exact compile_shaped hc
    · refine ⟨fun _ => 1, ?_, ⟨rfl, ?_⟩, rfl, fun _ => Nat.one_pos, ?_⟩
      · intro i hi; cases hi
      · intro pc i hi; simp at hi
      · intro pc i hi; simp at hi
  exact ⟨fun f => (this f).choose, fun f => (this f).choose_spec⟩

theorem Preprocessed.inside {P : Prog} (h : Preprocessed P) : InsideP P := by
  obtain ⟨L, hL⟩ := h.shaped
  exact fun f => (hL f).inside

/-- **C31** for preprocessed programs: while no checkpoint trigger is raised, running with checkpointing enabled shows
exactly what running with it disabled shows, with either dispatcher. -/
theorem checkpoint_option_invisible_compiled {S : Wasi} {E : Env} (hq : Quiet E) (hp : Preprocessed E.P) (m : Machine S)
    (en en' : Bool) (o : Res (List Val × Inst × S.W)) :
    (Runs E (loopD E) en m o ↔ Runs E (loopD E) en' m o) ∧ (Runs E (tcoD E) en m o ↔ Runs E (tcoD E) en' m o) :=
  checkpoint_option_invisible hq hp.inside m en en' o

/-! ## Whole runs, with any schedule of triggers -/

theorem step_yield {H : FloatHost} {P : Prog} {len : Nat} {s s' : VM} {i : Instr} {y : Yield}
    (h : step H P len s i = .ok (.yield y s')) : y = .ret ∨ (isCall i = true ∧ s'.pc = s.pc + 1 ∧ s'.labels = s.labels) := by
  cases i <;> simp only [step, Res.bind_eq_ok, Res.pure_eq, Res.ok_inj, VM.next, reduceCtorEq, and_false, exists_false,
    Out.yield.injEq] at h
  case memInit =>
    obtain ⟨_, _, h⟩ := h
    split at h
    · cases h
    · simp [Res.bind_eq_ok] at h
  case globalGet => split at h <;> simp [Res.bind_eq_ok] at h
  case refLocalGet =>
    split at h
    · cases h
    · split at h <;> simp [Res.bind_eq_ok] at h
  case tableGet =>
    split at h
    · cases h
    · simp only [Res.bind_eq_ok] at h
      obtain ⟨_, _, h⟩ := h
      split at h
      · cases h
      · simp [Res.bind_eq_ok] at h
  case tableSet =>
    split at h
    · cases h
    · simp only [Res.bind_eq_ok] at h
      obtain ⟨_, _, _, _, h⟩ := h
      split at h <;> cases h
  case tableFill =>
    split at h
    · cases h
    · simp [Res.bind_eq_ok] at h
  case callIndirect =>
    obtain ⟨_, _, h⟩ := h
    right
    repeat' split at h
    all_goals (try cases h)
    all_goals
      simp only [Res.bind_eq_ok, Res.ok_inj, Out.yield.injEq] at h
      obtain ⟨_, _, _, _, _, rfl⟩ := h
      exact ⟨rfl, rfl, rfl⟩
  case call =>
    right
    split at h
    · cases h
    · simp only [Res.bind_eq_ok, Res.ok_inj, Out.yield.injEq] at h
      obtain ⟨_, _, _, _, _, rfl⟩ := h
      exact ⟨rfl, rfl, rfl⟩
  case callWasi =>
    right
    obtain ⟨_, _, _, rfl⟩ := h
    exact ⟨rfl, rfl, rfl⟩
  case ite =>
    obtain ⟨_, _, h⟩ := h
    split at h
    · cases h
    · split at h <;> cases h
  case fin =>
    split at h
    · simp [Res.bind_eq_ok] at h
    · simp only [Res.bind_eq_ok] at h
      obtain ⟨_, _, h⟩ := h
      split at h
      · simp [Res.bind_eq_ok] at h
      · cases h
  case brIf =>
    obtain ⟨_, _, h⟩ := h
    split at h <;> simp [Res.bind_eq_ok] at h
  case ret =>
    first
    | exact Or.inl (by obtain ⟨_, _, rfl, _⟩ := h; rfl)
    | exact Or.inl (by obtain ⟨rfl, _⟩ := h; rfl)

/-- where a frame resumes -/
def _root_.Verif.Model.Frame.at (f : Frame) : Nat := (f.labels.head?.map (·.ip)).getD 0

/-- a frame stands inside its body, with the number of labels the body has open there -/
structure FrameOk (P : Prog) (L : Nat → Nat → Nat) (f : Frame) : Prop where
  pc : f.at ≤ (P.body f.func).length
  labels : f.labels.length = L f.func f.at

/-- what a dispatcher call that ends with a call or a WASI call leaves behind -/
theorem loop_yield_ok {E : Env} {code : List Instr} {l : Nat → Nat} (hs : Shaped code l) : ∀ (n : Nat) (d d' : DState)
    (y : Yield), d.vm.pc ≤ code.length → d.vm.labels.length = l d.vm.pc → loopRun E code n d = some (.ok (.yield y d')) →
    y = .ret ∨ (d'.vm.pc ≤ code.length ∧ d'.vm.labels.length = l d'.vm.pc)
  | 0, _, _, _, _, _, h => by simp [loopRun] at h
  | n + 1, d, d', y, hpc, hl, h => by
    rw [loopRun] at h
    cases hp : poll E d with
    | mk b d1 =>
      rw [hp] at h
      have hvm := poll_vm' hp
      rw [← hvm] at hl hpc
      cases b with
      | true => cases h
      | false =>
        simp only at h
        cases hc : code[d1.vm.pc]? with
        | none =>
          rw [hc] at h
          simp only at h
          have hlen : d1.vm.pc = code.length := by
            have := List.getElem?_eq_none_iff.mp hc
            omega
          rw [hlen, hs.nested.stop] at hl
          match hd : d1.vm.labels, hl with
          | [], _ => rw [hd] at h; cases h
          | [_], _ => rw [hd] at h; cases h
          | _ :: _ :: _, hl => simp at hl
        | some i =>
          rw [hc] at h
          simp only at h
          have hlt := (List.getElem?_eq_some_iff.mp hc).1
          cases hst : step E.H E.P code.length d1.vm i with
          | ok o =>
            rw [hst] at h
            cases o with
            | cont vm =>
              simp only at h
              refine loop_yield_ok hs n _ d' y ?_ ?_ h
              · exact step_pc hlt (hs.inside i (List.mem_of_getElem? hc)) hst
              · exact hs.nested.next _ _ hc _ hl _ (step_flow hst)
            | yield y' vm =>
              simp only [Option.some.injEq, Res.ok_inj, Final.yield.injEq] at h
              obtain ⟨rfl, rfl⟩ := h
              rcases step_yield hst with h | ⟨h1, h2, h3⟩
              · exact .inl h
              · refine .inr ⟨?_, ?_⟩
                · simp only [h2]; omega
                · simp only [h2, h3, hl, hs.call _ _ hc h1]
          | trap e => rw [hst] at h; cases h
          | panic => rw [hst] at h; cases h
          | ub => rw [hst] at h; cases h

/-- a checkpoint is taken at a proper place -/
theorem loop_ckpt_ok {E : Env} {code : List Instr} {l : Nat → Nat} (hs : Shaped code l) : ∀ (n : Nat) (d d' : DState),
    d.vm.pc ≤ code.length → d.vm.labels.length = l d.vm.pc → loopRun E code n d = some (.ok (.ckpt d')) →
    d'.vm.pc ≤ code.length ∧ d'.vm.labels.length = l d'.vm.pc
  | 0, _, _, _, _, h => by simp [loopRun] at h
  | n + 1, d, d', hpc, hl, h => by
    rw [loopRun] at h
    cases hp : poll E d with
    | mk b d1 =>
      rw [hp] at h
      have hvm := poll_vm' hp
      rw [← hvm] at hl hpc
      cases b with
      | true =>
        simp only [Option.some.injEq, Res.ok_inj, Final.ckpt.injEq] at h
        subst h; exact ⟨hpc, hl⟩
      | false =>
        simp only at h
        cases hc : code[d1.vm.pc]? with
        | none =>
          rw [hc] at h
          simp only at h
          have hlen : d1.vm.pc = code.length := by
            have := List.getElem?_eq_none_iff.mp hc
            omega
          rw [hlen, hs.nested.stop] at hl
          match hd : d1.vm.labels, hl with
          | [], _ => rw [hd] at h; cases h
          | [_], _ => rw [hd] at h; cases h
          | _ :: _ :: _, hl => simp at hl
        | some i =>
          rw [hc] at h
          simp only at h
          have hlt := (List.getElem?_eq_some_iff.mp hc).1
          cases hst : step E.H E.P code.length d1.vm i with
          | ok o =>
            rw [hst] at h
            cases o with
            | cont vm =>
              simp only at h
              refine loop_ckpt_ok hs n _ d' ?_ ?_ h
              · exact step_pc hlt (hs.inside i (List.mem_of_getElem? hc)) hst
              · exact hs.nested.next _ _ hc _ hl _ (step_flow hst)
            | yield y' vm => cases h
          | trap e => rw [hst] at h; cases h
          | panic => rw [hst] at h; cases h
          | ub => rw [hst] at h; cases h

theorem FrameOk.leave {P : Prog} {L : Nat → Nat → Nat} (hL : ShapedP P L) {f : Frame} {d : DState}
    (h1 : d.vm.pc ≤ (P.body f.func).length) (h2 : d.vm.labels.length = L f.func d.vm.pc) (rs : List Reg) :
    FrameOk P L { f with
      locals := d.vm.locals
      labels := match d.vm.labels with | [] => [] | l :: ls => { l with ip := d.vm.pc } :: ls
      resultRegs := rs
      retRegs := d.vm.retRegs
      memPtr := d.vm.memPtr } := by
  match hd : d.vm.labels with
  | [] => rw [hd] at h2; have := (hL f.func).pos d.vm.pc; simp at h2; omega
  | l :: ls =>
    rw [hd] at h2
    exact ⟨h1, h2⟩

/-- every frame stands properly in its body -/
def FramesOk {S : Wasi} (P : Prog) (L : Nat → Nat → Nat) (m : Machine S) : Prop := ∀ f ∈ m.frames, FrameOk P L f

theorem react_ckpt {S : Wasi} {E : Env} {en : Bool} {m m' : Machine S} {f : Frame} {fin : Final}
    (h : m.react E en f fin = .ok (.ckpt m')) : ∃ d, fin = .ckpt d ∧ m' = m.leave f d := by
  have ret : ∀ m1 : Machine S, m1.doReturn ≠ .ok (.ckpt m') := by
    intro m1 h
    unfold Machine.doReturn at h
    split at h
    · cases h
    · split at h
      · simp [Res.bind_eq_ok] at h
      · simp [Res.bind_eq_ok] at h
  cases fin with
  | ckpt d => simp only [Machine.react, Res.ok_inj, Round.ckpt.injEq] at h; exact ⟨d, rfl, h.symm⟩
  | halt d => exact absurd (show (m.leave f d).doReturn = _ from h) (ret _)
  | yield y d =>
    cases y with
    | ret => exact absurd (show (m.leave f d).doReturn = _ from h) (ret _)
    | invoke g ps rs =>
      simp only [Machine.react, Machine.doInvoke] at h
      split at h
      · simp [Res.bind_eq_ok] at h
      · cases h
      · cases h
    | wasi id ps reg =>
      simp only [Machine.react, Machine.doWasi] at h
      split at h
      · simp only [Res.bind_eq_ok] at h
        obtain ⟨⟨o, w⟩, hc, h⟩ := h
        cases o with
        | none => cases h
        | some res =>
          simp only at h
          split at h
          · simp [Res.bind_eq_ok] at h
          · simp at h
      · cases h

theorem round_ok {S : Wasi} {E : Env} {L : Nat → Nat → Nat} (hL : ShapedP E.P L) {en : Bool} {n : Nat} {m m' : Machine S}
    (hm : FramesOk E.P L m) (h : m.round E (loopD E) en n = some (.ok (.running m'))) : FramesOk E.P L m' := by
  rcases round_inv .loop h with ⟨_, h⟩ | ⟨f, fs, fin, hf, hD, _, hre⟩
  · cases h
  have hfr := hm f (by rw [hf]; exact List.mem_cons_self)
  have hrest : ∀ g ∈ fs, FrameOk E.P L g := fun g hg => hm g (by rw [hf]; exact List.mem_cons_of_mem _ hg)
  have hlab : (m.leave f fin.d).frames = _ := leave_frames hf
  have ret : ∀ d, (m.leave f d).doReturn = .ok (.running m') → FramesOk E.P L m' := by
    intro d h
    unfold Machine.doReturn at h
    rw [leave_frames hf] at h
    simp only at h
    match fs, hrest with
    | [], _ =>
      simp only [Res.bind_eq_ok, Res.pure_eq, Res.ok_inj, reduceCtorEq, and_false, exists_false] at h
    | c :: cs, hrest =>
      simp only [Res.bind_eq_ok, Res.pure_eq, Res.ok_inj, Round.running.injEq] at h
      obtain ⟨_, _, _, _, rfl⟩ := h
      intro g hg
      rcases List.mem_cons.1 hg with rfl | hg
      · exact ⟨(hrest c List.mem_cons_self).pc, (hrest c List.mem_cons_self).labels⟩
      · exact hrest g (List.mem_cons_of_mem _ hg)
  have key : ∀ y d, fin = .yield y d → y = .ret ∨ (d.vm.pc ≤ (E.P.body f.func).length ∧ d.vm.labels.length = L f.func d.vm.pc) := by
    rintro y d rfl
    exact loop_yield_ok (hL f.func) n (m.enter f) d y hfr.pc hfr.labels hD
  cases fin with
  | ckpt d => simp [Machine.react] at hre
  | halt d => exact ret d hre
  | yield y d =>
    have hk := key y d rfl
    cases y with
    | ret => exact ret d hre
    | invoke g ps rs =>
      rcases hk with hk | ⟨h1, h2⟩
      · cases hk
      simp only [Machine.react, Machine.doInvoke] at hre
      split at hre
      · rename_i t code hg
        simp only [Res.bind_eq_ok, Res.pure_eq, Res.ok_inj, Round.running.injEq] at hre
        obtain ⟨_, _, rfl⟩ := hre
        rw [leave_frames hf]
        intro x hx
        rcases List.mem_cons.1 hx with rfl | hx
        · refine ⟨Nat.zero_le _, ?_⟩
          exact ((hL g).zero).symm
        · rcases List.mem_cons.1 hx with rfl | hx
          · exact FrameOk.leave hL h1 h2 rs
          · exact hrest x hx
      · cases hre
      · cases hre
    | wasi id ps r =>
      rcases hk with hk | ⟨h1, h2⟩
      · cases hk
      have hfin : ∀ x ∈ (m.leave f d).frames, FrameOk E.P L x := by
        rw [leave_frames hf]
        intro x hx
        rcases List.mem_cons.1 hx with rfl | hx
        · exact FrameOk.leave hL h1 h2 f.resultRegs
        · exact hrest x hx
      simp only [Machine.react, Machine.doWasi] at hre
      split at hre
      · simp only [Res.bind_eq_ok] at hre
        obtain ⟨⟨o, w⟩, _, hre⟩ := hre
        cases o with
        | none => cases hre
        | some res =>
          simp only at hre
          split at hre
          · simp only [Res.bind_eq_ok, Res.pure_eq, Res.ok_inj, Round.running.injEq] at hre
            obtain ⟨_, _, rfl⟩ := hre
            exact hfin
          · simp only [Res.pure_eq, Res.ok_inj, Round.running.injEq] at hre
            subst hre; exact hfin
      · cases hre

theorem ckpt_ok {S : Wasi} {E : Env} {L : Nat → Nat → Nat} (hL : ShapedP E.P L) {en : Bool} {n : Nat} {m m' : Machine S}
    (hm : FramesOk E.P L m) (h : m.round E (loopD E) en n = some (.ok (.ckpt m'))) : FramesOk E.P L m' := by
  rcases round_inv .loop h with ⟨_, h⟩ | ⟨f, fs, fin, hf, hD, _, hre⟩
  · cases h
  have hfr := hm f (by rw [hf]; exact List.mem_cons_self)
  have hrest : ∀ g ∈ fs, FrameOk E.P L g := fun g hg => hm g (by rw [hf]; exact List.mem_cons_of_mem _ hg)
  rcases react_ckpt hre with ⟨d, rfl, rfl⟩
  obtain ⟨h1, h2⟩ := loop_ckpt_ok (hL f.func) n (m.enter f) d hfr.pc hfr.labels hD
  rw [FramesOk, leave_frames hf]
  intro x hx
  rcases List.mem_cons.1 hx with rfl | hx
  · exact FrameOk.leave hL h1 h2 f.resultRegs
  · exact hrest x hx

theorem round_agree {S : Wasi} {E : Env} {L : Nat → Nat → Nat} (hL : ShapedP E.P L) {en : Bool} {m : Machine S}
    (hm : FramesOk E.P L m) (n : Nat) (r : Res (Round S)) :
    (m.round E (loopD E) en n = some r → m.round E (tcoD E) en n = some r) ∧
    (m.round E (tcoD E) en n = some r → m.round E (loopD E) en (n + 1) = some r) := by
  unfold Machine.round
  match hf : m.frames with
  | [] => exact ⟨id, id⟩
  | f :: fs =>
    simp only
    have hfr := hm f (by rw [hf]; exact List.mem_cons_self)
    have hfe : FlatEnd E (E.P.body f.func) (m.enter f) := flatEnd_of_nested (hL f.func).nested hfr.labels
    have hag := dispatchers_agree E (E.P.body f.func) (m.enter f) (hL f.func).inside hfr.pc hfe
    constructor
    · cases n with
      | zero => intro h; simp [loopD, loopRun] at h
      | succ n =>
        intro h
        cases hx : loopD E (n + 1) (E.P.body f.func) (m.enter f) with
        | none => rw [hx] at h; cases h
        | some x =>
          rw [hx] at h
          have : tcoD E (n + 1) (E.P.body f.func) (m.enter f) = some x := (hag n x).1 hx
          rw [this]; exact h
    · intro h
      cases hx : tcoD E n (E.P.body f.func) (m.enter f) with
      | none => rw [hx] at h; cases h
      | some x =>
        rw [hx] at h
        have : loopD E (n + 1) (E.P.body f.func) (m.enter f) = some x := (hag n x).2 hx
        rw [this]; exact h

theorem runLoop_agree {S : Wasi} {E : Env} {L : Nat → Nat → Nat} (hL : ShapedP E.P L) {en : Bool} (n : Nat) (r : Res (End S)) :
    ∀ (k : Nat) (m : Machine S), FramesOk E.P L m →
    (m.runLoop E (loopD E) en n k = some r → m.runLoop E (tcoD E) en n k = some r) ∧
    (m.runLoop E (tcoD E) en n k = some r → m.runLoop E (loopD E) en (n + 1) k = some r)
  | 0, _, _ => ⟨fun h => by simp [Machine.runLoop] at h, fun h => by simp [Machine.runLoop] at h⟩
  | k + 1, m, hm => by
    constructor
    · intro h
      rw [Machine.runLoop] at h ⊢
      cases hx : m.round E (loopD E) en n with
      | none => rw [hx] at h; cases h
      | some x =>
        rw [hx] at h
        rw [(round_agree hL hm n x).1 hx]
        match x, hx, h with
        | .ok (.running m'), hx, h => exact (runLoop_agree hL n r k m' (round_ok hL hm hx)).1 h
        | .ok (.done _ _), _, h => exact h
        | .ok (.ckpt _), _, h => exact h
        | .trap _, _, h => exact h
        | .panic, _, h => exact h
        | .ub, _, h => exact h
    · intro h
      rw [Machine.runLoop] at h ⊢
      cases hx : m.round E (tcoD E) en n with
      | none => rw [hx] at h; cases h
      | some x =>
        rw [hx] at h
        have hx' := (round_agree hL hm n x).2 hx
        rw [hx']
        match x, hx', h with
        | .ok (.running m'), hx, h => exact (runLoop_agree hL n r k m' (round_ok hL hm hx)).2 h
        | .ok (.done _ _), _, h => exact h
        | .ok (.ckpt _), _, h => exact h
        | .trap _, _, h => exact h
        | .panic, _, h => exact h
        | .ub, _, h => exact h

theorem FramesOk.setFirst {P : Prog} {L : Nat → Nat → Nat} (en : Bool) : ∀ fs : List Frame, (∀ f ∈ fs, FrameOk P L f) →
    ∀ f ∈ setFirstEnable en fs, FrameOk P L f
  | [], h => h
  | [f], h => by
    intro g hg
    simp only [setFirstEnable, List.mem_singleton] at hg
    subst hg
    exact ⟨(h f List.mem_cons_self).pc, (h f List.mem_cons_self).labels⟩
  | f :: g :: fs, h => by
    intro x hx
    rw [setFirstEnable] at hx
    rcases List.mem_cons.1 hx with rfl | hx
    · exact h _ List.mem_cons_self
    · exact FramesOk.setFirst en (g :: fs) (fun y hy => h y (List.mem_cons_of_mem _ hy)) x hx
    · simp

/-- **C17** for the programs the interpreter runs, from machine states that stand properly in their bodies (the state of
every run after any number of rounds): for every schedule of the checkpoint trigger, the two dispatchers end the same
way — same values, same failure, same checkpoint, the same final machine. -/
theorem dispatchers_agree_from {S : Wasi} {E : Env} {L : Nat → Nat → Nat} (hL : ShapedP E.P L) (m : Machine S)
    (hm : FramesOk E.P L m) (en : Bool) (r : Res (End S)) :
    (∃ n, m.run E (loopD E) en n = some r) ↔ (∃ n, m.run E (tcoD E) en n = some r) := by
  have hm' : FramesOk E.P L { m with frames := setFirstEnable en m.frames } := FramesOk.setFirst en m.frames hm
  constructor
  · rintro ⟨n, h⟩
    exact ⟨n, (runLoop_agree hL n r n _ hm').1 h⟩
  · rintro ⟨n, h⟩
    exact ⟨n + 1, runLoop_mono_k n _ r ((runLoop_agree hL n r n _ hm').2 h)⟩

/-- states a program can be in: a call has just been started, some rounds have been run, or a checkpoint was taken and
the frames restored from it (with any registers, instance, outside world and settings) -/
inductive Met {S : Wasi} (E : Env) : Machine S → Prop
  | start {inst : Inst} {w : S.W} {f : Nat} {params : List Val} {m : Machine S}
      (h : Machine.new E.P inst w f params = .ok m) : Met E m
  | round {m m' : Machine S} {en : Bool} {n : Nat} (h : Met E m) (k : m.round E (loopD E) en n = some (.ok (.running m'))) : Met E m'
  | ckpt {m m' : Machine S} {en : Bool} {n : Nat} (h : Met E m) (k : m.round E (loopD E) en n = some (.ok (.ckpt m'))) : Met E m'
  | restored {m m' : Machine S} (h : Met E m) (k : m'.frames.map (fun f => (f.func, f.labels)) = m.frames.map (fun f => (f.func, f.labels))) :
      Met E m'

theorem Met.ok {S : Wasi} {E : Env} {L : Nat → Nat → Nat} (hL : ShapedP E.P L) {m : Machine S} (h : Met E m) :
    FramesOk E.P L m := by
  induction h with
  | @start inst w f params m hm =>
    unfold Machine.new at hm
    split at hm
    · split at hm
      · cases hm
      · simp only [Res.ok_inj] at hm
        subst hm
        intro g hg
        simp only [List.mem_singleton] at hg
        subst hg
        exact ⟨Nat.zero_le _, ((hL f).zero).symm⟩
    · cases hm
  | round _ k ih => exact round_ok hL ih k
  | ckpt _ k ih => exact ckpt_ok hL ih k
  | restored _ k ih =>
    intro g hg
    have hg' := List.mem_map_of_mem (f := fun f : Frame => (f.func, f.labels)) hg
    rw [k] at hg'
    obtain ⟨g', hg', he⟩ := List.mem_map.1 hg'
    simp only [Prod.mk.injEq] at he
    have h1 := (ih g' hg').pc
    have h2 := (ih g' hg').labels
    simp only [Frame.at, he.1, he.2] at h1 h2
    exact ⟨h1, h2⟩

/-- **C17**: whatever operators the bodies of a program consist of — the preprocessor having accepted them — whatever
the parameters, and whenever the checkpoint trigger is raised: a program, freshly started, in the middle of its run or
restored from a checkpoint, ends with the same result and in the same state with the loop dispatcher and with the
tail-call dispatcher. -/
theorem dispatchers_agree_compiled {S : Wasi} {E : Env} (hp : Preprocessed E.P) {m : Machine S} (hm : Met E m) (en : Bool)
    (r : Res (End S)) :
    (∃ n, m.run E (loopD E) en n = some r) ↔ (∃ n, m.run E (tcoD E) en n = some r) := by
  obtain ⟨L, hL⟩ := hp.shaped
  exact dispatchers_agree_from hL m (hm.ok hL) en r

end Verif.Props
