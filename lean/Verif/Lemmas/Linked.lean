import Verif.Model.Linked
import Verif.Lemmas.Exec
/-
The linked machine: when it is the machine of one instance.
-/
namespace Verif.Lemmas
open Verif.Model

/-- append to an outcome -/
def withR {α β : Type} (b : β) (r : Res α) : Res (α × β) := r >>= fun a => .ok (a, b)

theorem lstep_own {H : FloatHost} {P : Prog} {len : Nat} {s : VM} {x : Side} {i : Instr} (h : x.foreign = none ∨ i.raw = false) :
    lstep H P len s x i = withR { x with foreign := if i.grows then none else x.foreign } (step H P len s i) := by
  unfold lstep withR
  rcases h with h | h
  · rw [h]; rfl
  · rw [h]; cases x.foreign <;> rfl

/-- no load or store -/
def NoRaw (code : List Instr) : Prop := ∀ i ∈ code, i.raw = false

/-- this pointer does not matter for this code -/
def Harmless (code : List Instr) (g : Option Nat) : Prop := g = none ∨ NoRaw code

theorem Harmless.at {code : List Instr} {g : Option Nat} (h : Harmless code g) {n : Nat} {i : Instr} (hi : code[n]? = some i) :
    g = none ∨ i.raw = false := h.imp id fun h => h i (List.mem_of_getElem? hi)

theorem Harmless.grow {code : List Instr} {g : Option Nat} (h : Harmless code g) (b : Bool) :
    Harmless code (if b then none else g) := by
  cases b
  · exact h
  · exact .inl rfl

theorem lloop_own {E : Env} {code : List Instr} : ∀ (n : Nat) (d : DState) (x : Side), Harmless code x.foreign →
    ∃ g, Harmless code g ∧ lloopRun E code n d x = (loopRun E code n d).map (withR ⟨g, x.others⟩)
  | 0, _, x, h => ⟨x.foreign, h, rfl⟩
  | n + 1, d, x, h => by
    rw [lloopRun, loopRun]
    generalize poll E d = p
    obtain ⟨b, d⟩ := p
    cases b with
    | true => exact ⟨x.foreign, h, rfl⟩
    | false =>
      simp only
      cases hi : code[d.vm.pc]? with
      | none =>
        match hl : d.vm.labels with
        | [] => exact ⟨x.foreign, h, rfl⟩
        | [_] => exact ⟨x.foreign, h, rfl⟩
        | l :: l2 :: rest =>
          simp only
          split
          · exact ⟨x.foreign, h, rfl⟩
          · exact lloop_own n _ x h
      | some i =>
        simp only [lstep_own (h.at hi), withR]
        cases hs : step E.H E.P code.length d.vm i with
        | ok o =>
          cases o with
          | cont vm => exact lloop_own n { d with vm := vm } _ (h.grow i.grows)
          | yield y vm => exact ⟨_, h.grow i.grows, rfl⟩
        | trap e => exact ⟨x.foreign, h, rfl⟩
        | panic => exact ⟨x.foreign, h, rfl⟩
        | ub => exact ⟨x.foreign, h, rfl⟩

theorem lchain_own {E : Env} {code : List Instr} : ∀ (n : Nat) (d : DState) (x : Side), Harmless code x.foreign →
    ∃ g, Harmless code g ∧ ltcoChain E code n d x = (tcoChain E code n d).map (withR ⟨g, x.others⟩)
  | 0, _, x, h => ⟨x.foreign, h, rfl⟩
  | n + 1, d, x, h => by
    rw [ltcoChain, tcoChain]
    cases hi : code[d.vm.pc]? with
    | none =>
      simp only
      split
      · exact ⟨x.foreign, h, rfl⟩
      · exact ⟨x.foreign, h, rfl⟩
    | some i =>
      simp only [lstep_own (h.at hi), withR]
      cases hs : step E.H E.P code.length d.vm i with
      | ok o =>
        cases o with
        | cont vm =>
          simp only [Res.bind_ok]
          generalize poll E { d with vm := vm } = p
          obtain ⟨b, d⟩ := p
          cases b with
          | true => exact ⟨_, h.grow i.grows, rfl⟩
          | false => exact lchain_own n d _ (h.grow i.grows)
        | yield y vm => exact ⟨_, h.grow i.grows, rfl⟩
      | trap e => exact ⟨x.foreign, h, rfl⟩
      | panic => exact ⟨x.foreign, h, rfl⟩
      | ub => exact ⟨x.foreign, h, rfl⟩

theorem ltco_own {E : Env} {code : List Instr} (n : Nat) (d : DState) (x : Side) (h : Harmless code x.foreign) :
    ∃ g, Harmless code g ∧ ltcoRun E code n d x = (tcoRun E code n d).map (withR ⟨g, x.others⟩) := by
  unfold ltcoRun tcoRun
  generalize poll E d = p
  obtain ⟨b, d⟩ := p
  cases b with
  | true => exact ⟨x.foreign, h, rfl⟩
  | false =>
    simp only
    split
    · exact ⟨x.foreign, h, rfl⟩
    · exact lchain_own n d x h

/-- a dispatcher and the same dispatcher of the linked machine -/
inductive Twin (E : Env) : Dispatcher → LDispatcher → Prop
  | loop : Twin E (loopD E) (lloopD E)
  | tco : Twin E (tcoD E) (ltcoD E)

theorem Twin.own {E : Env} {D : Dispatcher} {L : LDispatcher} (h : Twin E D L) {code : List Instr} (n : Nat) (d : DState) (x : Side)
    (hh : Harmless code x.foreign) : ∃ g, Harmless code g ∧ L n code d x = (D n code d).map (withR ⟨g, x.others⟩) := by
  cases h with
  | loop => exact lloop_own n d x hh
  | tco => exact ltco_own n d x hh

/-- one pointer per frame, none of which matters -/
inductive Lined (P : Prog) : List Frame → List (Option Nat) → Prop
  | nil : Lined P [] []
  | cons {f : Frame} {g : Option Nat} {fs : List Frame} {gs : List (Option Nat)} (h : Harmless (P.body f.func) g) (t : Lined P fs gs) :
      Lined P (f :: fs) (g :: gs)

/-- the linked outcome of a round -/
def linkR {S : Wasi} (fs : List (Option Nat)) (o : List (Option Mem)) (r : Res (Round S)) : Res (LRound S) :=
  r >>= fun R => .ok (R.linked fs o)

/-- what is left is lined up -/
def RLined {S : Wasi} (P : Prog) (fs : List (Option Nat)) : Res (Round S) → Prop
  | .ok (.running m) => Lined P m.frames fs
  | .ok (.done _ m) => Lined P m.frames fs
  | .ok (.ckpt m) => Lined P m.frames fs
  | _ => True

/-- functions of other instances do not load or store -/
def Remote (P : Prog) (home : Homes) : Prop := ∀ f, Harmless (P.body f) (home f)

theorem leave_lined {S : Wasi} {P : Prog} {l : LMachine S} {f : Frame} {fs : List Frame} {d : DState} {x : Side}
    (hf : l.m.frames = f :: fs) (h : Lined P l.m.frames l.foreign) (hx : Harmless (P.body f.func) x.foreign) :
    Lined P (l.leave f d x).m.frames (l.leave f d x).foreign := by
  rw [hf] at h
  cases hl : l.foreign with
  | nil => rw [hl] at h; cases h
  | cons g gs =>
    rw [hl] at h
    cases h with
    | cons h1 h2 =>
      simp only [LMachine.leave, Machine.leave, hf, hl, List.tail_cons]
      exact .cons hx h2

theorem return_own {S : Wasi} {P : Prog} {home : Homes} (hr : Remote P home) (l : LMachine S) (h : Lined P l.m.frames l.foreign) :
    ∃ fs, l.doReturn home = linkR fs l.others l.m.doReturn ∧ RLined P fs l.m.doReturn := by
  refine ⟨_, rfl, ?_⟩
  unfold Machine.doReturn
  match hf : l.m.frames, hg : l.foreign with
  | [], _ => trivial
  | [f], _ =>
    simp only
    cases l.m.rf.getVals (f.retRegs.take f.n) <;> first | trivial | exact Lined.nil
  | f :: c :: rest, gs =>
    simp only
    rw [hf, hg] at h
    cases h with
    | cons _ h =>
      cases h with
      | cons _ h =>
        cases l.m.rf.getVals f.retRegs with
        | ok vs =>
          simp only [Res.bind_ok]
          cases l.m.rf.restoreOffsets.setVals c.resultRegs vs with
          | ok rf => exact Lined.cons (hr c.func) h
          | _ => trivial
        | _ => trivial

theorem invoke_own {S : Wasi} {P : Prog} {home : Homes} (hr : Remote P home) (en : Bool) (l : LMachine S)
    (h : Lined P l.m.frames l.foreign) (g : Nat) (ps : List Val) (rs : List Reg) :
    ∃ fs, l.doInvoke P home en g ps rs = linkR fs l.others (l.m.doInvoke P en g ps rs) ∧ RLined P fs (l.m.doInvoke P en g ps rs) := by
  refine ⟨_, rfl, ?_⟩
  unfold Machine.doInvoke
  split
  · rename_i t code hg
    cases callLocals code.locals with
    | ok ls =>
      refine Lined.cons (hr g) ?_
      match hf : l.m.frames, hl : l.foreign with
      | [], gs => rw [hf, hl] at h; cases h; exact .nil
      | c :: cs, [] => rw [hf, hl] at h; cases h
      | c :: cs, x :: xs =>
        rw [hf, hl] at h
        cases h with
        | cons h1 h2 => exact .cons h1 h2
    | _ => trivial
  · trivial
  · trivial

theorem wasi_own {S : Wasi} {P : Prog} (b : Bool) (l : LMachine S) (h : Lined P l.m.frames l.foreign) (id : Nat) (ps : List Val)
    (r : Option Reg) : ∃ fs, l.doWasi b id ps r = linkR fs l.others (l.m.doWasi b id ps r) ∧ RLined P fs (l.m.doWasi b id ps r) := by
  refine ⟨_, rfl, ?_⟩
  unfold Machine.doWasi
  split
  · rename_i mem _
    cases S.call id ps mem l.m.world with
    | ok x =>
      obtain ⟨res, mem', w'⟩ := x
      simp only [Res.bind_ok]
      cases res with
      | none => trivial
      | some res =>
        simp only
        split
        · rename_i reg v
          cases l.m.rf.setVal reg v with
          | ok rf => exact h
          | _ => trivial
        · exact h
    | _ => trivial
  · trivial

theorem react_own {S : Wasi} {E : Env} {home : Homes} (hr : Remote E.P home) (en : Bool) (l : LMachine S) {f : Frame} {fs : List Frame}
    (hf : l.m.frames = f :: fs) (h : Lined E.P l.m.frames l.foreign) {g : Option Nat} (hg : Harmless (E.P.body f.func) g) (fin : Final) :
    ∃ gs, l.react E home en f (fin, ⟨g, l.others⟩) = linkR gs l.others (l.m.react E en f fin) ∧ RLined E.P gs (l.m.react E en f fin) := by
  have hl : ∀ d, Lined E.P (l.leave f d ⟨g, l.others⟩).m.frames (l.leave f d ⟨g, l.others⟩).foreign := fun d => leave_lined hf h hg
  cases fin with
  | ckpt d => exact ⟨_, rfl, hl d⟩
  | halt d => exact return_own hr _ (hl d)
  | yield y d =>
    cases y with
    | ret => exact return_own hr _ (hl d)
    | invoke k ps rs => exact invoke_own hr en _ (hl d) k ps rs
    | wasi id ps r => exact wasi_own _ _ (hl d) id ps r

theorem round_own {S : Wasi} {E : Env} {home : Homes} (hr : Remote E.P home) {D : Dispatcher} {L : LDispatcher} (hD : Twin E D L)
    (en : Bool) (n : Nat) (l : LMachine S) (h : Lined E.P l.m.frames l.foreign) :
    ∃ fs, l.round E home L en n = (l.m.round E D en n).map (linkR fs l.others) ∧
      ∀ r, l.m.round E D en n = some r → RLined E.P fs r := by
  unfold LMachine.round Machine.round
  match hf : l.m.frames with
  | [] =>
    rw [hf] at h
    refine ⟨l.foreign, rfl, ?_⟩
    rintro r hr
    cases hr
    simp only [RLined, hf]; exact h
  | f :: fs =>
    simp only
    have hside : Harmless (E.P.body f.func) l.side.foreign := by
      rw [hf] at h
      cases hl : l.foreign with
      | nil => rw [hl] at h; cases h
      | cons g gs =>
        rw [hl] at h
        cases h with
        | cons h1 _ => simp only [LMachine.side, hl]; exact h1
    obtain ⟨g, hg, he⟩ := hD.own n (l.m.enter f) l.side hside
    rw [he]
    cases D n (E.P.body f.func) (l.m.enter f) with
    | none => exact ⟨[], rfl, by rintro _ ⟨⟩⟩
    | some r =>
      cases r with
      | ok fin =>
        obtain ⟨gs, h1, h2⟩ := react_own hr en l hf h hg fin
        refine ⟨gs, ?_, ?_⟩
        · simp only [Option.map_some, withR, Res.bind_ok]
          rw [← h1]; rfl
        · rintro _ ⟨⟩; exact h2
      | trap e => exact ⟨[], rfl, by rintro _ ⟨⟩; trivial⟩
      | panic => exact ⟨[], rfl, by rintro _ ⟨⟩; trivial⟩
      | ub => exact ⟨[], rfl, by rintro _ ⟨⟩; trivial⟩

theorem runLoop_own {S : Wasi} {E : Env} {home : Homes} (hr : Remote E.P home) {D : Dispatcher} {L : LDispatcher} (hD : Twin E D L)
    (en : Bool) (n : Nat) : ∀ (k : Nat) (l : LMachine S), Lined E.P l.m.frames l.foreign →
      (l.runLoop E home L en n k).map (fun r => r >>= fun e => .ok (e.forget, e.others)) =
        (l.m.runLoop E D en n k).map (withR l.others)
  | 0, _, _ => rfl
  | k + 1, l, h => by
    obtain ⟨fs, h1, h2⟩ := round_own hr hD en n l h
    simp only [LMachine.runLoop, Machine.runLoop, h1]
    cases hm : l.m.round E D en n with
    | none => rfl
    | some r =>
      have hrl := h2 r hm
      cases r with
      | ok R =>
        cases R with
        | running m' => exact runLoop_own hr hD en n k ⟨m', fs, l.others⟩ hrl
        | done vs m' => rfl
        | ckpt m' => rfl
      | trap e => rfl
      | panic => rfl
      | ub => rfl

theorem setFirst_lined {P : Prog} (en : Bool) : ∀ {fs : List Frame} {gs : List (Option Nat)}, Lined P fs gs → Lined P (setFirstEnable en fs) gs
  | [], _, h => h
  | [f], _, h => by cases h with | cons h1 h2 => exact .cons h1 h2
  | f :: f' :: fs, _, h => by cases h with | cons h1 h2 => exact .cons h1 (setFirst_lined en h2)

theorem run_own {S : Wasi} {E : Env} {home : Homes} (hr : Remote E.P home) {D : Dispatcher} {L : LDispatcher} (hD : Twin E D L)
    (en : Bool) (n : Nat) (l : LMachine S) (h : Lined E.P l.m.frames l.foreign) :
    (l.run E home L en n).map (fun r => r >>= fun e => .ok (e.forget, e.others)) = (l.m.run E D en n).map (withR l.others) :=
  runLoop_own hr hD en n n ⟨{ l.m with frames := setFirstEnable en l.m.frames }, l.foreign, l.others⟩ (setFirst_lined en h)

end Verif.Lemmas
