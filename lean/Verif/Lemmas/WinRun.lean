import Verif.Lemmas.WinStep
import Verif.Lemmas.DeadRun
import Verif.Props.Machine
import Verif.Props.Compiled
/-
Whole runs inside their register windows.
-/
namespace Verif.Lemmas
open Verif.Model Verif.Spec Verif.Props

/-- number of locals of a function -/
def nlocals (t : FuncType) (code : Code) : Nat := t.params.length + (declLocals code.locals).length

/-- the code of a function stays in its window -/
structure FnWin (P : Prog) (t : FuncType) (code : Code) (W : Cls → Nat) : Prop where
  alloc : code.alloc = some W
  win : ∀ (n : Nat) (i : Instr), code.body[n]? = some i → InWindow W (nlocals t code) i ∨ Gap code.body n
  args : ∀ (n : Nat) (i : Instr), code.body[n]? = some i → ArgsP P i

/-- every function stays in its window -/
def WinP (P : Prog) : Prop := ∀ (g : Nat) (t : FuncType) (code : Code), P.funcs[g]? = some (.runtime t code) → ∃ W, FnWin P t code W

/-! ## compiled modules -/

theorem declLocals_length (params : List Cls) (ls : List (Nat × Cls)) :
    (localTypes params ls).length = params.length + (declLocals ls).length := by
  simp only [localTypes, declLocals, List.length_append, List.length_flatMap, List.length_replicate]

theorem compileFn_parts {K : FnCtx} {ops : List WOp} {code : Code} (h : compileFn K ops = some code) :
    code.locals = K.locals ∧ ∃ W, code.alloc = some W := by
  unfold compileFn at h
  split at h
  · cases h
  · split at h
    · cases h
    · cases h; exact ⟨rfl, _, rfl⟩

theorem hosts_of {Q : SProg} {globals : List Cls} (hv : Validated Q globals) : Hosts (Q.info globals) := by
  refine ⟨fun f id t h => ?_⟩
  simp only [SProg.info, List.getElem?_map, Option.map_eq_some_iff] at h
  obtain ⟨F, hF, he⟩ := h
  cases F with
  | wasm t' ls b => simp [SFunc.info] at he
  | wasi t' id' =>
    simp only [SFunc.info, Prod.mk.injEq, Option.some.injEq] at he
    obtain ⟨rfl, rfl⟩ := he
    exact hv.one _ _ (List.mem_of_getElem? hF)

theorem winP_of {Q : SProg} {globals : List Cls} {P : Prog} (hv : Validated Q globals) (hc : Q.compile globals = some P) : WinP P := by
  simp only [SProg.compile, Option.map_eq_some_iff] at hc
  obtain ⟨fs, hfs, hP⟩ := hc
  have hget := compileAll_get hfs
  have hPf : P.funcs = fs := by rw [← hP]
  have hPt : P.types = Q.types := by rw [← hP]
  intro g t code hg
  rw [hPf] at hg
  have h1 := (hget g).1
  rw [hg] at h1
  cases hF : Q.funcs[g]? with
  | none => rw [hF] at h1; cases h1
  | some F =>
    rw [hF] at h1
    cases F with
    | wasi t' id => simp only [Option.bind_some, compileFunc, Option.some.injEq] at h1; cases h1
    | wasm t' ls b =>
      simp only [Option.bind_some, compileFunc] at h1
      obtain ⟨code', hcode, he⟩ := Option.map_eq_some_iff.1 h1.symm
      cases he
      have hmem : SFunc.wasm t ls b ∈ Q.funcs := List.mem_of_getElem? hF
      obtain ⟨hl, W, hW⟩ := compileFn_parts hcode
      have key := compile_win (hosts_of hv) (hv.valid t ls b hmem) (hv.noRef t ls b hmem) hcode hW
      have hn : (fnCtx (Q.info globals) t ls).nloc = nlocals t code := by
        rw [FnCtx.nloc, declLocals_length, nlocals, hl]; rfl
      refine ⟨W, hW, fun n i hi => ?_, fun n i hi => ?_⟩
      · rw [← hn]; exact (key n i hi).1
      · have ha := (key n i hi).2
        cases i with
        | call f ps rs =>
          obtain ⟨tf, hf, hlen⟩ := ha
          intro fi hfi
          simp only [fnCtx, SProg.info, List.getElem?_map, Option.map_eq_some_iff] at hf
          obtain ⟨F, hF, he⟩ := hf
          rw [hPf] at hfi
          have h2 := (hget f).1
          rw [hF, hfi] at h2
          rw [hlen]
          cases F with
          | wasi t' id => simp [SFunc.info] at he
          | wasm t' ls' b' =>
            simp only [SFunc.info, Prod.mk.injEq, true_and] at he
            simp only [Option.bind_some, compileFunc] at h2
            obtain ⟨_, _, rfl⟩ := Option.map_eq_some_iff.1 h2.symm
            rw [he]; rfl
        | callIndirect ty tb idx ps rs =>
          obtain ⟨tf, hf, hlen⟩ := ha
          intro t' ht'
          rw [hPt] at ht'
          have : Q.types[ty]? = some tf := hf
          rw [this] at ht'; cases ht'
          exact hlen
        | _ => trivial

theorem preprocessed_of {Q : SProg} {globals : List Cls} {P : Prog} (hc : Q.compile globals = some P) : Preprocessed P := by
  simp only [SProg.compile, Option.map_eq_some_iff] at hc
  obtain ⟨fs, hfs, hP⟩ := hc
  have hget := compileAll_get hfs
  have hPf : P.funcs = fs := by rw [← hP]
  intro g t code hg
  rw [hPf] at hg
  have h1 := (hget g).1
  rw [hg] at h1
  cases hF : Q.funcs[g]? with
  | none => rw [hF] at h1; cases h1
  | some F =>
    rw [hF] at h1
    cases F with
    | wasi t' id => simp only [Option.bind_some, compileFunc, Option.some.injEq] at h1; cases h1
    | wasm t' ls b =>
      simp only [Option.bind_some, compileFunc] at h1
      obtain ⟨code', hcode, he⟩ := Option.map_eq_some_iff.1 h1.symm
      cases he
      exact ⟨_, _, hcode⟩

/-! ## one dispatcher call -/

/-- a state of a running function: at a proper place, inside its window -/
structure InFrame (body : List Instr) (W : Cls → Nat) (nl : Nat) (s : VM) : Prop where
  stands : StandsAt body s
  open_ : ¬ Gap body s.pc
  fit : Fit W nl s

/-- what `FnWin` says, for a body -/
structure BodyWin (P : Prog) (body : List Instr) (W : Cls → Nat) (nl : Nat) : Prop where
  made : Made body
  win : ∀ (n : Nat) (i : Instr), body[n]? = some i → InWindow W nl i ∨ Gap body n
  args : ∀ (n : Nat) (i : Instr), body[n]? = some i → ArgsP P i

theorem InFrame.win {P : Prog} {body : List Instr} {W : Cls → Nat} {nl : Nat} (hb : BodyWin P body W nl) {s : VM} (h : InFrame body W nl s) {i : Instr}
    (hi : body[s.pc]? = some i) : InWindow W nl i := (hb.win _ _ hi).resolve_right h.open_

theorem InFrame.step {E : Env} {body : List Instr} {W : Cls → Nat} {nl : Nat} (hb : BodyWin E.P body W nl) {s s' : VM} (h : InFrame body W nl s)
    {i : Instr} (hi : body[s.pc]? = some i) (hs : Model.step E.H E.P body.length s i = .ok (.cont s')) : InFrame body W nl s' :=
  ⟨h.stands.step hb.made hi hs,
    gap_flow hb.made.routed hi (fun e => h.stands.alive (by rw [hi, e])) _ (step_flow hs),
    h.fit.step (h.win hb hi) hs⟩

theorem InFrame.call {E : Env} {body : List Instr} {W : Cls → Nat} {nl : Nat} (hb : BodyWin E.P body W nl) {s s' : VM} (h : InFrame body W nl s)
    {i : Instr} (hi : body[s.pc]? = some i) {y : Yield} (hs : Model.step E.H E.P body.length s i = .ok (.yield y s')) :
    YieldIn E.P W y ∧ Fit W nl s' ∧ (y = .ret ∨ InFrame body W nl s') := by
  have hf : Fit W nl s' := h.fit.step (h.win hb hi) hs
  refine ⟨step_yieldIn (h.win hb hi) (hb.args _ _ hi) hs, hf, ?_⟩
  rcases h.stands.call hb.made hi hs with h1 | h1
  · exact .inl h1
  · rcases step_yield hs with h2 | ⟨h2, h3, _⟩
    · exact .inl h2
    · refine .inr ⟨h1, ?_, hf⟩
      rw [h3]
      rintro ⟨_, x, j, h4, h5, h6⟩
      have : x = s.pc := by omega
      subst this
      rw [hi] at h5; cases h5
      cases i <;> simp only [isCall, Bool.false_eq_true] at h2 <;> rcases h6 with h6 | h6 <;> cases h6

theorem InFrame.reaches {E : Env} {body : List Instr} {W : Cls → Nat} {nl : Nat} (hb : BodyWin E.P body W nl) {d d' : DState}
    (hr : Reaches E body d d') (h : InFrame body W nl d.vm) : InFrame body W nl d'.vm := by
  induction hr with
  | refl => exact h
  | step hp hi hs _ ih =>
    apply ih
    rw [← poll_vm' hp] at h
    exact h.step hb hi hs

/-- the instruction about to be executed in `d` -/
def Executes (E : Env) (body : List Instr) (d d' : DState) (i : Instr) : Prop :=
  ∃ d1, Reaches E body d d1 ∧ poll E d1 = (false, d') ∧ body[d'.vm.pc]? = some i

/-- an instruction that goes wrong -/
def GoesWrong (E : Env) (body : List Instr) (d : DState) : Prop :=
  ∃ d' i, Executes E body d d' i ∧ step E.H E.P body.length d'.vm i = .ub

theorem GoesWrong.later {E : Env} {body : List Instr} {d d1 : DState} {i : Instr} {vm : VM} (hp : poll E d = (false, d1))
    (hi : body[d1.vm.pc]? = some i) (hs : step E.H E.P body.length d1.vm i = .ok (.cont vm))
    (h : GoesWrong E body { d1 with vm := vm }) : GoesWrong E body d := by
  obtain ⟨d', j, ⟨d2, h1, h2, h3⟩, h4⟩ := h
  exact ⟨d', j, ⟨d2, .step hp hi hs h1, h2, h3⟩, h4⟩

/-- how a dispatcher call ends inside the window -/
def FinalAt (P : Prog) (body : List Instr) (W : Cls → Nat) (nl : Nat) : Final → Prop
  | .halt d => Fit W nl d.vm
  | .yield y d => YieldIn P W y ∧ Fit W nl d.vm ∧ (y = .ret ∨ InFrame body W nl d.vm)
  | .ckpt d => InFrame body W nl d.vm

/-- the same, for any outcome -/
def OutcomeAt (E : Env) (body : List Instr) (W : Cls → Nat) (nl : Nat) (d : DState) : Res Final → Prop
  | .ok fin => FinalAt E.P body W nl fin
  | .ub => GoesWrong E body d
  | _ => True

theorem OutcomeAt.later {E : Env} {body : List Instr} {W : Cls → Nat} {nl : Nat} {d d1 : DState} {i : Instr} {vm : VM}
    (hp : poll E d = (false, d1)) (hi : body[d1.vm.pc]? = some i) (hs : step E.H E.P body.length d1.vm i = .ok (.cont vm)) :
    ∀ {r : Res Final}, OutcomeAt E body W nl { d1 with vm := vm } r → OutcomeAt E body W nl d r
  | .ok _, h => h
  | .ub, h => GoesWrong.later hp hi hs h
  | .trap _, _ => trivial
  | .panic, _ => trivial

theorem loop_at {E : Env} {body : List Instr} {W : Cls → Nat} {nl : Nat} (hb : BodyWin E.P body W nl) : ∀ (n : Nat) (d : DState)
    (r : Res Final), InFrame body W nl d.vm → loopRun E body n d = some r → OutcomeAt E body W nl d r
  | 0, _, _, _, h => by simp [loopRun] at h
  | n + 1, d, r, hl, h => by
    rw [loopRun] at h
    cases hp : poll E d with
    | mk b d1 =>
      rw [hp] at h
      have hvm := poll_vm' hp
      have hl0 := hl
      rw [← hvm] at hl
      cases b with
      | true =>
        simp only [Option.some.injEq] at h
        subst h; exact hl
      | false =>
        simp only at h
        cases hi : body[d1.vm.pc]? with
        | none =>
          obtain ⟨h1, l, h2⟩ := hl.stands.at_end hb.made hi
          rw [hi, h2] at h
          simp only [Option.some.injEq] at h
          subst h; exact hl.fit
        | some i =>
          rw [hi] at h
          simp only at h
          cases hst : Model.step E.H E.P body.length d1.vm i with
          | ok o =>
            rw [hst] at h
            cases o with
            | cont vm => exact .later hp hi hst (loop_at hb n { d1 with vm := vm } r (hl.step hb hi hst) h)
            | yield y vm =>
              simp only [Option.some.injEq] at h
              subst h; exact hl.call hb hi hst
          | trap e => rw [hst] at h; cases h; trivial
          | panic => rw [hst] at h; cases h; trivial
          | ub => rw [hst] at h; cases h; exact ⟨d1, i, ⟨d, .refl _, hp, hi⟩, hst⟩

theorem tcoChain_at {E : Env} {body : List Instr} {W : Cls → Nat} {nl : Nat} (hb : BodyWin E.P body W nl) : ∀ (n : Nat) (d0 d : DState)
    (r : Res Final), poll E d0 = (false, d) → InFrame body W nl d.vm → tcoChain E body n d = some r → OutcomeAt E body W nl d0 r
  | 0, _, _, _, _, _, h => by simp [tcoChain] at h
  | n + 1, d0, d, r, hp0, hl, h => by
    rw [tcoChain] at h
    cases hi : body[d.vm.pc]? with
    | none =>
      obtain ⟨h1, l, h2⟩ := hl.stands.at_end hb.made hi
      rw [hi] at h
      simp only [h1, if_true, Option.some.injEq] at h
      subst h; exact hl.fit
    | some i =>
      rw [hi] at h
      simp only at h
      cases hst : Model.step E.H E.P body.length d.vm i with
      | ok o =>
        rw [hst] at h
        cases o with
        | cont vm =>
          simp only at h
          have hl1 := hl.step hb hi hst
          cases hp : poll E { d with vm := vm } with
          | mk b d1 =>
            rw [hp] at h
            have hvm := poll_vm' hp
            have hl2 : InFrame body W nl d1.vm := by rw [hvm]; exact hl1
            cases b with
            | true =>
              simp only [Option.some.injEq] at h
              subst h; exact hl2
            | false => exact .later hp0 hi hst (tcoChain_at hb n { d with vm := vm } d1 r hp hl2 h)
        | yield y vm =>
          simp only [Option.some.injEq] at h
          subst h; exact hl.call hb hi hst
      | trap e => rw [hst] at h; cases h; trivial
      | panic => rw [hst] at h; cases h; trivial
      | ub => rw [hst] at h; cases h; exact ⟨d, i, ⟨d0, .refl _, hp0, hi⟩, hst⟩

theorem disp_at {E : Env} {D : Dispatcher} (hD : IsD E D) {body : List Instr} {W : Cls → Nat} {nl : Nat} (hb : BodyWin E.P body W nl)
    {n : Nat} {d : DState} {r : Res Final} (hl : InFrame body W nl d.vm) (h : D n body d = some r) : OutcomeAt E body W nl d r := by
  cases hD with
  | loop => exact loop_at hb n d r hl h
  | tco =>
    unfold tcoD tcoRun at h
    cases hp : poll E d with
    | mk b d1 =>
      rw [hp] at h
      have hvm := poll_vm' hp
      have hl1 : InFrame body W nl d1.vm := by rw [hvm]; exact hl
      cases b with
      | true =>
        simp only [Option.some.injEq] at h
        subst h; exact hl1
      | false =>
        simp only at h
        split at h
        · simp only [Option.some.injEq] at h
          subst h; exact hl1.fit
        · exact tcoChain_at hb n d d1 r hp hl1 h

/-! ## the stack of windows -/

/-- a frame whose window has `W c` registers of class `c` -/
structure FrameIn (P : Prog) (t : FuncType) (code : Code) (W : Cls → Nat) (f : Frame) : Prop where
  fn : P.funcs[f.func]? = some (.runtime t code)
  win : FnWin P t code W
  open_ : ¬ Gap (P.body f.func) f.at
  locals : f.locals.length = nlocals t code
  ret : ∀ r ∈ f.retRegs, r.idx < W r.cls
  results : ∀ r ∈ f.resultRegs, r.idx < W r.cls

/-- Windows of the frames (running frame first) lie one above the other, in register vectors of the given lengths. -/
inductive Stacked (P : Prog) : (Cls → Nat) → List Frame → List Offsets → Prop
  | nil : Stacked P (fun _ => 0) [] []
  | cons {len : Cls → Nat} {f : Frame} {fs : List Frame} {o : Offsets} {os : List Offsets} {t : FuncType} {code : Code} {W : Cls → Nat}
      (hf : FrameIn P t code W f) (hl : ∀ c, o c + W c = len c) (hs : Stacked P o fs os) : Stacked P len (f :: fs) (o :: os)

theorem Stacked.inv {P : Prog} {len : Cls → Nat} {f : Frame} {fs : List Frame} {os : List Offsets} (h : Stacked P len (f :: fs) os) :
    ∃ o os' t code W, os = o :: os' ∧ FrameIn P t code W f ∧ (∀ c, o c + W c = len c) ∧ Stacked P o fs os' := by
  cases h with
  | cons hf hl hs => exact ⟨_, _, _, _, _, rfl, hf, hl, hs⟩

/-- the number of registers of each class -/
def _root_.Verif.Model.RegFile.lens (rf : RegFile) : Cls → Nat := fun c => (rf.regs c).length

/-- everything a machine needs to stay inside its windows -/
structure Safe {S : Wasi} (P : Prog) (m : Machine S) : Prop where
  live : AllLive P m
  stack : Stacked P m.rf.lens m.frames m.rf.frames
  cache : CacheOk m.rf
  ptr : PtrOk m

theorem lens_writes {rf rf' : RegFile} (h : Writes rf rf') : rf'.lens = rf.lens := funext h.shape.len

theorem cache_writes {rf rf' : RegFile} (h : Writes rf rf') (k : CacheOk rf) : CacheOk rf' := by
  unfold CacheOk at *
  rw [h.shape.cached, h.shape.frames]; exact k

theorem bodyWin {P : Prog} (hM : MadeP P) {t : FuncType} {code : Code} {W : Cls → Nat} {f : Nat} (hf : P.funcs[f]? = some (.runtime t code))
    (hw : FnWin P t code W) : BodyWin P (P.body f) W (nlocals t code) := by
  refine ⟨hM f, ?_, ?_⟩
  · simp only [Prog.body, hf]; exact hw.win
  · simp only [Prog.body, hf]; exact hw.args

theorem enter_at {S : Wasi} {P : Prog} {m : Machine S} (h : Safe P m) {f : Frame} {fs : List Frame} (hf : m.frames = f :: fs)
    {o : Offsets} {os : List Offsets} (ho : m.rf.frames = o :: os) {t : FuncType} {code : Code} {W : Cls → Nat} (hfr : FrameIn P t code W f)
    (hl : ∀ c, o c + W c = m.rf.lens c) : InFrame (P.body f.func) W (nlocals t code) (m.enter f).vm := by
  have h1 := h.live f (by rw [hf]; exact List.mem_cons_self)
  refine ⟨h1.enter m, hfr.open_, ?_, hfr.locals, hfr.ret, h.ptr f fs hf⟩
  intro c
  have hc := h.cache
  rw [CacheOk, ho] at hc
  have : (m.enter f).vm.rf = m.rf := rfl
  rw [this, hc]
  exact hl c

/-- the frame the runtime writes back -/
def backFrame (f : Frame) (d : DState) (rs : List Reg) : Frame :=
  { f with
    locals := d.vm.locals
    labels := match d.vm.labels with | [] => [] | l :: ls => { l with ip := d.vm.pc } :: ls
    resultRegs := rs
    retRegs := d.vm.retRegs
    memPtr := d.vm.memPtr }

theorem backFrame_in {P : Prog} {t : FuncType} {code : Code} {W : Cls → Nat} {f : Frame} (h : FrameIn P t code W f) {d : DState}
    (hd : InFrame (P.body f.func) W (nlocals t code) d.vm) {rs : List Reg} (hrs : ∀ r ∈ rs, r.idx < W r.cls) :
    FrameIn P t code W (backFrame f d rs) := by
  refine ⟨h.fn, h.win, ?_, hd.fit.locals, hd.fit.ret, hrs⟩
  have h2 := hd.stands.labels
  show ¬ Gap (P.body f.func) (backFrame f d rs).at
  simp only [Frame.at, backFrame]
  match hl : d.vm.labels with
  | [] => rw [hl] at h2; have := labelsAt_length h2; simp at this
  | l :: ls => exact hd.open_

/-- how a round ends for a machine inside its windows -/
def RoundAt {S : Wasi} (E : Env) (D : Dispatcher) (m : Machine S) : Res (Round S) → Prop
  | .ok (.running m') => Safe E.P m'
  | .ok (.ckpt m') => Safe E.P m'
  | .ok (.done _ _) => True
  | .ub => ∃ f fs, m.frames = f :: fs ∧ (GoesWrong E (E.P.body f.func) (m.enter f) ∨
      ∃ n id ps r d mem, D n (E.P.body f.func) (m.enter f) = some (.ok (.yield (.wasi id ps r) d)) ∧
        d.vm.inst.mem = some mem ∧ S.call id ps mem m.world = .ub)
  | _ => True

theorem round_safe {S : Wasi} {E : Env} {D : Dispatcher} (hD : IsD E D) (hM : MadeP E.P) (hW : WinP E.P) {en : Bool} {n : Nat}
    {m : Machine S} (hm : Safe E.P m) {R : Res (Round S)} (h : m.round E D en n = some R) : RoundAt E D m R := by
  have hlive : ∀ r, R = .ok r → RoundLive E.P r := by
    rintro r rfl
    cases hD with
    | loop => exact round_live .loop hM hm.live h
    | tco => exact round_live .tco hM hm.live h
  have hptr : ∀ r, R = .ok r → PtrOk r.m := by
    rintro r rfl
    exact ptr_round hD h hm.ptr
  unfold Machine.round at h
  cases hf : m.frames with
  | nil => rw [hf] at h; simp only [Option.some.injEq] at h; subst h; trivial
  | cons f fs =>
    rw [hf] at h
    simp only at h
    have hst := hm.stack
    rw [hf] at hst
    obtain ⟨o, os, t, code, W, ho, hfr, hl, hs⟩ := hst.inv
    · · cases hd : D n (E.P.body f.func) (m.enter f) with
        | none => rw [hd] at h; cases h
        | some r =>
          rw [hd] at h
          simp only [Option.some.injEq] at h
          have hat := enter_at hm hf ho hfr hl
          have hend := disp_at hD (bodyWin hM hfr.fn hfr.win) hat hd
          cases r with
          | trap e => rw [Res.bind_trap] at h; subst h; trivial
          | panic => rw [Res.bind_panic] at h; subst h; trivial
          | ub => rw [Res.bind_ub] at h; subst h; exact ⟨f, fs, hf, .inl hend⟩
          | ok fin =>
            rw [Res.bind_ok] at h
            have hk : Writes m.rf fin.d.vm.rf := (disp_keeps hD hd).writes
            have hlen := lens_writes hk
            have hcache := cache_writes hk hm.cache
            have hfrs : fin.d.vm.rf.frames = o :: os := hk.shape.frames.trans ho
            have back : ∀ (d : DState) (rs : List Reg), fin.d = d → InFrame (E.P.body f.func) W (nlocals t code) d.vm →
                (∀ r ∈ rs, r.idx < W r.cls) → Stacked E.P d.vm.rf.lens (backFrame f d rs :: fs) d.vm.rf.frames := by
              intro d rs hdd h1 h2
              subst hdd
              rw [hfrs, hlen]
              exact .cons (backFrame_in hfr h1 h2) hl hs
            have hroom : ∀ d : DState, fin.d = d → Room W d.vm.rf := by
              intro d hdd c
              subst hdd
              have hc := hcache
              rw [CacheOk, hfrs] at hc
              rw [hc]
              have := congrFun hlen c
              simp only [RegFile.lens] at this
              rw [this]
              exact hl c
            have ret : ∀ d : DState, fin.d = d → Fit W (nlocals t code) d.vm → (m.leave f d).doReturn = R → RoundAt E D m R := by
              intro d hdd hfit h
              unfold Machine.doReturn at h
              rw [leave_frames hf] at h
              simp only at h
              have hrf : (m.leave f d).rf = d.vm.rf := rfl
              rw [hrf] at h
              cases fs with
              | nil =>
                simp only at h
                cases hg : d.vm.rf.getVals (d.vm.retRegs.take f.n) with
                | ub => exact absurd hg (Room.getVals_ub (hroom d hdd) (fun r hr => hfit.ret r (List.mem_of_mem_take hr)))
                | ok vs => rw [hg] at h; subst h; trivial
                | trap e => rw [hg] at h; subst h; trivial
                | panic => rw [hg] at h; subst h; trivial
              | cons c cs =>
                simp only at h
                cases hg : d.vm.rf.getVals d.vm.retRegs with
                | ub => exact absurd hg (Room.getVals_ub (hroom d hdd) hfit.ret)
                | trap e => rw [hg] at h; subst h; trivial
                | panic => rw [hg] at h; subst h; trivial
                | ok vs =>
                  rw [hg, Res.bind_ok] at h
                  subst hdd
                  obtain ⟨o', os', t', code', W', rfl, hfr', hl', hs'⟩ := hs.inv
                  · have e1 : fin.d.vm.rf.restoreOffsets.lens = o := by
                      funext x
                      have := congrFun hlen x
                      have h3 := hl x
                      simp only [RegFile.lens] at this h3 ⊢
                      simp only [RegFile.restoreOffsets, hfrs, List.length_take]
                      omega
                    have e2 : fin.d.vm.rf.restoreOffsets.frames = o' :: os' := by simp only [RegFile.restoreOffsets, hfrs]
                    have e3 : fin.d.vm.rf.restoreOffsets.cached = o' := by simp only [RegFile.restoreOffsets, hfrs]
                    have hroom' : Room W' fin.d.vm.rf.restoreOffsets := by
                      intro x
                      rw [e3]
                      have := congrFun e1 x
                      simp only [RegFile.lens] at this
                      rw [this]
                      exact hl' x
                    cases hv : fin.d.vm.rf.restoreOffsets.setVals c.resultRegs vs with
                    | ub => exact absurd hv (hroom'.setVals_ub hfr'.results)
                    | trap e => rw [hv] at h; subst h; trivial
                    | panic => rw [hv] at h; subst h; trivial
                    | ok rf =>
                      rw [hv, Res.bind_ok] at h
                      subst h
                      have hw := Writes.setVals hv
                      refine ⟨hlive _ rfl, ?_, ?_, hptr _ rfl⟩
                      · simp only
                        rw [lens_writes hw, hw.shape.frames, e1, e2]
                        exact .cons ⟨hfr'.fn, hfr'.win, hfr'.open_, hfr'.locals, hfr'.ret, by simp⟩ hl' hs'
                      · refine cache_writes hw ?_
                        rw [CacheOk, e2, e3]
            have hres : ∀ r ∈ f.resultRegs, r.idx < W r.cls := hfr.results
            cases fin with
            | ckpt d =>
              simp only [Machine.react] at h
              subst h
              refine ⟨hlive _ rfl, ?_, hcache, hptr _ rfl⟩
              rw [leave_frames hf]
              exact back d f.resultRegs rfl hend hres
            | halt d => exact ret d rfl hend h
            | yield y d =>
              obtain ⟨hy, hfit, hgo⟩ := hend
              cases y with
              | ret => exact ret d rfl hfit h
              | invoke g ps rs =>
                rcases hgo with hgo | hgo
                · cases hgo
                simp only [Machine.react, Machine.doInvoke] at h
                cases hg : E.P.funcs[g]? with
                | none => rw [hg] at h; subst h; trivial
                | some fi =>
                  rw [hg] at h
                  cases fi with
                  | wasi t' id => subst h; trivial
                  | runtime t' code' =>
                    simp only at h
                    cases hcl : callLocals code'.locals with
                    | ub => unfold callLocals at hcl; split at hcl <;> cases hcl
                    | trap e => rw [hcl] at h; subst h; trivial
                    | panic => rw [hcl] at h; subst h; trivial
                    | ok ls =>
                      rw [hcl, Res.bind_ok, leave_frames hf] at h
                      obtain ⟨W', hW'⟩ := hW g t' code' hg
                      subst h
                      refine ⟨hlive _ rfl, ?_, ?_, hptr _ rfl⟩
                      · simp only [hW'.alloc, enterRegs]
                        have hst' := back d rs rfl hgo hy.1
                        have hfr2 : FrameIn E.P t' code' W' (newFrame (m.leave f d).inst g t' (ps ++ ls) en) := by
                          refine ⟨hg, hW', ?_, ?_, by simp [newFrame], by simp [newFrame]⟩
                          · rintro ⟨_, x, _, h1, _⟩
                            have : (newFrame (m.leave f d).inst g t' (ps ++ ls) en).at = 0 := rfl
                            omega
                          · have h1 := hy.2 _ hg
                            have h2 : ls = declLocals code'.locals := by
                              unfold callLocals at hcl
                              split at hcl
                              · cases hcl
                              · cases hcl; rfl
                            simp only [newFrame, List.length_append, nlocals, h1, h2]
                            rfl
                        refine .cons hfr2 (o := fun c => (d.vm.rf.regs c).length) (fun c => ?_) hst'
                        show _ = ((RegFile.saveOffsets d.vm.rf W').regs c).length
                        simp [RegFile.saveOffsets]
                      · simp only [hW'.alloc, enterRegs]
                        rfl
              | wasi id ps r =>
                rcases hgo with hgo | hgo
                · cases hgo
                have hst' := back d f.resultRegs rfl hgo hres
                simp only [Machine.react, Machine.doWasi] at h
                split at h
                · rename_i mem hw hmem
                  cases hc : S.call id ps mem (m.leave f d).world with
                  | trap e => rw [hc] at h; subst h; trivial
                  | panic => rw [hc] at h; subst h; trivial
                  | ub =>
                    rw [hc] at h; subst h
                    exact ⟨f, fs, hf, .inr ⟨n, id, ps, r, d, mem, hd, hmem, hc⟩⟩
                  | ok x =>
                    rw [hc, Res.bind_ok] at h
                    obtain ⟨o1, w⟩ := x
                    cases o1 with
                    | none => subst h; trivial
                    | some res =>
                      simp only at h
                      split at h
                      · rename_i reg v
                        cases hv : (m.leave f d).rf.setVal reg v with
                        | ub => exact absurd hv (Room.setVal_ub (hroom d rfl) (hy reg rfl) v)
                        | trap e => rw [hv] at h; subst h; trivial
                        | panic => rw [hv] at h; subst h; trivial
                        | ok rf =>
                          rw [hv, Res.bind_ok] at h
                          subst h
                          have hw := Writes.setVal hv
                          refine ⟨hlive _ rfl, ?_, cache_writes hw hcache, hptr _ rfl⟩
                          simp only
                          rw [lens_writes hw, hw.shape.frames, leave_frames hf]
                          exact hst'
                      · subst h
                        refine ⟨hlive _ rfl, ?_, hcache, hptr _ rfl⟩
                        simp only
                        rw [leave_frames hf]
                        exact hst'
                · subst h; trivial

/-- a started machine is inside its windows -/
theorem new_safe {S : Wasi} {P : Prog} (hM : MadeP P) (hW : WinP P) {inst : Inst} {w : S.W} {f : Nat} {params : List Val} {m : Machine S}
    (hm : Machine.new P inst w f params = .ok m) : Safe P m := by
  refine ⟨new_live hM hm, ?_, ?_, new_ptr hm⟩
  all_goals
    unfold Machine.new at hm
    split at hm
    case h_2 => cases hm
    rename_i t code hf
    split at hm
    · cases hm
    rename_i hn
    simp only [Res.ok_inj] at hm
    subst hm
    obtain ⟨W, hw⟩ := hW f t code hf
    simp only [hw.alloc, enterRegs]
  · refine .cons (W := W) ⟨hf, hw, ?_, ?_, by simp [newFrame], by simp [newFrame]⟩ (fun c => ?_) .nil
    · rintro ⟨_, x, _, h1, _⟩
      have : (newFrame inst f t (params ++ declLocals code.locals) false).at = 0 := rfl
      omega
    · simp only [newFrame, List.length_append, nlocals]
      omega
    · show _ = ((RegFile.saveOffsets RegFile.empty W).regs c).length
      simp [RegFile.saveOffsets, RegFile.empty]
  · rfl

theorem stacked_map {P : Prog} (g : Frame → Frame) (h1 : ∀ f, (g f).func = f.func ∧ (g f).labels = f.labels ∧ (g f).locals = f.locals ∧
    (g f).retRegs = f.retRegs ∧ (g f).resultRegs = f.resultRegs) {len : Cls → Nat} {fs : List Frame} {os : List Offsets}
    (h : Stacked P len fs os) : Stacked P len (fs.map g) os := by
  induction h with
  | nil => exact .nil
  | cons hf hl _ ih =>
    obtain ⟨e1, e2, e3, e4, e5⟩ := h1 _
    refine .cons ⟨by rw [e1]; exact hf.fn, hf.win, ?_, by rw [e3]; exact hf.locals, by rw [e4]; exact hf.ret, by rw [e5]; exact hf.results⟩ hl ih
    simp only [Frame.at, e1, e2]
    exact hf.open_

theorem setFirst_stacked {P : Prog} (en : Bool) {len : Cls → Nat} {fs : List Frame} {os : List Offsets} (h : Stacked P len fs os) :
    Stacked P len (setFirstEnable en fs) os := by
  induction h with
  | nil => exact .nil
  | @cons len f fs o os t code W hf hl hs ih =>
    cases fs with
    | nil => exact .cons ⟨hf.fn, hf.win, hf.open_, hf.locals, hf.ret, hf.results⟩ hl hs
    | cons g gs => exact .cons hf hl ih

theorem setFirst_safe {S : Wasi} {P : Prog} {m : Machine S} (en : Bool) (h : Safe P m) :
    Safe P { m with frames := setFirstEnable en m.frames } :=
  ⟨setFirst_live en m.frames h.live, setFirst_stacked en h.stack, h.cache, setFirst_ptr en h.ptr⟩

/-- frames brought back in another process -/
theorem resume_safe {S : Wasi} {P : Prog} {m m' : Machine S} (h : Safe P m) (hr : m'.rf = m.rf)
    (hf : m'.frames = m.frames.map (fun f => { f with enable := false, memPtr := m'.inst.ptr })) : Safe P m' := by
  refine ⟨?_, ?_, by rw [hr]; exact h.cache, ?_⟩
  · intro g hg
    rw [hf] at hg
    obtain ⟨g', hg', rfl⟩ := List.mem_map.1 hg
    have := h.live g' hg'
    exact ⟨this.fn, this.pc, this.labels, this.alive⟩
  · rw [hr, hf]
    exact stacked_map (fun f => { f with enable := false, memPtr := m'.inst.ptr }) (fun f => ⟨rfl, rfl, rfl, rfl, rfl⟩) h.stack
  · intro g gs hg
    rw [hf] at hg
    cases hm : m.frames with
    | nil => rw [hm] at hg; cases hg
    | cons f fs => rw [hm] at hg; cases hg; rfl

end Verif.Lemmas
