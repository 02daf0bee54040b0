import Verif.Lemmas.WinRun
import Verif.Props.Migrate
import Verif.Props.CorrectEx
/-
C14 and C47: the unchecked accesses of the interpreter.  Registers and locals are read and written without bounds checks; for
every validated module they are always in bounds, so the only accesses that can be undefined are those of linear memory.
-/
namespace Verif.Props
open Verif.Model Verif.Spec Verif.Lemmas

/-- Machines met when a program runs, in any number of processes: started on any function with any arguments, checkpointing
switched on or off, driven by either dispatcher in any environment, checkpointed, restored from the checkpoint file. -/
inductive Lives {S : Wasi} (P : Prog) : Machine S → Prop
  | start {inst : Inst} {w : S.W} {f : Nat} {params : List Val} {m : Machine S} (h : Machine.new P inst w f params = .ok m) : Lives P m
  | enable {m : Machine S} (en : Bool) (h : Lives P m) : Lives P { m with frames := setFirstEnable en m.frames }
  | round {m m' : Machine S} {E : Env} {D : Dispatcher} {en : Bool} {n : Nat} (h : Lives P m) (hE : E.P = P) (hD : IsD E D)
      (k : m.round E D en n = some (.ok (.running m'))) : Lives P m'
  | ckpt {m m' : Machine S} {E : Env} {D : Dispatcher} {en : Bool} {n : Nat} (h : Lives P m) (hE : E.P = P) (hD : IsD E D)
      (k : m.round E D en n = some (.ok (.ckpt m'))) : Lives P m'
  | restored {m : Machine S} {lz : Lz} {s : Snapshot} {old : Option (List Byte)} {io : Io} {file : Option (List Byte)} {i i' : Inst}
      {st : Stacks} {w : S.W} (h : Lives P m) (hs : m.snapshot lz P = .ok s) (hf : s.Fits)
      (hc : m.checkpoint lz P old io = (.ok (), file)) (hi : SameShape i m.inst) (k : restore lz P i file = (.ok st, i')) :
      Lives P (st.resume i' w)

theorem lives_safe {S : Wasi} {P : Prog} (hM : MadeP P) (hW : WinP P) {m : Machine S} (h : Lives P m) : Safe P m := by
  induction h with
  | start hm => exact new_safe hM hW hm
  | enable en _ ih => exact setFirst_safe en ih
  | round _ hE hD k ih => subst hE; exact round_safe hD hM hW ih k
  | ckpt _ hE hD k ih => subst hE; exact round_safe hD hM hW ih k
  | restored _ hs hf hc hi k ih =>
    obtain ⟨st', i'', h1, h2, h3, _⟩ := restore_reproduces _ _ _ _ hs hf _ _ _ hc _ hi
    rw [k] at h1
    cases h1
    exact resume_safe ih h2 h3

theorem safe_of {S : Wasi} {Q : SProg} {globals : List Cls} {P : Prog} (hv : Validated Q globals) (hc : Q.compile globals = some P)
    {m : Machine S} (h : Lives P m) : Safe P m :=
  lives_safe (made_of (preprocessed_of hc)) (winP_of hv hc) h

/-- **C14** for every validated module without typed `select` on references: whenever an instruction is executed — in any run,
at any call depth, with either dispatcher, before or after a restore — every register it names lies in the window of the running
frame, the window lies wholly inside the register vectors (it is the last one), and every local it names exists.
Missing: typed `select` on references, for which the claim is false (`Bug.select_on_references_violated`). -/
theorem registers_in_window_partial {S : Wasi} {Q : SProg} {globals : List Cls} {E : Env} (hv : Validated Q globals)
    (hc : Q.compile globals = some E.P) {m : Machine S} (hm : Lives E.P m) {f : Frame} {fs : List Frame} (hf : m.frames = f :: fs)
    {d : DState} {i : Instr} (hx : Executes E (E.P.body f.func) (m.enter f) d i) :
    ∃ t code W, E.P.funcs[f.func]? = some (.runtime t code) ∧ code.alloc = some W ∧
      (∀ r ∈ i.regs, r.idx < W r.cls) ∧ (∀ c, d.vm.rf.cached c + W c = (d.vm.rf.regs c).length) ∧
      (∀ l ∈ i.locs, l < d.vm.locals.length) := by
  have hs := safe_of hv hc hm
  have hst := hs.stack
  rw [hf] at hst
  obtain ⟨o, os, t, code, W, ho, hfr, hl, _⟩ := hst.inv
  have hb := bodyWin (made_of (preprocessed_of hc)) hfr.fn hfr.win
  obtain ⟨d1, hr, hp, hi⟩ := hx
  have h1 := InFrame.reaches hb hr (enter_at hs hf ho hfr hl)
  rw [← poll_vm' hp] at h1
  have h2 := h1.win hb hi
  exact ⟨t, code, W, hfr.fn, hfr.win.alloc, h2.regs, h1.fit.room, by rw [h1.fit.locals]; exact h2.locs⟩

/-- where the window above frame `k` begins (the end of the register vectors for the running frame) -/
def above {S : Wasi} (m : Machine S) : Nat → Cls → Nat
  | 0, c => (m.rf.regs c).length
  | k + 1, c => ((m.rf.frames[k]?).map (· c)).getD 0

theorem stacked_get {P : Prog} {len : Cls → Nat} {fs : List Frame} {os : List Offsets} (h : Stacked P len fs os) :
    fs.length = os.length ∧ ∀ (k : Nat) (f : Frame) (o : Offsets), fs[k]? = some f → os[k]? = some o →
      ∃ t code W, P.funcs[f.func]? = some (.runtime t code) ∧ code.alloc = some W ∧
        ∀ c, o c + W c = (match k with | 0 => len c | j + 1 => ((os[j]?).map (· c)).getD 0) := by
  induction h with
  | nil => exact ⟨rfl, fun k f o h => by simp at h⟩
  | @cons len f fs o os t code W hf hl _ ih =>
    refine ⟨by simp [ih.1], fun k f' o' h1 h2 => ?_⟩
    cases k with
    | zero =>
      simp only [List.getElem?_cons_zero, Option.some.injEq] at h1 h2
      subst h1 h2
      exact ⟨t, code, W, hf.fn, hf.win.alloc, hl⟩
    | succ k =>
      simp only [List.getElem?_cons_succ] at h1 h2
      obtain ⟨t', code', W', e1, e2, e3⟩ := ih.2 k f' o' h1 h2
      refine ⟨t', code', W', e1, e2, fun c => ?_⟩
      rw [e3 c]
      cases k with
      | zero => simp
      | succ j => simp

/-- **C14**, the windows: there is one window per frame, as large as the allocation of its function, and each ends exactly where
the next begins — windows of different frames never overlap. -/
theorem windows_disjoint_partial {S : Wasi} {Q : SProg} {globals : List Cls} {P : Prog} (hv : Validated Q globals)
    (hc : Q.compile globals = some P) {m : Machine S} (hm : Lives P m) :
    m.frames.length = m.rf.frames.length ∧ ∀ (k : Nat) (f : Frame) (o : Offsets), m.frames[k]? = some f → m.rf.frames[k]? = some o →
      ∃ t code W, P.funcs[f.func]? = some (.runtime t code) ∧ code.alloc = some W ∧ ∀ c, o c + W c = above m k c := by
  obtain ⟨h1, h2⟩ := stacked_get (safe_of hv hc hm).stack
  refine ⟨h1, fun k f o hf ho => ?_⟩
  obtain ⟨t, code, W, e1, e2, e3⟩ := h2 k f o hf ho
  refine ⟨t, code, W, e1, e2, fun c => ?_⟩
  rw [e3 c]
  cases k <;> rfl

/-- a host call that is itself undefined -/
def HostWrong {S : Wasi} (E : Env) (D : Dispatcher) (m : Machine S) (f : Frame) : Prop :=
  ∃ n id ps r d mem, D n (E.P.body f.func) (m.enter f) = some (.ok (.yield (.wasi id ps r) d)) ∧
    d.vm.inst.mem = some mem ∧ S.call id ps mem m.world = .ub

/-- the running frame executes an instruction that accesses linear memory outside its bounds -/
def MemoryWrong {S : Wasi} (E : Env) (m : Machine S) (f : Frame) : Prop :=
  ∃ d i, Executes E (E.P.body f.func) (m.enter f) d i ∧ OutOfRange d.vm i

theorem round_ub {S : Wasi} {Q : SProg} {globals : List Cls} {E : Env} (hv : Validated Q globals) (hc : Q.compile globals = some E.P)
    {D : Dispatcher} (hD : IsD E D) {m : Machine S} (hs : Safe E.P m) {en : Bool} {n : Nat} (h : m.round E D en n = some .ub) :
    ∃ f fs, m.frames = f :: fs ∧ (MemoryWrong E m f ∨ HostWrong E D m f) := by
  have hM := made_of (preprocessed_of hc)
  obtain ⟨f, fs, hf, hr⟩ := round_safe hD hM (winP_of hv hc) hs h
  refine ⟨f, fs, hf, hr.imp (fun hg => ?_) id⟩
  obtain ⟨d, i, hx, hu⟩ := hg
  refine ⟨d, i, hx, ?_⟩
  have hst := hs.stack
  rw [hf] at hst
  obtain ⟨o, os, t, code, W, ho, hfr, hl, _⟩ := hst.inv
  have hb := bodyWin hM hfr.fn hfr.win
  obtain ⟨d1, hr, hp, hi⟩ := hx
  have h1 := InFrame.reaches hb hr (enter_at hs hf ho hfr hl)
  rw [← poll_vm' hp] at h1
  exact step_safe h1.fit (h1.win hb hi) hu

theorem runLoop_ub {S : Wasi} {Q : SProg} {globals : List Cls} {E : Env} (hv : Validated Q globals) (hc : Q.compile globals = some E.P)
    {D : Dispatcher} (hD : IsD E D) {en : Bool} {n : Nat} : ∀ (k : Nat) {m : Machine S}, Safe E.P m →
    m.runLoop E D en n k = some .ub → ∃ m' f fs, Reach E D en m m' ∧ m'.frames = f :: fs ∧ (MemoryWrong E m' f ∨ HostWrong E D m' f)
  | 0, _, _, h => by simp [Machine.runLoop] at h
  | k + 1, m, hm, h => by
    rw [Machine.runLoop] at h
    cases hr : m.round E D en n with
    | none => rw [hr] at h; cases h
    | some r =>
      rw [hr] at h
      match r, hr, h with
      | .ok (.running m1), hr, h =>
        obtain ⟨m', f, fs, h1, h2⟩ := runLoop_ub hv hc hD k
          (round_safe hD (made_of (preprocessed_of hc)) (winP_of hv hc) hm hr) h
        refine ⟨m', f, fs, ?_, h2⟩
        clear h2 h
        induction h1 with
        | refl => exact .next (.refl _) ⟨n, hr⟩
        | next _ k ih => exact .next ih k
        | done _ k ih => exact .done ih k
        | ckpt _ k ih => exact .ckpt ih k
      | .ok (.done _ _), _, h => cases h
      | .ok (.ckpt _), _, h => cases h
      | .trap _, _, h => cases h
      | .panic, _, h => cases h
      | .ub, hr, _ =>
        obtain ⟨f, fs, h1, h2⟩ := round_ub hv hc hD hm hr
        exact ⟨m, f, fs, .refl _, h1, h2⟩

/-- **C47**.  A run of a validated module (without typed `select` on references) has undefined behaviour only because it reaches a
load, store, `memory.copy` or `memory.fill` outside linear memory, or because a host function it calls is itself undefined.  No
access to a register, a local, an argument, a result, an operand, a jump target or a cached pointer ever is. -/
theorem undefined_only_outside_memory {S : Wasi} {Q : SProg} {globals : List Cls} {E : Env} (hv : Validated Q globals)
    (hc : Q.compile globals = some E.P) {D : Dispatcher} (hD : IsD E D) {m : Machine S} (hm : Lives E.P m) {en : Bool} {n : Nat}
    (h : m.run E D en n = some .ub) : ∃ m' f fs, Reach E D en { m with frames := setFirstEnable en m.frames } m' ∧
      m'.frames = f :: fs ∧ (MemoryWrong E m' f ∨ HostWrong E D m' f) :=
  runLoop_ub hv hc hD n (setFirst_safe en (safe_of hv hc hm)) h

/-- **C47**, the other way round: if the host functions are defined and no instruction of the run leaves linear memory, nothing
undefined happens. -/
theorem no_undefined_behaviour {S : Wasi} (hS : ∀ id ps mem w, S.call id ps mem w ≠ .ub) {Q : SProg} {globals : List Cls} {E : Env}
    (hv : Validated Q globals) (hc : Q.compile globals = some E.P) {D : Dispatcher} (hD : IsD E D) {m : Machine S} (hm : Lives E.P m)
    {en : Bool} (hin : ∀ m' f fs d i, Reach E D en { m with frames := setFirstEnable en m.frames } m' → m'.frames = f :: fs →
      Executes E (E.P.body f.func) (m'.enter f) d i → ¬ OutOfRange d.vm i) (n : Nat) : m.run E D en n ≠ some .ub := by
  intro h
  obtain ⟨m', f, fs, h1, h2, h3 | h3⟩ := undefined_only_outside_memory hv hc hD hm h
  · obtain ⟨d, i, h4, h5⟩ := h3
    exact hin m' f fs d i h1 h2 h4 h5
  · obtain ⟨_, _, _, _, _, _, _, _, h6⟩ := h3
    exact hS _ _ _ _ h6

/-! ## cases -/

namespace Ex

theorem validated : Validated prog gl := by
  refine ⟨fun t ls b h => (accepted.faithful t ls b h).valid, fun t ls b h => ?_, accepted.one⟩
  rcases mem_funcs h with ⟨rfl, rfl, rfl⟩ | ⟨rfl, rfl, rfl⟩ <;> simp [fact, main, NoRefSelect]

/-- how many registers `main` uses -/
def mainAlloc : Option (Cls → Nat) :=
  match loaded.funcs[2]? with
  | some (FuncInst.runtime _ c) => c.alloc
  | _ => none

/-- the machine that is about to run `main` on `n` -/
def machine (i : Inst) (n : BitVec 32) : Machine wasi :=
  { rf := enterRegs RegFile.empty mainAlloc
    frames := [newFrame i 2 ⟨[.i32], [.i32]⟩ [⟨.i32, n⟩, vi 0] false]
    inst := i, world := ([] : List Val), looks := 0 }

theorem started (i : Inst) (n : BitVec 32) : Machine.new loaded i ([] : List Val) 2 [⟨.i32, n⟩] = .ok (machine i n) := rfl

/-- the theorem at work: a program with recursion, a loop, an indirect call, a host call and memory accesses -/
example (n : BitVec 32) {d : DState} {i : Instr}
    (hx : Executes env (loaded.body 2) ((machine inst n).enter (newFrame inst 2 ⟨[.i32], [.i32]⟩ [⟨.i32, n⟩, vi 0] false)) d i) :
    ∃ t code W, loaded.funcs[2]? = some (.runtime t code) ∧ code.alloc = some W ∧
      (∀ r ∈ i.regs, r.idx < W r.cls) ∧ (∀ c, d.vm.rf.cached c + W c = (d.vm.rf.regs c).length) ∧
      (∀ l ∈ i.locs, l < d.vm.locals.length) :=
  registers_in_window_partial (E := env) validated load (.start (started inst n)) rfl hx

/-- in an instance with four bytes of memory the store at address 8 leaves memory: undefined behaviour does happen -/
def tiny : Inst := { inst with mem := some ⟨List.replicate 4 0, none⟩ }

/-- does the run end in undefined behaviour? -/
def isUb {S : Wasi} : Option (Res (End S)) → Bool
  | some .ub => true
  | _ => false

theorem isUb_eq {S : Wasi} : ∀ {r : Option (Res (End S))}, isUb r = true → r = some .ub
  | some .ub, _ => rfl
  | none, h => nomatch h
  | some (.ok _), h => nomatch h
  | some (.trap _), h => nomatch h
  | some .panic, h => nomatch h

example : (machine tiny 1#32).run env (tcoD env) true 60 = some .ub ∧
    ∃ m' f fs, Reach env (tcoD env) true { machine tiny 1#32 with frames := setFirstEnable true (machine tiny 1#32).frames } m' ∧
      m'.frames = f :: fs ∧ (MemoryWrong env m' f ∨ HostWrong env (tcoD env) m' f) := by
  have hub : (machine tiny 1#32).run env (tcoD env) true 60 = some .ub := isUb_eq (by decide +kernel)
  exact ⟨hub, undefined_only_outside_memory (E := env) validated load .tco (.start (started tiny 1#32)) hub⟩

end Ex
end Verif.Props
