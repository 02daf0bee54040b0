import Verif.Props.Machine
/-
C32: how quickly a raised checkpoint trigger is honoured.
-/
namespace Verif.Props
open Verif.Model

/-- the trigger is raised and stays raised from the next look on -/
def Raised (E : Env) (looks : Nat) : Prop := ∀ k, looks ≤ k → E.trig k = true

/-- polls left until the counter is a multiple of 1024 -/
def left (c : BitVec 32) : Nat := 1024 - c.toNat % 1024

theorem mask_eq (c : BitVec 32) : (c &&& 0x3FF#32 = 0) ↔ c.toNat % 1024 = 0 := by
  have h : (c &&& 0x3FF#32).toNat = c.toNat % 1024 := by
    rw [BitVec.toNat_and, show (0x3FF#32).toNat = 2 ^ 10 - 1 from rfl, Nat.and_two_pow_sub_one_eq_mod]
  constructor
  · intro hc; rw [← h, hc]; rfl
  · intro hc; apply BitVec.eq_of_toNat_eq; rw [h, hc]; rfl

theorem poll_raised {E : Env} (hat : E.atomics = false) (hw : E.hasWasi = true) {d : DState} (hen : d.enable = true)
    (hr : Raised E d.looks) : (poll E d).1 = true ∨
    (1 < left d.counter ∧ ∃ d', poll E d = (false, d') ∧ d'.enable = true ∧ d'.looks = d.looks ∧
      left d'.counter + 1 = left d.counter) := by
  unfold poll
  simp only [hen, Bool.not_true, Bool.false_eq_true, if_false, hat, hw, if_true, hr d.looks (Nat.le_refl _)]
  by_cases hc : (d.counter + 1#32) &&& 0x3FF#32 = 0
  · left; simp [hc]
  · right
    have hne : ¬ (d.counter + 1#32).toNat % 1024 = 0 := fun h => hc ((mask_eq _).mpr h)
    have hadd : (d.counter + 1#32).toNat % 1024 = (d.counter.toNat + 1) % 1024 := by
      rw [BitVec.toNat_add]
      show (d.counter.toNat + 1) % 2 ^ 32 % 1024 = _
      omega
    rw [hadd] at hne
    refine ⟨by simp only [left]; omega, { d with counter := d.counter + 1 }, ?_, hen, rfl, ?_⟩
    · have hc' : d.counter + 1 &&& 0x3FF#32 ≠ 0 := hc
      simp only [hc', if_true, ne_eq, not_false_eq_true, hen]
    · simp only [left]
      have : (d.counter + 1).toNat % 1024 = (d.counter.toNat + 1) % 1024 := hadd
      omega

theorem loop_bound {E : Env} (hat : E.atomics = false) (hw : E.hasWasi = true) (code : List Instr) : ∀ (n : Nat)
    (d : DState), d.enable = true → Raised E d.looks → left d.counter ≤ n → (loopRun E code n d).isSome
  | 0, d, _, _, hn => by simp only [left] at hn; omega
  | n + 1, d, hen, hr, hn => by
    rw [loopRun]
    rcases poll_raised hat hw hen hr with hp | ⟨hl, d', hp, he', hl', hc'⟩
    · split
      · rfl
      · rename_i d1 h1; rw [h1] at hp; simp at hp
    · rw [hp]
      simp only
      have hn' : left d'.counter ≤ n := by omega
      have hr' : Raised E d'.looks := by rw [hl']; exact hr
      split
      · split
        · split
          · rfl
          · exact loop_bound hat hw code n _ he' hr' hn'
        · rfl
      · split
        · exact loop_bound hat hw code n _ he' hr' hn'
        all_goals rfl

theorem chain_bound {E : Env} (hat : E.atomics = false) (hw : E.hasWasi = true) (code : List Instr) : ∀ (n : Nat)
    (d : DState), d.enable = true → Raised E d.looks → left d.counter ≤ n → (tcoChain E code n d).isSome
  | 0, d, _, _, hn => by simp only [left] at hn; omega
  | n + 1, d, hen, hr, hn => by
    rw [tcoChain]
    split
    · split <;> rfl
    · split
      · rename_i vm _
        have hp := poll_raised (d := { d with vm := vm }) hat hw hen hr
        rcases hp with hp | ⟨hl, d', hp, he', hl', hc'⟩
        · split
          · rfl
          · rename_i d1 h1; rw [h1] at hp; simp at hp
        · rw [hp]
          simp only
          have hl'' : d'.looks = d.looks := hl'
          have hc'' : left d'.counter + 1 = left d.counter := hc'
          exact chain_bound hat hw code n d' he' (by rw [hl'']; exact hr) (by omega)
      all_goals rfl

/-- C32, the part that holds.  File-polling build, checkpointing enabled in the running frame, trigger raised: within one
uninterrupted stay in a frame (no call, return or WASI call) at most 1024 further handlers run before the checkpoint is
taken or the stay ends — for both dispatchers, every body and every state.
Missing from C32: the bound across calls and returns, see `trigger_starved_violated`; disabled frames, see
`trigger_ignored_when_disabled_violated`. -/
theorem trigger_honoured_in_frame_partial {E : Env} (hat : E.atomics = false) (hw : E.hasWasi = true)
    (code : List Instr) (d : DState) (hen : d.enable = true) (hr : Raised E d.looks) :
    (loopRun E code 1024 d).isSome ∧ (tcoRun E code 1024 d).isSome := by
  have hl : left d.counter ≤ 1024 := by simp only [left]; omega
  refine ⟨loop_bound hat hw code 1024 d hen hr hl, ?_⟩
  unfold tcoRun
  rcases poll_raised hat hw hen hr with hp | ⟨hlt, d', hp, he', hl', hc'⟩
  · split
    · rfl
    · rename_i d1 h1; rw [h1] at hp; simp at hp
  · rw [hp]
    simp only
    split
    · rfl
    · exact chain_bound hat hw code 1024 d' he' (by rw [hl']; exact hr) (by omega)

/-- C32, atomics build: with checkpointing enabled and the flag raised not a single further instruction runs. -/
theorem trigger_honoured_at_once_atomics {E : Env} (hat : E.atomics = true) (code : List Instr) (d : DState)
    (hen : d.enable = true) (hr : Raised E d.looks) (n : Nat) :
    (∃ d', loopRun E code (n + 1) d = some (.ok (.ckpt d')) ∧ d'.vm = d.vm) ∧
    (∃ d', tcoRun E code n d = some (.ok (.ckpt d')) ∧ d'.vm = d.vm) := by
  have hp : poll E d = (true, { d with looks := d.looks + 1 }) := by
    unfold poll
    simp [hen, hat, hr d.looks (Nat.le_refl _)]
  exact ⟨⟨{ d with looks := d.looks + 1 }, by rw [loopRun, hp], rfl⟩,
    ⟨{ d with looks := d.looks + 1 }, by unfold tcoRun; rw [hp], rfl⟩⟩

example : Raised (Sample.envTrig false 0) 0 ∧ (Sample.envTrig false 0).hasWasi = true := ⟨fun _ _ => by simp [Sample.envTrig], rfl⟩

/-! #### where the claim fails -/

namespace Starve

/-- `loop call 1; br 0 end` -/
def code0 : List Instr := [.block true, .call 1 [] [], .br 0 0 [] []]
/-- the empty function -/
def code1 : List Instr := [.fin [] []]
def prog : Prog :=
  { types := [⟨[], []⟩]
    funcs := [.runtime ⟨[], []⟩ ⟨[], code0, some fun _ => 0⟩, .runtime ⟨[], []⟩ ⟨[], code1, some fun _ => 0⟩] }
/-- the trigger file exists from the very beginning -/
def env : Env := { H := Sample.host, P := prog, atomics := false, hasWasi := true, trig := fun _ => true }

/-- in function 0, about to run the instruction after the call (or the first one) -/
def InMain {S : Wasi} (m : Machine S) : Prop := ∃ f, m.frames = [f] ∧ f.func = 0 ∧
  (f.labels = [⟨false, 0, 0⟩] ∨ f.labels = [⟨true, 1, 2⟩, ⟨false, 0, 0⟩])

/-- at the start of function 1, called from function 0 -/
def InCallee {S : Wasi} (m : Machine S) : Prop := ∃ g f, m.frames = [g, f] ∧ g.func = 1 ∧ g.labels = [⟨false, 0, 0⟩] ∧
  f.func = 0 ∧ f.labels = [⟨true, 1, 2⟩, ⟨false, 0, 0⟩] ∧ f.resultRegs = [] ∧ g.retRegs = []

theorem poll_small (d : DState) (h : d.counter.toNat < 1000) : poll env d =
    (false, if d.enable then { d with counter := d.counter + 1 } else d) := by
  unfold poll
  cases hen : d.enable with
  | false => simp
  | true =>
    have hc : ¬ (d.counter + 1#32 &&& 0x3FF#32 = 0#32) := by
      intro hc
      have := (mask_eq _).mp hc
      have h2 : (d.counter + 1#32).toNat = d.counter.toNat + 1 := by
        rw [BitVec.toNat_add]; show (d.counter.toNat + 1) % 2 ^ 32 = _; omega
      rw [h2] at this; omega
    simp [env, hc]

theorem poll_cases (d : DState) (h : d.counter.toNat < 1000) : ∃ c : BitVec 32, c.toNat ≤ d.counter.toNat + 1 ∧
    poll env d = (false, { d with counter := c }) := by
  rw [poll_small d h]
  cases hen : d.enable with
  | false => exact ⟨d.counter, by omega, by cases d; simp_all⟩
  | true =>
    refine ⟨d.counter + 1, ?_, by simp⟩
    rw [BitVec.toNat_add]; show (d.counter.toNat + 1) % 2 ^ 32 ≤ _; omega

/-- one loop iteration handled by the loop dispatcher: poll does not fire -/
theorem loop_step (code : List Instr) (n : Nat) (d : DState) (h : d.counter.toNat < 1000) :
    ∃ c : BitVec 32, c.toNat ≤ d.counter.toNat + 1 ∧ ∀ r, loopRun env code (n + 1) d = r ↔
      (match code[d.vm.pc]? with
      | none =>
        match d.vm.labels with
        | l :: rest@(_ :: _) =>
          if l.returnIp ≤ d.vm.pc ∧ l.isLoop = false then some (.ok (.halt { d with counter := c }))
          else loopRun env code n { d with counter := c, vm := { d.vm with
                  labels := rest, pc := if l.isLoop then d.vm.pc + 1 else l.returnIp } }
        | _ => some (.ok (.halt { d with counter := c }))
      | some i =>
        match step env.H env.P code.length d.vm i with
        | .ok (.cont vm) => loopRun env code n { d with counter := c, vm := vm }
        | .ok (.yield y vm) => some (.ok (.yield y { d with counter := c, vm := vm }))
        | .trap e => some (.trap e)
        | .panic => some .panic
        | .ub => some .ub) = r := by
  obtain ⟨c, hc, hp⟩ := poll_cases d h
  refine ⟨c, hc, fun r => ?_⟩
  rw [loopRun, hp]
  cases hcode : code[d.vm.pc]? with
  | none => simp only; rcases hls : d.vm.labels with _ | ⟨l, _ | ⟨l2, t⟩⟩ <;> simp only [hcode, hls]
  | some i =>
    simp only
    rcases hst : step env.H env.P code.length d.vm i with ⟨_ | _⟩ | _ | _ | _ <;> simp only [hcode, hst]

theorem main_round {S : Wasi} (en : Bool) (m : Machine S) (n : Nat) (h : InMain m) :
    ∃ m', m.round env (loopD env) en (n + 4) = some (.ok (.running m')) ∧ InCallee m' := by
  obtain ⟨f, hf, hfunc, hl⟩ := h
  have hbody : env.P.body f.func = code0 := by rw [hfunc]; rfl
  -- from pc 0
  have go0 : ∀ (n : Nat) (d : DState), d.counter.toNat < 900 → d.vm.pc = 0 → d.vm.labels = [⟨false, 0, 0⟩] →
      ∃ d', loopRun env code0 (n + 2) d = some (.ok (.yield (.invoke 1 [] []) d')) ∧ d'.vm.pc = 2 ∧
        d'.vm.labels = [⟨true, 1, 1⟩, ⟨false, 0, 0⟩] := by
    intro n d hc hpc hls
    obtain ⟨c, hc1, hiff⟩ := loop_step code0 (n + 1) d (by omega)
    obtain ⟨c2, hc2, hiff2⟩ := loop_step code0 n
      { d with counter := c, vm := { d.vm with labels := ⟨true, 1, 1⟩ :: d.vm.labels, pc := 1 } } (by simp only; omega)
    refine ⟨⟨{ d.vm with labels := ⟨true, 1, 1⟩ :: d.vm.labels, pc := 2 }, d.enable, c2, d.looks⟩, ?_, rfl, by simp [hls]⟩
    rw [hiff]
    simp only [hpc, code0, List.getElem?_cons_zero, step]
    have := (hiff2 (some (.ok (.yield (.invoke 1 [] [])
      ⟨{ d.vm with labels := ⟨true, 1, 1⟩ :: d.vm.labels, pc := 2 }, d.enable, c2, d.looks⟩)))).mpr (by
        simp [code0, step, env, prog, RegFile.getVals, cap8, VM.next])
    exact this
  have fin : ∀ (d : DState), d.vm.pc = 2 → d.vm.labels = [⟨true, 1, 1⟩, ⟨false, 0, 0⟩] →
      ∃ m', m.react env en f (.yield (.invoke 1 [] []) d) = .ok (.running m') ∧ InCallee m' := by
    intro d hpc hls
    refine ⟨_, by simp only [Machine.react, Machine.doInvoke, env, prog]; rfl, ?_⟩
    refine ⟨newFrame d.vm.inst 1 ⟨[], []⟩ [] en, ?_⟩
    simp only [leave_frames hf, hls, hpc]
    exact ⟨_, rfl, rfl, rfl, hfunc, rfl, rfl, rfl⟩
  rcases hl with hl | hl
  · obtain ⟨d', h1, h2, h3⟩ := go0 (n + 2) (m.enter f) (by simp [Machine.enter])
      (by simp [Machine.enter, hl]) (by simp [Machine.enter, hl])
    obtain ⟨m', h4, h5⟩ := fin d' h2 h3
    refine ⟨m', ?_, h5⟩
    simp only [Machine.round, hf, hbody, loopD]
    rw [h1]
    simp only [Res.bind_ok, h4]
  · obtain ⟨c, hc1, hiff⟩ := loop_step code0 (n + 3) (m.enter f) (by simp [Machine.enter])
    have hc1' : c.toNat ≤ 1 := by simpa [Machine.enter] using hc1
    obtain ⟨d', h1, h2, h3⟩ := go0 (n + 1)
      ⟨{ (m.enter f).vm with labels := [⟨false, 0, 0⟩], pc := 0 }, (m.enter f).enable, c, (m.enter f).looks⟩
      (by simp only; omega) rfl rfl
    obtain ⟨m', h4, h5⟩ := fin d' h2 h3
    refine ⟨m', ?_, h5⟩
    have : loopRun env code0 (n + 4) (m.enter f) = some (.ok (.yield (.invoke 1 [] []) d')) := by
      rw [hiff]
      have hpc : (m.enter f).vm.pc = 2 := by simp [Machine.enter, hl]
      have hlab : (m.enter f).vm.labels = [⟨true, 1, 2⟩, ⟨false, 0, 0⟩] := by simp [Machine.enter, hl]
      simp only [hpc, code0, List.getElem?_cons_succ, List.getElem?_cons_zero, step, VM.branch, RegFile.copyIf, hlab]
      exact h1
    simp only [Machine.round, hf, hbody, loopD]
    rw [this]
    simp only [Res.bind_ok, h4]

theorem callee_round {S : Wasi} (en : Bool) (m : Machine S) (n : Nat) (h : InCallee m) :
    ∃ m', m.round env (loopD env) en (n + 4) = some (.ok (.running m')) ∧ InMain m' := by
  obtain ⟨g, f, hf, hg, hgl, hff, hfl, hfr, hgr⟩ := h
  have hbody : env.P.body g.func = code1 := by rw [hg]; rfl
  obtain ⟨c, hc1, hiff⟩ := loop_step code1 (n + 3) (m.enter g) (by simp [Machine.enter])
  have hc1' : c.toNat ≤ 1 := by simpa [Machine.enter] using hc1
  let d1 : DState := ⟨{ (m.enter g).vm with labels := [⟨false, 0, 0⟩], retRegs := [], pc := 1 }, (m.enter g).enable, c, (m.enter g).looks⟩
  obtain ⟨c2, hc2, hiff2⟩ := loop_step code1 (n + 2) d1 (by simp only [d1]; omega)
  have hl1 : d1.vm.labels = [⟨false, 0, 0⟩] := rfl
  have h2 : loopRun env code1 (n + 3) d1 = some (.ok (.halt { d1 with counter := c2 })) := by
    rw [hiff2, hl1]; rfl
  have h1 : loopRun env code1 (n + 4) (m.enter g) = some (.ok (.halt { d1 with counter := c2 })) := by
    rw [hiff]
    have hpc : (m.enter g).vm.pc = 0 := by simp [Machine.enter, hgl]
    have hlab : (m.enter g).vm.labels = [⟨false, 0, 0⟩] := by simp [Machine.enter, hgl]
    simp only [hpc, code1, List.getElem?_cons_zero, step, hlab, List.length_cons, List.length_nil, cap8]
    exact h2
  have h3 : ∃ m', m.react env en g (.halt { d1 with counter := c2 }) = .ok (.running m') ∧ InMain m' := by
    simp only [Machine.react, Machine.doReturn, leave_frames hf, d1, RegFile.getVals, Res.bind_ok, hfr, RegFile.setVals]
    exact ⟨_, rfl, _, rfl, hff, .inr hfl⟩
  obtain ⟨m', h4, h5⟩ := h3
  refine ⟨m', ?_, h5⟩
  simp only [Machine.round, hf, hbody, loopD]
  rw [h1]
  simp only [Res.bind_ok, h4]

end Starve

open Starve in
/-- C32 is false of the code: a program that keeps calling a short function is never checkpointed although the trigger
file exists from the beginning and checkpointing is enabled — the poll counter restarts at every frame entry.  For every
number `k` of rounds (each executing at least one instruction) the run is still going on. -/
theorem trigger_starved_violated {S : Wasi} (n k : Nat) (m : Machine S) (h : InMain m) :
    m.runLoop env (loopD env) true (n + 4) k = none := by
  have key : ∀ k, (∀ m : Machine S, InMain m → m.runLoop env (loopD env) true (n + 4) k = none) ∧
      (∀ m : Machine S, InCallee m → m.runLoop env (loopD env) true (n + 4) k = none) := by
    intro k
    induction k with
    | zero => exact ⟨fun _ _ => rfl, fun _ _ => rfl⟩
    | succ k ih =>
      refine ⟨fun m hm => ?_, fun m hm => ?_⟩
      · obtain ⟨m', h1, h2⟩ := main_round true m n hm
        rw [Machine.runLoop, h1]; exact ih.2 m' h2
      · obtain ⟨m', h1, h2⟩ := callee_round true m n hm
        rw [Machine.runLoop, h1]; exact ih.1 m' h2
  exact (key k).1 m h

/-- the starving machine is what `Runtime::new` produces, and the trigger is raised -/
example : Raised Starve.env 0 ∧ Starve.env.hasWasi = true ∧
    ∃ m : Machine Sample.wasi, Machine.new Starve.prog Sample.inst () 0 [] = .ok m ∧
      Starve.InMain { m with frames := setFirstEnable true m.frames } :=
  ⟨fun _ _ => rfl, rfl, _, rfl, _, rfl, rfl, .inl rfl⟩

/-- frames with checkpointing disabled ignore the trigger altogether (this is what restored non-outermost frames are) -/
theorem trigger_ignored_when_disabled_violated (E : Env) (d : DState) (h : d.enable = false) :
    poll E d = (false, d) := by
  unfold poll; simp [h]

end Verif.Props
