import Verif.Lemmas.VM
/-
Runs of the machine instruction by instruction, without checkpointing.  A `Conf` is the machine in the middle of a
dispatcher call on its first frame.  Terminating and endless runs of `Machine.runLoop` are characterised by paths of
`CStep`.
-/
namespace Verif.Model

/-- the machine as of the last entry into the dispatcher, and the present `VmState` -/
structure Conf (S : Wasi) where
  m : Machine S
  vm : VM

/-- dispatcher state without checkpointing -/
def Conf.dst {S : Wasi} (c : Conf S) : DState := ⟨c.vm, false, 0, c.m.looks⟩

/-- the end of one dispatcher call that keeps the machine going -/
inductive CStep {S : Wasi} (E : Env) : Conf S → Conf S → Prop
  | cont {m : Machine S} {vm vm' : VM} {f : Frame} {fs : List Frame} {i : Instr} : m.frames = f :: fs →
      (E.P.body f.func)[vm.pc]? = some i → step E.H E.P (E.P.body f.func).length vm i = .ok (.cont vm') →
      CStep E ⟨m, vm⟩ ⟨m, vm'⟩
  | yield {m m' : Machine S} {vm vm' : VM} {f f' : Frame} {fs fs' : List Frame} {i : Instr} {y : Yield} :
      m.frames = f :: fs → (E.P.body f.func)[vm.pc]? = some i →
      step E.H E.P (E.P.body f.func).length vm i = .ok (.yield y vm') →
      m.react E false f (.yield y ⟨vm', false, 0, m.looks⟩) = .ok (.running m') → m'.frames = f' :: fs' →
      CStep E ⟨m, vm⟩ ⟨m', (m'.enter f').vm⟩
  | halt {m m' : Machine S} {vm : VM} {f f' : Frame} {fs fs' : List Frame} :
      m.frames = f :: fs → (E.P.body f.func)[vm.pc]? = none → vm.labels.length ≤ 1 →
      m.react E false f (.halt ⟨vm, false, 0, m.looks⟩) = .ok (.running m') → m'.frames = f' :: fs' →
      CStep E ⟨m, vm⟩ ⟨m', (m'.enter f').vm⟩

/-- how a round that does not keep the machine going ends the run -/
def Round.ended {S : Wasi} : Res (Round S) → Option (Res (End S))
  | .ok (.running _) => none
  | .ok (.done vs m) => some (.ok (.done vs m))
  | .ok (.ckpt m) => some (.ok (.ckpt m))
  | .trap e => some (.trap e)
  | .panic => some .panic
  | .ub => some .ub

/-- a handler that fails -/
def failed {S : Wasi} : Res Out → Option (Res (End S))
  | .ok _ => none
  | .trap e => some (.trap e)
  | .panic => some .panic
  | .ub => some .ub

/-- the run ends here -/
inductive CEnd {S : Wasi} (E : Env) : Conf S → Res (End S) → Prop
  | fail {m : Machine S} {vm : VM} {f : Frame} {fs : List Frame} {i : Instr} {r : Res (End S)} : m.frames = f :: fs →
      (E.P.body f.func)[vm.pc]? = some i → failed (step E.H E.P (E.P.body f.func).length vm i) = some r →
      CEnd E ⟨m, vm⟩ r
  | yield {m : Machine S} {vm vm' : VM} {f : Frame} {fs : List Frame} {i : Instr} {y : Yield} {r : Res (End S)} :
      m.frames = f :: fs → (E.P.body f.func)[vm.pc]? = some i →
      step E.H E.P (E.P.body f.func).length vm i = .ok (.yield y vm') →
      Round.ended (m.react E false f (.yield y ⟨vm', false, 0, m.looks⟩)) = some r → CEnd E ⟨m, vm⟩ r
  | halt {m : Machine S} {vm : VM} {f : Frame} {fs : List Frame} {r : Res (End S)} :
      m.frames = f :: fs → (E.P.body f.func)[vm.pc]? = none → vm.labels.length ≤ 1 →
      Round.ended (m.react E false f (.halt ⟨vm, false, 0, m.looks⟩)) = some r → CEnd E ⟨m, vm⟩ r

/-- paths of a given length -/
inductive CPath {S : Wasi} (E : Env) : Nat → Conf S → Conf S → Prop
  | nil (c : Conf S) : CPath E 0 c c
  | cons {n : Nat} {a b c : Conf S} : CStep E a b → CPath E n b c → CPath E (n + 1) a c

theorem CPath.append {S : Wasi} {E : Env} {n k : Nat} {a b c : Conf S} (h : CPath E n a b) (h' : CPath E k b c) :
    CPath E (n + k) a c := by
  induction h with
  | nil => simpa using h'
  | cons s _ ih => rw [Nat.add_right_comm]; exact .cons s (ih h')

theorem CPath.one {S : Wasi} {E : Env} {a b : Conf S} (h : CStep E a b) : CPath E 1 a b := .cons h (.nil _)

/-- no frame has checkpointing enabled -/
def AllOff {S : Wasi} (m : Machine S) : Prop := ∀ f ∈ m.frames, f.enable = false

theorem enter_off {S : Wasi} {m : Machine S} {f : Frame} (h : f.enable = false) :
    m.enter f = (Conf.mk m (m.enter f).vm).dst := by
  simp [Machine.enter, Conf.dst, h]

theorem leave_off {S : Wasi} {m : Machine S} {f : Frame} {fs : List Frame} {d : DState} (h : AllOff m)
    (hf : m.frames = f :: fs) : AllOff (m.leave f d) := by
  intro g hg
  simp only [Machine.leave, hf, List.tail_cons, List.mem_cons] at hg
  rcases hg with rfl | hg
  · exact h f (by rw [hf]; exact List.mem_cons_self)
  · exact h g (by rw [hf]; exact List.mem_cons_of_mem _ hg)

theorem doReturn_off {S : Wasi} {m m' : Machine S} (h : AllOff m) (hr : m.doReturn = .ok (.running m')) : AllOff m' := by
  simp only [Machine.doReturn] at hr
  split at hr
  · cases hr
  · rename_i f rest hf
    split at hr
    · simp only [Res.bind_eq_ok, Res.pure_eq, Res.ok_inj, reduceCtorEq, and_false, exists_false] at hr
    · rename_i caller rest'
      simp only [Res.bind_eq_ok, Res.pure_eq, Res.ok_inj, Round.running.injEq] at hr
      obtain ⟨vs, _, rf, _, rfl⟩ := hr
      intro g hg
      simp only [List.mem_cons] at hg
      rcases hg with rfl | hg
      · exact h caller (by rw [hf]; simp)
      · exact h g (by rw [hf]; simp [hg])

theorem react_off {S : Wasi} {E : Env} {m m' : Machine S} {f : Frame} {fs : List Frame} {fin : Final} (h : AllOff m)
    (hf : m.frames = f :: fs) (hr : m.react E false f fin = .ok (.running m')) : AllOff m' := by
  cases fin with
  | ckpt d => simp [Machine.react] at hr
  | halt d => exact doReturn_off (leave_off h hf) hr
  | yield y d =>
    have hl := leave_off (d := d) h hf
    cases y with
    | ret => exact doReturn_off hl hr
    | invoke g ps rs =>
      simp only [Machine.react, Machine.doInvoke] at hr
      split at hr
      · simp only [Res.bind_eq_ok, Res.pure_eq, Res.ok_inj, Round.running.injEq] at hr
        obtain ⟨ls, _, rfl⟩ := hr
        intro g hg
        simp only [List.mem_cons] at hg
        rcases hg with rfl | hg
        · rfl
        · cases hfr : (m.leave f d).frames with
          | nil => rw [hfr] at hg; simp at hg
          | cons c cs =>
            rw [hfr] at hg
            simp only [List.mem_cons] at hg
            rcases hg with rfl | hg
            · exact hl c (by rw [hfr]; simp)
            · exact hl g (by rw [hfr]; simp [hg])
      · cases hr
      · cases hr
    | wasi id ps r =>
      simp only [Machine.react, Machine.doWasi] at hr
      split at hr
      · simp only [Res.bind_eq_ok] at hr
        obtain ⟨x, _, hr⟩ := hr
        split at hr
        · cases hr
        · split at hr
          · simp only [Res.bind_eq_ok, Res.pure_eq, Res.ok_inj, Round.running.injEq] at hr
            obtain ⟨rf, _, rfl⟩ := hr
            exact hl
          · simp only [Res.pure_eq, Res.ok_inj, Round.running.injEq] at hr
            subst hr; exact hl
      · cases hr

theorem CStep.off {S : Wasi} {E : Env} {a b : Conf S} (h : CStep E a b) (ho : AllOff a.m) : AllOff b.m := by
  cases h with
  | cont => exact ho
  | yield hf _ _ hr _ => exact react_off ho hf hr
  | halt hf _ _ hr _ => exact react_off ho hf hr

/-- continue after a dispatcher call with `k` rounds left -/
def after {S : Wasi} (E : Env) (N k : Nat) (m : Machine S) (f : Frame) : Option (Res Final) → Option (Res (End S))
  | none => none
  | some r =>
    match r >>= m.react E false f with
    | .ok (.running m') => m'.runLoop E (loopD E) false N k
    | x => Round.ended x

/-- the rest of the run from the middle of a dispatcher call: `n` instructions left in this call -/
def mid {S : Wasi} (E : Env) (N n k : Nat) (c : Conf S) : Option (Res (End S)) :=
  match c.m.frames with
  | [] => none
  | f :: _ => after E N k c.m f (loopRun E (E.P.body f.func) n c.dst)

theorem runLoop_mid {S : Wasi} {E : Env} {N k : Nat} {m : Machine S} {f : Frame} {fs : List Frame} (ho : AllOff m)
    (hf : m.frames = f :: fs) : m.runLoop E (loopD E) false N (k + 1) = mid E N N k ⟨m, (m.enter f).vm⟩ := by
  simp only [Machine.runLoop, Machine.round, hf, mid, loopD, after]
  rw [← enter_off (ho f (by rw [hf]; simp))]
  cases loopRun E (E.P.body f.func) N _ with
  | none => rfl
  | some r =>
    cases hr : (r >>= m.react E false f) with
    | ok x => simp only []; rw [hr]; cases x <;> rfl
    | trap e => simp only []; rw [hr]; rfl
    | panic => simp only []; rw [hr]; rfl
    | ub => simp only []; rw [hr]; rfl

theorem loop_cont {E : Env} {code : List Instr} {n : Nat} {d : DState} {i : Instr} {vm' : VM} (he : d.enable = false)
    (hi : code[d.vm.pc]? = some i) (hs : step E.H E.P code.length d.vm i = .ok (.cont vm')) :
    loopRun E code (n + 1) d = loopRun E code n { d with vm := vm' } := by
  simp [loopRun, poll, he, hi, hs]

theorem loop_yield {E : Env} {code : List Instr} {n : Nat} {d : DState} {i : Instr} {y : Yield} {vm' : VM}
    (he : d.enable = false) (hi : code[d.vm.pc]? = some i)
    (hs : step E.H E.P code.length d.vm i = .ok (.yield y vm')) :
    loopRun E code (n + 1) d = some (.ok (.yield y { d with vm := vm' })) := by
  simp [loopRun, poll, he, hi, hs]

theorem loop_halt {E : Env} {code : List Instr} {n : Nat} {d : DState} (he : d.enable = false)
    (hi : code[d.vm.pc]? = none) (hl : d.vm.labels.length ≤ 1) :
    loopRun E code (n + 1) d = some (.ok (.halt d)) := by
  match hls : d.vm.labels with
  | [] => simp [loopRun, poll, he, hi, hls]
  | [a] => simp [loopRun, poll, he, hi, hls]
  | a :: b :: t => rw [hls] at hl; simp at hl

/-- one step, seen from the run -/
theorem mid_step {S : Wasi} {E : Env} {N n k : Nat} {a b : Conf S} (h : CStep E a b) (ho : AllOff a.m) :
    (b.m = a.m ∧ mid E N (n + 1) k a = mid E N n k b) ∨ mid E N (n + 1) (k + 1) a = mid E N N k b := by
  cases h with
  | cont hf hi hs =>
    refine Or.inl ⟨rfl, ?_⟩
    simp only [mid, hf]
    rw [loop_cont (d := Conf.dst ⟨_, _⟩) rfl hi hs]
    rfl
  | yield hf hi hs hr hf' =>
    refine Or.inr ?_
    simp only [mid, hf]
    rw [loop_yield (d := Conf.dst ⟨_, _⟩) rfl hi hs]
    simp only [after, Res.bind_ok, Conf.dst]
    rw [hr]
    exact runLoop_mid (react_off ho hf hr) hf'
  | halt hf hi hl hr hf' =>
    refine Or.inr ?_
    simp only [mid, hf]
    rw [loop_halt (d := Conf.dst ⟨_, _⟩) rfl hi hl]
    simp only [after, Res.bind_ok, Conf.dst]
    rw [hr]
    exact runLoop_mid (react_off ho hf hr) hf'

/-- with enough fuel the run from here ends with `r` -/
def Ends {S : Wasi} (E : Env) (c : Conf S) (r : Res (End S)) : Prop :=
  ∃ N0, ∀ N n k, N0 ≤ N → N0 ≤ n → N0 ≤ k → mid E N n k c = some r

theorem Ends.here {S : Wasi} {E : Env} {c : Conf S} {r : Res (End S)} (h : CEnd E c r) : Ends E c r := by
  refine ⟨1, fun N n k _ hn _ => ?_⟩
  obtain ⟨n, rfl⟩ : ∃ n', n = n' + 1 := ⟨n - 1, by omega⟩
  cases h with
  | fail hf hi hs =>
    simp only [mid, hf, loopRun, poll, Conf.dst, Bool.not_false, if_true, hi]
    cases hst : step E.H E.P (E.P.body _).length _ _ with
    | ok o => rw [hst] at hs; cases hs
    | trap e => rw [hst] at hs; exact hs
    | panic => rw [hst] at hs; exact hs
    | ub => rw [hst] at hs; exact hs
  | yield hf hi hs hr =>
    simp only [mid, hf]
    rw [loop_yield (d := Conf.dst ⟨_, _⟩) rfl hi hs]
    simp only [after, Res.bind_ok, Conf.dst]
    cases hx : Machine.react E false _ _ _ with
    | ok x => rw [hx] at hr; cases x <;> first | exact hr | cases hr
    | trap e => rw [hx] at hr; exact hr
    | panic => rw [hx] at hr; exact hr
    | ub => rw [hx] at hr; exact hr
  | halt hf hi hl hr =>
    simp only [mid, hf]
    rw [loop_halt (d := Conf.dst ⟨_, _⟩) rfl hi hl]
    simp only [after, Res.bind_ok, Conf.dst]
    cases hx : Machine.react E false _ _ _ with
    | ok x => rw [hx] at hr; cases x <;> first | exact hr | cases hr
    | trap e => rw [hx] at hr; exact hr
    | panic => rw [hx] at hr; exact hr
    | ub => rw [hx] at hr; exact hr

theorem Ends.step {S : Wasi} {E : Env} {a b : Conf S} {r : Res (End S)} (h : CStep E a b) (ho : AllOff a.m)
    (hb : Ends E b r) : Ends E a r := by
  obtain ⟨N0, hb⟩ := hb
  refine ⟨N0 + 1, fun N n k hN hn hk => ?_⟩
  obtain ⟨n, rfl⟩ : ∃ n', n = n' + 1 := ⟨n - 1, by omega⟩
  obtain ⟨k, rfl⟩ : ∃ k', k = k' + 1 := ⟨k - 1, by omega⟩
  rcases mid_step (N := N) (n := n) (k := k) h ho with hm | hm
  · rcases mid_step (N := N) (n := n) (k := k + 1) h ho with ⟨_, hm'⟩ | hm'
    · rw [hm']; exact hb _ _ _ (by omega) (by omega) (by omega)
    · cases h with
      | cont hf hi hs =>
        simp only [mid, hf]
        rw [loop_cont (d := Conf.dst ⟨_, _⟩) rfl hi hs]
        have := hb N n (k + 1) (by omega) (by omega) (by omega)
        simp only [mid, hf] at this
        exact this
      | yield hf hi hs hr hf' =>
        simp only [mid, hf]
        rw [loop_yield (d := Conf.dst ⟨_, _⟩) rfl hi hs]
        simp only [after, Res.bind_ok, Conf.dst]
        rw [hr]
        simp only []
        rw [runLoop_mid (react_off ho hf hr) hf']
        exact hb _ _ _ (by omega) (by omega) (by omega)
      | halt hf hi hl hr hf' =>
        simp only [mid, hf]
        rw [loop_halt (d := Conf.dst ⟨_, _⟩) rfl hi hl]
        simp only [after, Res.bind_ok, Conf.dst]
        rw [hr]
        simp only []
        rw [runLoop_mid (react_off ho hf hr) hf']
        exact hb _ _ _ (by omega) (by omega) (by omega)
  · rw [hm]; exact hb _ _ _ (by omega) (by omega) (by omega)

theorem Ends.path {S : Wasi} {E : Env} {n : Nat} {a b : Conf S} {r : Res (End S)} (h : CPath E n a b) (ho : AllOff a.m)
    (hb : Ends E b r) : Ends E a r := by
  induction h with
  | nil => exact hb
  | cons s _ ih => exact Ends.step s ho (ih (s.off ho) hb)

/-- a run that reaches an end terminates so -/
theorem run_ends {S : Wasi} {E : Env} {m : Machine S} {f : Frame} {fs : List Frame} {r : Res (End S)} (ho : AllOff m)
    (hf : m.frames = f :: fs) (h : Ends E ⟨m, (m.enter f).vm⟩ r) :
    ∃ N0, ∀ N, N0 ≤ N → m.runLoop E (loopD E) false N N = some r := by
  obtain ⟨N0, h⟩ := h
  refine ⟨N0 + 1, fun N hN => ?_⟩
  obtain ⟨k, rfl⟩ : ∃ k', N = k' + 1 := ⟨N - 1, by omega⟩
  rw [runLoop_mid ho hf]
  exact h _ _ _ (by omega) (by omega) (by omega)

/-- a path longer than the fuel can follow exhausts it -/
theorem mid_none {S : Wasi} {E : Env} {N : Nat} : ∀ {j n k : Nat} {a b : Conf S}, CPath E j a b → AllOff a.m →
    n + k * (N + 1) + 1 ≤ j → mid E N n k a = none := by
  intro j
  induction j with
  | zero => intro n k a b _ _ h; omega
  | succ j ih =>
    intro n k a b h ho hj
    cases h with
    | cons s p =>
      cases n with
      | zero =>
        cases s with
        | cont hf _ _ => simp [mid, hf, loopRun, after]
        | yield hf _ _ _ _ => simp [mid, hf, loopRun, after]
        | halt hf _ _ _ _ => simp [mid, hf, loopRun, after]
      | succ n =>
        cases s with
        | cont hf hi hs =>
          have hm := ih (n := n) (k := k) p ho (by omega)
          simp only [mid, hf] at hm ⊢
          rw [loop_cont (d := Conf.dst ⟨_, _⟩) rfl hi hs]
          exact hm
        | yield hf hi hs hr hf' =>
          simp only [mid, hf]
          rw [loop_yield (d := Conf.dst ⟨_, _⟩) rfl hi hs]
          simp only [after, Res.bind_ok, Conf.dst]
          rw [hr]
          cases k with
          | zero => rfl
          | succ k =>
            simp only []
            rw [runLoop_mid (react_off ho hf hr) hf']
            exact ih p (react_off ho hf hr) (by rw [Nat.succ_mul] at hj; omega)
        | halt hf hi hl hr hf' =>
          simp only [mid, hf]
          rw [loop_halt (d := Conf.dst ⟨_, _⟩) rfl hi hl]
          simp only [after, Res.bind_ok, Conf.dst]
          rw [hr]
          cases k with
          | zero => rfl
          | succ k =>
            simp only []
            rw [runLoop_mid (react_off ho hf hr) hf']
            exact ih p (react_off ho hf hr) (by rw [Nat.succ_mul] at hj; omega)

/-- a run with arbitrarily long paths never ends -/
theorem run_diverges {S : Wasi} {E : Env} {m : Machine S} {f : Frame} {fs : List Frame} (ho : AllOff m)
    (hf : m.frames = f :: fs) (h : ∀ n, ∃ j c, n ≤ j ∧ CPath E j ⟨m, (m.enter f).vm⟩ c) (N k : Nat) :
    m.runLoop E (loopD E) false N k = none := by
  cases k with
  | zero => rfl
  | succ k =>
    rw [runLoop_mid ho hf]
    obtain ⟨j, c, hj, hp⟩ := h (N + k * (N + 1) + 1)
    exact mid_none hp ho hj

end Verif.Model
