import Verif.Model.Left
import Verif.Lemmas.Exec
/-
Runs that end, with the instance and the outside world they leave.
-/
namespace Verif.Model

theorem loopL_fst (E : Env) (code : List Instr) : ∀ (n : Nat) (d : DState),
    (loopRunL E code n d).map (·.1) = loopRun E code n d := by
  intro n
  induction n with
  | zero => intro d; rfl
  | succ n ih =>
    intro d
    simp only [loopRunL, loopRun]
    generalize poll E d = p
    obtain ⟨b, d⟩ := p
    cases b with
    | true => rfl
    | false =>
      simp only
      cases code[d.vm.pc]? with
      | none =>
        simp only
        match d.vm.labels with
        | [] => rfl
        | [_] => rfl
        | l :: a :: t =>
          simp only
          split
          · rfl
          · exact ih _
      | some i =>
        simp only
        cases step E.H E.P code.length d.vm i with
        | ok o => cases o with
          | cont vm => exact ih _
          | yield y vm => rfl
        | trap e => rfl
        | panic => rfl
        | ub => rfl

theorem chainL_fst (E : Env) (code : List Instr) : ∀ (n : Nat) (d : DState),
    (tcoChainL E code n d).map (·.1) = tcoChain E code n d := by
  intro n
  induction n with
  | zero => intro d; rfl
  | succ n ih =>
    intro d
    simp only [tcoChainL, tcoChain]
    cases code[d.vm.pc]? with
    | none => simp only; split <;> rfl
    | some i =>
      simp only
      cases step E.H E.P code.length d.vm i with
      | ok o =>
        cases o with
        | cont vm =>
          simp only
          generalize poll E _ = p
          obtain ⟨b, d⟩ := p
          cases b with
          | true => rfl
          | false => exact ih _
        | yield y vm => rfl
      | trap e => rfl
      | panic => rfl
      | ub => rfl

theorem tcoL_fst (E : Env) (code : List Instr) (n : Nat) (d : DState) :
    (tcoRunL E code n d).map (·.1) = tcoRun E code n d := by
  simp only [tcoRunL, tcoRun]
  generalize poll E d = p
  obtain ⟨b, d⟩ := p
  cases b with
  | true => rfl
  | false =>
    simp only
    split
    · rfl
    · exact chainL_fst E code n d

theorem roundL_fst {S : Wasi} {E : Env} {D : Dispatcher} {DL : DispatcherL} (h : ∀ n c d, (DL n c d).map (·.1) = D n c d)
    (en : Bool) (n : Nat) (m : Machine S) : (m.roundL E DL en n).map (·.1) = m.round E D en n := by
  simp only [Machine.roundL, Machine.round]
  cases m.frames with
  | nil => rfl
  | cons f fs =>
    simp only
    rw [← h]
    cases DL n (E.P.body f.func) (m.enter f) with
    | none => rfl
    | some x => obtain ⟨r, vm⟩ := x; cases r <;> rfl

theorem runLoopL_fst {S : Wasi} {E : Env} {D : Dispatcher} {DL : DispatcherL} (h : ∀ n c d, (DL n c d).map (·.1) = D n c d)
    (en : Bool) (n : Nat) : ∀ (k : Nat) (m : Machine S), (m.runLoopL E DL en n k).map (·.1) = m.runLoop E D en n k := by
  intro k
  induction k with
  | zero => intro m; rfl
  | succ k ih =>
    intro m
    simp only [Machine.runLoopL, Machine.runLoop]
    rw [← roundL_fst h]
    cases m.roundL E DL en n with
    | none => rfl
    | some x =>
      obtain ⟨r, l⟩ := x
      cases r with
      | ok y => cases y with
        | running m' => exact ih m'
        | done vs m' => rfl
        | ckpt m' => rfl
      | trap e => rfl
      | panic => rfl
      | ub => rfl

/-- the run with its leavings has the same result as the run -/
theorem runL_fst {S : Wasi} {E : Env} {D : Dispatcher} {DL : DispatcherL} (h : ∀ n c d, (DL n c d).map (·.1) = D n c d)
    (en : Bool) (n : Nat) (m : Machine S) : (m.runL E DL en n).map (·.1) = m.run E D en n := runLoopL_fst h en n n _

/-- the run ends here and leaves this -/
inductive CEndL {S : Wasi} (E : Env) : Conf S → Res (End S) → Inst × S.W → Prop
  | fail {m : Machine S} {vm : VM} {f : Frame} {fs : List Frame} {i : Instr} {r : Res (End S)} : m.frames = f :: fs →
      (E.P.body f.func)[vm.pc]? = some i → failed (step E.H E.P (E.P.body f.func).length vm i) = some r →
      CEndL E ⟨m, vm⟩ r (vm.inst, m.world)
  | yield {m : Machine S} {vm vm' : VM} {f : Frame} {fs : List Frame} {i : Instr} {y : Yield} {r : Res (End S)} :
      m.frames = f :: fs → (E.P.body f.func)[vm.pc]? = some i →
      step E.H E.P (E.P.body f.func).length vm i = .ok (.yield y vm') →
      Round.ended (m.react E false f (.yield y ⟨vm', false, 0, m.looks⟩)) = some r →
      CEndL E ⟨m, vm⟩ r (m.reactLeft E f (.yield y ⟨vm', false, 0, m.looks⟩))
  | halt {m : Machine S} {vm : VM} {f : Frame} {fs : List Frame} {r : Res (End S)} :
      m.frames = f :: fs → (E.P.body f.func)[vm.pc]? = none → vm.labels.length ≤ 1 →
      Round.ended (m.react E false f (.halt ⟨vm, false, 0, m.looks⟩)) = some r →
      CEndL E ⟨m, vm⟩ r (vm.inst, m.world)

theorem CEndL.plain {S : Wasi} {E : Env} {c : Conf S} {r : Res (End S)} {l : Inst × S.W} (h : CEndL E c r l) : CEnd E c r := by
  cases h with
  | fail h1 h2 h3 => exact .fail h1 h2 h3
  | yield h1 h2 h3 h4 => exact .yield h1 h2 h3 h4
  | halt h1 h2 h3 h4 => exact .halt h1 h2 h3 h4

/-- continue after a dispatcher call with `k` rounds left -/
def afterL {S : Wasi} (E : Env) (N k : Nat) (m : Machine S) (f : Frame) : Option (Res Final × VM) → Option (Res (End S) × Inst × S.W)
  | none => none
  | some (.ok fin, _) =>
    match m.react E false f fin with
    | .ok (.running m') => m'.runLoopL E (loopDL E) false N k
    | x => (Round.ended x).map fun r => (r, m.reactLeft E f fin)
  | some (.trap e, vm) => some (.trap e, vm.inst, m.world)
  | some (.panic, vm) => some (.panic, vm.inst, m.world)
  | some (.ub, vm) => some (.ub, vm.inst, m.world)

/-- the rest of the run from the middle of a dispatcher call: `n` instructions left in this call -/
def midL {S : Wasi} (E : Env) (N n k : Nat) (c : Conf S) : Option (Res (End S) × Inst × S.W) :=
  match c.m.frames with
  | [] => none
  | f :: _ => afterL E N k c.m f (loopRunL E (E.P.body f.func) n c.dst)

theorem runLoopL_mid {S : Wasi} {E : Env} {N k : Nat} {m : Machine S} {f : Frame} {fs : List Frame} (ho : AllOff m)
    (hf : m.frames = f :: fs) : m.runLoopL E (loopDL E) false N (k + 1) = midL E N N k ⟨m, (m.enter f).vm⟩ := by
  simp only [Machine.runLoopL, Machine.roundL, hf, midL, loopDL]
  rw [← enter_off (ho f (by rw [hf]; simp))]
  cases loopRunL E (E.P.body f.func) N _ with
  | none => rfl
  | some x =>
    obtain ⟨r, vm⟩ := x
    cases r with
    | ok fin =>
      simp only [afterL]
      cases hr : m.react E false f fin with
      | ok x => cases x <;> rfl
      | trap e => rfl
      | panic => rfl
      | ub => rfl
    | trap e => rfl
    | panic => rfl
    | ub => rfl

theorem loopL_cont {E : Env} {code : List Instr} {n : Nat} {d : DState} {i : Instr} {vm' : VM} (he : d.enable = false)
    (hi : code[d.vm.pc]? = some i) (hs : step E.H E.P code.length d.vm i = .ok (.cont vm')) :
    loopRunL E code (n + 1) d = loopRunL E code n { d with vm := vm' } := by
  simp [loopRunL, poll, he, hi, hs]

theorem loopL_yield {E : Env} {code : List Instr} {n : Nat} {d : DState} {i : Instr} {y : Yield} {vm' : VM}
    (he : d.enable = false) (hi : code[d.vm.pc]? = some i)
    (hs : step E.H E.P code.length d.vm i = .ok (.yield y vm')) :
    loopRunL E code (n + 1) d = some (.ok (.yield y { d with vm := vm' }), vm') := by
  simp [loopRunL, poll, he, hi, hs]

theorem loopL_halt {E : Env} {code : List Instr} {n : Nat} {d : DState} (he : d.enable = false)
    (hi : code[d.vm.pc]? = none) (hl : d.vm.labels.length ≤ 1) :
    loopRunL E code (n + 1) d = some (.ok (.halt d), d.vm) := by
  match hls : d.vm.labels with
  | [] => simp [loopRunL, poll, he, hi, hls]
  | [a] => simp [loopRunL, poll, he, hi, hls]
  | a :: b :: t => rw [hls] at hl; simp at hl

/-- with enough fuel the run from here ends with `r` and leaves `l` -/
def EndsL {S : Wasi} (E : Env) (c : Conf S) (r : Res (End S)) (l : Inst × S.W) : Prop :=
  ∃ N0, ∀ N n k, N0 ≤ N → N0 ≤ n → N0 ≤ k → midL E N n k c = some (r, l)

theorem EndsL.here {S : Wasi} {E : Env} {c : Conf S} {r : Res (End S)} {l : Inst × S.W} (h : CEndL E c r l) : EndsL E c r l := by
  refine ⟨1, fun N n k _ hn _ => ?_⟩
  obtain ⟨n, rfl⟩ : ∃ n', n = n' + 1 := ⟨n - 1, by omega⟩
  cases h with
  | fail hf hi hs =>
    simp only [midL, hf, loopRunL, poll, Conf.dst, Bool.not_false, if_true, hi]
    cases hst : step E.H E.P (E.P.body _).length _ _ with
    | ok o => rw [hst] at hs; cases hs
    | trap e => rw [hst] at hs; cases hs; rfl
    | panic => rw [hst] at hs; cases hs; rfl
    | ub => rw [hst] at hs; cases hs; rfl
  | yield hf hi hs hr =>
    simp only [midL, hf]
    rw [loopL_yield (d := Conf.dst ⟨_, _⟩) rfl hi hs]
    simp only [afterL, Conf.dst]
    cases hx : Machine.react E false _ _ _ with
    | ok x => rw [hx] at hr; cases x <;> cases hr <;> rfl
    | trap e => rw [hx] at hr; cases hr; rfl
    | panic => rw [hx] at hr; cases hr; rfl
    | ub => rw [hx] at hr; cases hr; rfl
  | halt hf hi hl hr =>
    simp only [midL, hf]
    rw [loopL_halt (d := Conf.dst ⟨_, _⟩) rfl hi hl]
    simp only [afterL, Conf.dst]
    cases hx : Machine.react E false _ _ _ with
    | ok x => rw [hx] at hr; cases x <;> cases hr <;> rfl
    | trap e => rw [hx] at hr; cases hr; rfl
    | panic => rw [hx] at hr; cases hr; rfl
    | ub => rw [hx] at hr; cases hr; rfl

theorem EndsL.step {S : Wasi} {E : Env} {a b : Conf S} {r : Res (End S)} {l : Inst × S.W} (h : CStep E a b) (ho : AllOff a.m)
    (hb : EndsL E b r l) : EndsL E a r l := by
  obtain ⟨N0, hb⟩ := hb
  refine ⟨N0 + 1, fun N n k hN hn hk => ?_⟩
  obtain ⟨n, rfl⟩ : ∃ n', n = n' + 1 := ⟨n - 1, by omega⟩
  obtain ⟨k, rfl⟩ : ∃ k', k = k' + 1 := ⟨k - 1, by omega⟩
  cases h with
  | cont hf hi hs =>
    simp only [midL, hf]
    rw [loopL_cont (d := Conf.dst ⟨_, _⟩) rfl hi hs]
    have := hb N n (k + 1) (by omega) (by omega) (by omega)
    simp only [midL, hf] at this
    exact this
  | yield hf hi hs hr hf' =>
    simp only [midL, hf]
    rw [loopL_yield (d := Conf.dst ⟨_, _⟩) rfl hi hs]
    simp only [afterL, Conf.dst]
    rw [hr]
    simp only []
    rw [runLoopL_mid (react_off ho hf hr) hf']
    exact hb _ _ _ (by omega) (by omega) (by omega)
  | halt hf hi hl hr hf' =>
    simp only [midL, hf]
    rw [loopL_halt (d := Conf.dst ⟨_, _⟩) rfl hi hl]
    simp only [afterL, Conf.dst]
    rw [hr]
    simp only []
    rw [runLoopL_mid (react_off ho hf hr) hf']
    exact hb _ _ _ (by omega) (by omega) (by omega)

theorem EndsL.path {S : Wasi} {E : Env} {n : Nat} {a b : Conf S} {r : Res (End S)} {l : Inst × S.W} (h : CPath E n a b)
    (ho : AllOff a.m) (hb : EndsL E b r l) : EndsL E a r l := by
  induction h with
  | nil => exact hb
  | cons s _ ih => exact EndsL.step s ho (ih (s.off ho) hb)

/-- a run that reaches an end terminates so -/
theorem run_endsL {S : Wasi} {E : Env} {m : Machine S} {f : Frame} {fs : List Frame} {r : Res (End S)} {l : Inst × S.W}
    (ho : AllOff m) (hf : m.frames = f :: fs) (h : EndsL E ⟨m, (m.enter f).vm⟩ r l) :
    ∃ N0, ∀ N, N0 ≤ N → m.runLoopL E (loopDL E) false N N = some (r, l) := by
  obtain ⟨N0, h⟩ := h
  refine ⟨N0 + 1, fun N hN => ?_⟩
  obtain ⟨k, rfl⟩ : ∃ k', N = k' + 1 := ⟨N - 1, by omega⟩
  rw [runLoopL_mid ho hf]
  exact h _ _ _ (by omega) (by omega) (by omega)

end Verif.Model
