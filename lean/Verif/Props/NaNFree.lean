import Verif.Props.Platforms
import Verif.Props.Ieee
/-
C76: … and may do float arithmetic, as long as it makes no NaN.
-/
namespace Verif.Props
open Verif.Model Verif.Spec Verif.Lemmas

/-! ### An operation that does not deliver a NaN does not ask the machine -/

theorem arith_asks {f : Fmt} {nan : Nat} {op : FArith} {a b : Nat} :
    fArith f nan op a b = nan ∨ ∀ nan', fArith f nan' op a b = fArith f nan op a b := by
  unfold fArith
  split
  all_goals first | exact .inl rfl | exact .inr fun _ => rfl | (split <;> first | exact .inl rfl | exact .inr fun _ => rfl | (split <;> first | exact .inl rfl | exact .inr fun _ => rfl))

theorem rounded_asks {f : Fmt} {nan : Nat} {op : FRound} {a : Nat} :
    fRounded f nan op a = nan ∨ ∀ nan', fRounded f nan' op a = fRounded f nan op a := by
  unfold fRounded
  split
  all_goals first | exact .inl rfl | exact .inr fun _ => rfl | (split <;> first | exact .inl rfl | exact .inr fun _ => rfl | (split <;> first | exact .inl rfl | exact .inr fun _ => rfl))

theorem fromFloat_asks {f g : Fmt} {nan a : Nat} :
    fFromFloat f g nan a = nan ∨ ∀ nan', fFromFloat f g nan' a = fFromFloat f g nan a := by
  unfold fFromFloat
  split
  all_goals first | exact .inl rfl | exact .inr fun _ => rfl

theorem nan_back {z : Sz} {x : z.flt.Carrier} (h : z.fmt.val (z.flt.num x) = .nan) : IsNaN z.flt (z.ofNatF (z.flt.num x)) := by
  cases z
  · have e : Sz.ofNatF .s32 (Cls.num .f32 x) = x := BitVec.eq_of_toNat_eq (by
      show (BitVec.ofNat 32 (BitVec.toNat x)).toNat = _
      simp)
    show f32.val (Cls.num .f32 (Sz.ofNatF .s32 (Cls.num .f32 x))) = _
    rw [e]; exact h
  · have e : Sz.ofNatF .s64 (Cls.num .f64 x) = x := BitVec.eq_of_toNat_eq (by
      show (BitVec.ofNat 64 (BitVec.toNat x)).toNat = _
      simp)
    show f64.val (Cls.num .f64 (Sz.ofNatF .s64 (Cls.num .f64 x))) = _
    rw [e]; exact h

theorem un_calm {op : Op1} {H : FloatHost} {a : op.src.Carrier}
    (h : ∀ r, op.eval H a = .ok r → op.choosy = true → ¬ IsNaN op.dst r) (H' : FloatHost) : op.eval H a = op.eval H' a := by
  cases hc : op.choosy with
  | false => exact un_anywhere hc H H' a
  | true =>
    cases op <;> first | (cases hc; done) | skip
    case round z op =>
      rcases rounded_asks (f := z.fmt) (nan := z.flt.num (H.round z op a)) (op := op) (a := z.flt.num a) with e | e
      · refine (h _ rfl hc ?_).elim
        rw [e]
        exact nan_back (H.round_nan z op a)
      · simp only [Op1.eval]
        rw [← e (z.flt.num (H'.round z op a))]
    case demote =>
      rcases fromFloat_asks (f := f64) (g := f32) (nan := (H.demote a).toNat) (a := Cls.num .f64 a) with e | e
      · refine (h _ rfl hc ?_).elim
        rw [e]
        exact nan_back (z := .s32) (x := H.demote a) (H.demote_nan a)
      · simp only [Op1.eval]
        rw [← e (H'.demote a).toNat]
    case promote =>
      rcases fromFloat_asks (f := f32) (g := f64) (nan := (H.promote a).toNat) (a := Cls.num .f32 a) with e | e
      · refine (h _ rfl hc ?_).elim
        rw [e]
        exact nan_back (z := .s64) (x := H.promote a) (H.promote_nan a)
      · simp only [Op1.eval]
        rw [← e (H'.promote a).toNat]

theorem bin_calm {op : Op2} {H : FloatHost} {a b : op.src.Carrier}
    (h : ∀ r, op.eval H a b = .ok r → op.choosy = true → ¬ IsNaN op.dst r) (H' : FloatHost) : op.eval H a b = op.eval H' a b := by
  cases hc : op.choosy with
  | false => exact bin_anywhere hc H H' a b
  | true =>
    cases op <;> first | (cases hc; done) | skip
    case arith z op =>
      rcases arith_asks (f := z.fmt) (nan := z.flt.num (H.arith z op a b)) (op := op) (a := z.flt.num a) (b := z.flt.num b) with e | e
      · refine (h _ rfl hc ?_).elim
        rw [e]
        exact nan_back (H.arith_nan z op a b)
      · simp only [Op2.eval]
        rw [← e (z.flt.num (H'.arith z op a b))]

theorem step_calm {H : FloatHost} {s : VM} {i : Instr} (h : ¬ MakesNaN H s i) (H' : FloatHost) (P : Prog) (len : Nat) :
    step H P len s i = step H' P len s i := by
  cases i with
  | op1 op d x =>
    simp only [step]
    cases hr : s.read op.src x with
    | ok a =>
      have e := un_calm (op := op) (H := H) (a := a) (fun r hr' hc hn => h ⟨hc, a, r, hr, hr', hn⟩) H'
      show (op.eval H _ >>= _) = (op.eval H' _ >>= _)
      rw [e]
    | trap e => rfl
    | panic => rfl
    | ub => rfl
  | op2 op d x y =>
    simp only [step]
    cases hr : s.read op.src x with
    | ok a =>
      cases hr2 : s.read op.src y with
      | ok b =>
        have e := bin_calm (op := op) (H := H) (a := a) (b := b) (fun r hr' hc hn => h ⟨hc, a, b, r, hr, hr2, hr', hn⟩) H'
        show (op.eval H _ _ >>= _) = (op.eval H' _ _ >>= _)
        rw [e]
      | trap e => rfl
      | panic => rfl
      | ub => rfl
    | trap e => rfl
    | panic => rfl
    | ub => rfl
  | _ => rfl

/-! ### … in a run -/

/-- from here on, no NaN -/
def CalmFrom (E : Env) (code : List Instr) (s : VM) : Prop :=
  ∀ t i, PassesTo E.H E.P code s t → code[t.pc]? = some i → ¬ MakesNaN E.H t i

theorem CalmFrom.step {E : Env} {code : List Instr} {s u : VM} {i : Instr} (h : CalmFrom E code s) (hi : code[s.pc]? = some i)
    (hs : Model.step E.H E.P code.length s i = .ok (.cont u)) : CalmFrom E code u := fun t j hr => h t j (.step hi hs hr)

theorem loop_calm {E : Env} (H' : FloatHost) {code : List Instr} :
    ∀ (n : Nat) (d : DState), CalmFrom E code d.vm → loopRun E code n d = loopRun (onHost E H') code n d
  | 0, _, _ => rfl
  | n + 1, d, h => by
    have e : poll (onHost E H') d = poll E d := rfl
    simp only [loopRun, e]
    split
    · rfl
    · rename_i d' hd
      have h' : CalmFrom E code d'.vm := by
        have := poll_vm E d
        rw [hd] at this
        rw [this]; exact h
      cases hc : code[d'.vm.pc]? with
      | none =>
        simp only
        split
        · rename_i hl
          split
          · rfl
          · exact loop_calm H' n _ fun t j hr => h' t j (.leave hc hl rfl hr)
        · rfl
      | some i =>
        simp only
        have hs : step E.H E.P code.length d'.vm i = step (onHost E H').H (onHost E H').P code.length d'.vm i :=
          step_calm (h' _ _ .here hc) _ _ _
        rw [← hs]
        split
        · rename_i vm hv
          exact loop_calm H' n _ (h'.step hc hv)
        all_goals rfl

theorem chain_calm {E : Env} (H' : FloatHost) {code : List Instr} :
    ∀ (n : Nat) (d : DState), CalmFrom E code d.vm → tcoChain E code n d = tcoChain (onHost E H') code n d
  | 0, _, _ => rfl
  | n + 1, d, h => by
    simp only [tcoChain]
    cases hc : code[d.vm.pc]? with
    | none => rfl
    | some i =>
      simp only
      have hs : step E.H E.P code.length d.vm i = step (onHost E H').H (onHost E H').P code.length d.vm i :=
        step_calm (h _ _ .here hc) _ _ _
      rw [← hs]
      split
      · rename_i vm hv
        have e : poll (onHost E H') { d with vm := vm } = poll E { d with vm := vm } := rfl
        rw [e]
        split
        · rfl
        · rename_i d' hd
          refine chain_calm H' n _ ?_
          have := poll_vm E { d with vm := vm }
          rw [hd] at this
          rw [this]; exact h.step hc hv
      all_goals rfl

theorem build_calm {D : Env → Dispatcher} (hD : Build D) {E : Env} (H' : FloatHost) {code : List Instr} {n : Nat} {d : DState}
    (h : CalmFrom E code d.vm) : D E n code d = D (onHost E H') n code d := by
  cases hD
  · exact loop_calm H' n d h
  · have e : poll (onHost E H') d = poll E d := rfl
    simp only [tcoD, tcoRun, e]
    split
    · rfl
    · rename_i d' hd
      split
      · rfl
      · refine chain_calm H' n _ ?_
        have := poll_vm E d
        rw [hd] at this
        rw [this]; exact h

theorem runLoop_calm {S : Wasi} {D : Env → Dispatcher} (hD : Build D) {E : Env} (H' : FloatHost) (en : Bool) (n : Nat) :
    ∀ (k : Nat) (m : Machine S), m.NaNFreeIn E (D E) en n k → m.runLoop E (D E) en n k = m.runLoop (onHost E H') (D (onHost E H')) en n k
  | 0, _, _ => rfl
  | k + 1, m, h => by
    have e : m.round E (D E) en n = m.round (onHost E H') (D (onHost E H')) en n := by
      unfold Machine.round
      cases hf : m.frames with
      | nil => rfl
      | cons f fs =>
        simp only
        rw [build_calm hD H' (fun t i hr hi => h.1 f fs t i hf hr hi), react_anywhere]
        rfl
    simp only [Machine.runLoop]
    rw [← e]
    split
    · rfl
    · rename_i m' hm
      exact runLoop_calm hD H' en n k m' (h.2 m' hm)
    all_goals rfl

theorem process_calm {S : Wasi} {D : Env → Dispatcher} (hD : Build D) {E : Env} (H' : FloatHost) (lz : Lz) (en : Bool) (n : Nat)
    (old : Option (List Byte)) (io : Io) (m : Machine S)
    (h : ({ m with frames := setFirstEnable en m.frames } : Machine S).NaNFreeIn E (D E) en n n) :
    m.process lz E (D E) en n old io = m.process lz (onHost E H') (D (onHost E H')) en n old io := by
  have e : m.run E (D E) en n = m.run (onHost E H') (D (onHost E H')) en n := runLoop_calm hD H' en n n _ h
  unfold Machine.process
  rw [e]
  rfl

/-- A process that makes no NaN is the same on any other machine — of any module. -/
theorem nan_free_process {S : Wasi} {T : FloatText} {lz : Lz} {H : FloatHost} {p : Process} {file : WFile} {o : Options} {world : S.W}
    (h : p.NaNFree T lz H file o world) (H' : FloatHost) : p.run T lz H file o world = p.run T lz H' file o world := by
  unfold Process.run command
  cases hl : loadFile file with
  | ok L =>
    simp only
    cases ho : o.restore with
    | some saved =>
      simp only
      cases hr : restore lz L.prog L.inst saved with
      | mk x i =>
        cases x with
        | ok st =>
          exact process_calm p.built (E := envOf H p.atomics p.trig L.prog L.hasWasi) H' lz p.cr p.fuel p.old p.io _
            (h L _ (.resumed hl ho hr))
        | trap e => rfl
        | panic => rfl
        | ub => rfl
    | none =>
      simp only
      cases hf : L.exportFunc o.invoke with
      | ok f =>
        simp only
        cases hp : parseParams T o.params with
        | ok ps =>
          simp only
          cases hm : Machine.new (S := S) L.prog L.inst world f ps with
          | ok m =>
            exact process_calm p.built (E := envOf H p.atomics p.trig L.prog L.hasWasi) H' lz p.cr p.fuel p.old p.io _
              (h L _ (.fresh hl ho hf hp hm))
          | trap e => rfl
          | panic => rfl
          | ub => rfl
        | trap e => rfl
        | panic => rfl
        | ub => rfl
      | trap e => rfl
      | panic => rfl
      | ub => rfl
  | trap e => rfl
  | panic => rfl
  | ub => rfl

/-- So a session that goes from machine to machine and makes no NaN is one that stays where it is. -/
theorem nan_free_session {S : Wasi} {T : FloatText} {lz : Lz} {file : WFile} {o : Options} {world : S.W} {r : Res (Left S)}
    (hs : NaNFreeSession T lz file o world r) (H : FloatHost) : Session T lz H file o world r := by
  induction hs with
  | last H₀ p hp hn hr => exact .last p ((nan_free_process hn H).symm.trans hp) hr
  | move H₀ p hp hn hl hb hs hlen _ ih => exact .move p ((nan_free_process hn H).symm.trans hp) hl hb hs hlen ih

/-- **C76**, with float arithmetic: if the processes of a session that goes from machine to machine make no NaN, then a single
undisturbed process on any machine ends too and shows the same, and can show nothing else. -/
theorem moved_without_nan_partial {S : Wasi} (hS : WasiKeepsSize S) {T : FloatText} {lz : Lz} {A : SMod} {H : FloatHost}
    (h : A.WellFormed S H) {P : Prog} (hc : (A.source H).compile A.globalTypes = some P) (hm : Movable (A.source H))
    {o : Options} (ho : o.restore = none) {world : S.W} {r : Res (Left S)} (hs : NaNFreeSession T lz (some A.file) o world r)
    (q : Process) :
    (∃ fuel r', ({ q.undisturbed with fuel := fuel }).run T lz H (some A.file) o world = some r' ∧ seen r' = seen r) ∧
    (∀ fuel r', ({ q.undisturbed with fuel := fuel }).run T lz H (some A.file) o world = some r' → seen r' = seen r) :=
  session_transparent_partial hS h hc hm ho (nan_free_session hs H) q

end Verif.Props
