import Verif.Props.NaNFree
import Verif.Props.SessionEx
/-
C76: a session over three machines, and a program that does show where it runs.
-/
namespace Verif.Props
open Verif.Model Verif.Spec Verif.Lemmas

namespace PlatformsEx

/-- a machine whose NaNs are negative -/
def negative : FloatHost :=
  { arith := fun s _ _ _ => s.ofNatF (fNanConst s.fmt + 2 ^ (s.fmt.e + s.fmt.m)), round := fun s _ _ => s.ofNatF (fNanConst s.fmt + 2 ^ (s.fmt.e + s.fmt.m))
    demote := fun _ => BitVec.ofNat 32 (fNanConst Spec.f32 + 2 ^ 31), promote := fun _ => BitVec.ofNat 64 (fNanConst Spec.f64 + 2 ^ 63)
    arith_nan := fun s _ _ _ => by cases s <;> decide +kernel
    round_nan := fun s _ _ => by cases s <;> decide +kernel
    demote_nan := fun _ => by decide +kernel
    promote_nan := fun _ => by decide +kernel }

/-! ### A session that goes there and back -/

theorem neutral : Neutral SessionEx.B := by
  intro d hd
  simp only [SessionEx.B, List.mem_cons, List.not_mem_nil, or_false] at hd
  subst hd
  decide +kernel

/-- run on a machine, and restore -/
def after (H : FloatHost) (A : SMod) (p : Process) (o : Options) (w : Nat) : Option (Options × Nat) :=
  match p.run (S := SessionEx.wasi) SessionEx.text SessionEx.lz H (some A.file) o w with
  | some (.ok ⟨_, .checkpointed, some b, some (_, w')⟩) =>
    if b.length < 2 ^ 32 then some ({ o with restore := some (some b) }, w') else none
  | _ => none

/-- what the last process prints -/
def ends (H : FloatHost) (A : SMod) (p : Process) (o : Options) (w : Nat) : Option Report :=
  match p.run (S := SessionEx.wasi) SessionEx.text SessionEx.lz H (some A.file) o w with
  | some (.ok ⟨_, r, _, _⟩) => some r
  | _ => none

theorem after_inv {H : FloatHost} {A : SMod} {p : Process} {o : Options} {w : Nat} {x : Options × Nat} (h : after H A p o w = some x)
    {r : Res (Left SessionEx.wasi)}
    (next : MixedSession (S := SessionEx.wasi) SessionEx.text SessionEx.lz (some A.file) x.1 x.2 r) :
    MixedSession (S := SessionEx.wasi) SessionEx.text SessionEx.lz (some A.file) o w r := by
  unfold after at h
  split at h
  · rename_i st b i w' hr
    split at h
    · rename_i hlen
      cases h
      exact .move H p hr rfl rfl rfl hlen next
    · cases h
  · cases h

theorem ends_inv {H : FloatHost} {A : SMod} {p : Process} {o : Options} {w : Nat} {v : Option Val} (h : ends H A p o w = some (.result v)) :
    ∃ r s, MixedSession (S := SessionEx.wasi) SessionEx.text SessionEx.lz (some A.file) o w r ∧ seen r = .ok (.result v, s) := by
  unfold ends at h
  split at h
  · rename_i st rep c s hr
    cases h
    exact ⟨_, _, .last H p hr (fun l hl => by cases hl; exact ⟨nofun, nofun, nofun⟩), rfl⟩
  · cases h

/-- two checkpoints, then an end; every process on another machine than its predecessor -/
def whole : Option Report := do
  let (o, w) ← after Sample.host SessionEx.B (SessionEx.stopped 9) SessionEx.opts 0
  let (o, w) ← after negative SessionEx.B (SessionEx.stopped 7) o w
  ends Sample.host SessionEx.B SessionEx.calm o w

theorem session : ∃ r s, MixedSession (S := SessionEx.wasi) SessionEx.text SessionEx.lz (some SessionEx.B.file) SessionEx.opts (0 : Nat) r ∧
    seen r = .ok (.result (some (vi 11)), s) := by
  have h : whole = some (.result (some (vi 11))) := by decide +kernel
  unfold whole at h
  simp only [Option.bind_eq_bind, Option.bind_eq_some_iff, Prod.exists] at h
  obtain ⟨o1, w1, h1, o2, w2, h2, h3⟩ := h
  obtain ⟨r, s, k1, k2⟩ := ends_inv h3
  exact ⟨r, s, after_inv h1 (after_inv h2 k1), k2⟩

/-- So `moved_between_machines_partial` applies, and any undisturbed process on any machine prints 11. -/
example (q : Process) (H : FloatHost) : ∃ s fuel r', ({ q.undisturbed with fuel := fuel }).run (S := SessionEx.wasi) SessionEx.text
    SessionEx.lz H (some SessionEx.B.file) SessionEx.opts (0 : Nat) = some r' ∧ seen r' = .ok (.result (some (vi 11)), s) := by
  obtain ⟨P, hP⟩ := SessionEx.compiles
  obtain ⟨r, s, h1, h2⟩ := session
  obtain ⟨fuel, r', h3, h4⟩ := (moved_between_machines_partial SessionEx.keeps SessionEx.wellFormed hP SessionEx.movable neutral rfl h1 q H).1
  exact ⟨s, fuel, r', h3, h4.trans h2⟩

/-! ### NaNs give the machine away -/

/-- 0.0 -/
def zero : WOp := .const .f32 (0 : BitVec 32)
/-- the bits of 0.0 / 0.0 -/
def bits (k : WSeq) : WSeq := .op zero <| .op zero <| .op (.bin (.arith .s32 .div)) <| .op (.un (.reinterpIF .s32)) k

/-- compute 0.0 / 0.0 twice and compare the bits -/
def twice : WSeq := bits <| bits <| .op (.bin (.rel .s32 .eq)) .done

/-- the module -/
def N : SMod where
  types := [⟨[], [.i32]⟩]
  imports := []
  funcs := [⟨0, [], twice⟩]
  tables := []
  mems := []
  globals := []
  exports := [("run", .func 0)]
  start := none
  elems := []
  datas := []

/-- `--invoke run --cr` -/
def opts : Options := ⟨"n.wasm".toList, none, "run", [], none, true⟩

/-- started on one machine, stopped after the first half, continued on the other -/
def moved : Option Report := do
  let (o, w) ← after Sample.host N (SessionEx.stopped 2) opts 0
  ends negative N SessionEx.calm o w

theorem moved_shows : ∃ r s, MixedSession (S := SessionEx.wasi) SessionEx.text SessionEx.lz (some N.file) opts (0 : Nat) r ∧
    seen r = .ok (.result (some (vi 0)), s) := by
  have h : moved = some (.result (some (vi 0))) := by decide +kernel
  unfold moved at h
  simp only [Option.bind_eq_bind, Option.bind_eq_some_iff, Prod.exists] at h
  obtain ⟨o1, w1, h1, h3⟩ := h
  obtain ⟨r, s, k1, k2⟩ := ends_inv h3
  exact ⟨r, s, after_inv h1 k1, k2⟩

/-- **The full C76 is false of the code**: this program has the result 1 on the one machine and on the other, whoever runs it
undisturbed — and 0 when it is moved from the one to the other halfway.  (The NaN is saved with its bits, the second one is
computed by the other machine.) -/
theorem nan_moved_violated :
    ends Sample.host N SessionEx.calm opts 0 = some (.result (some (vi 1))) ∧
    ends negative N SessionEx.calm opts 0 = some (.result (some (vi 1))) ∧
    ∃ r s, MixedSession (S := SessionEx.wasi) SessionEx.text SessionEx.lz (some N.file) opts (0 : Nat) r ∧
      seen r = .ok (.result (some (vi 0)), s) :=
  ⟨by decide +kernel, by decide +kernel, moved_shows⟩

/-- this module is not neutral -/
example : ¬ Neutral N := by
  intro h
  have := h ⟨0, [], twice⟩ (by simp [N]) (.bin (.arith .s32 .div)) (by simp [twice, bits, WSeq.body, WSeq.flat, zero])
  revert this
  decide

/-! ### Float arithmetic without NaNs moves freely -/

/-- computes `MakesNaN` -/
def makesNaN (H : FloatHost) (s : VM) : Instr → Bool
  | .op1 op _ x =>
    match s.read op.src x with
    | .ok a => match op.eval H a with
      | .ok r => op.choosy && isNaN op.dst r
      | _ => false
    | _ => false
  | .op2 op _ x y =>
    match s.read op.src x, s.read op.src y with
    | .ok a, .ok b => match op.eval H a b with
      | .ok r => op.choosy && isNaN op.dst r
      | _ => false
    | _, _ => false
  | _ => false
where
  /-- computes `IsNaN` -/
  isNaN : (c : Cls) → c.Carrier → Bool
    | .f32, v => decide (f32.val (Cls.num .f32 v) = .nan)
    | .f64, v => decide (f64.val (Cls.num .f64 v) = .nan)
    | _, _ => false

theorem isNaN_of {c : Cls} {v : c.Carrier} (h : IsNaN c v) : makesNaN.isNaN c v = true := by
  cases c <;> first | exact decide_eq_true h | exact h.elim

theorem makesNaN_of {H : FloatHost} {s : VM} {i : Instr} (h : MakesNaN H s i) : makesNaN H s i = true := by
  cases i <;> first | exact h.elim | skip
  case op1 op d x =>
    obtain ⟨h1, a, r, h2, h3, h4⟩ := h
    simp [makesNaN, h1, h2, h3, isNaN_of h4]
  case op2 op d x y =>
    obtain ⟨h1, a, b, r, h2, h3, h4, h5⟩ := h
    simp [makesNaN, h1, h2, h3, h4, isNaN_of h5]

/-- no NaN from here to the end of the path, which takes at most so many steps -/
def calmPath (H : FloatHost) (P : Prog) (code : List Instr) : Nat → VM → Bool
  | 0, _ => false
  | n + 1, s =>
    match code[s.pc]? with
    | none => match s.labels with
      | [] => true
      | l :: ls => calmPath H P code n { s with labels := ls, pc := if l.isLoop then s.pc + 1 else l.returnIp }
    | some i => !makesNaN H s i && match step H P code.length s i with
      | .ok (.cont u) => calmPath H P code n u
      | _ => true

theorem calmPath_sound {H : FloatHost} {P : Prog} {code : List Instr} {s t : VM} (h : PassesTo H P code s t) :
    ∀ {n}, calmPath H P code n s = true → ∀ i, code[t.pc]? = some i → ¬ MakesNaN H t i := by
  induction h with
  | here =>
    intro n hn i hi hx
    cases n with
    | zero => cases hn
    | succ n =>
      simp only [calmPath, hi, makesNaN_of hx] at hn
      cases hn
  | step hi hs _ ih =>
    intro n hn
    cases n with
    | zero => cases hn
    | succ n =>
      simp only [calmPath, hi, hs, Bool.and_eq_true] at hn
      exact ih hn.2
  | leave hi hl hu _ ih =>
    intro n hn
    cases n with
    | zero => cases hn
    | succ n =>
      simp only [calmPath, hi, hl] at hn
      exact ih (hu ▸ hn)

/-- computes `NaNFreeIn` -/
def calmRounds {S : Wasi} (E : Env) (D : Dispatcher) (en : Bool) (fuel : Nat) : Nat → Machine S → Bool
  | 0, _ => true
  | k + 1, m =>
    (match m.frames with
      | [] => true
      | f :: _ => calmPath E.H E.P (E.P.body f.func) 100 (m.enter f).vm) &&
    match m.round E D en fuel with
    | some (.ok (.running m')) => calmRounds E D en fuel k m'
    | _ => true

theorem calmRounds_sound {S : Wasi} {E : Env} {D : Dispatcher} {en : Bool} {fuel : Nat} : ∀ {k : Nat} {m : Machine S},
    calmRounds E D en fuel k m = true → m.NaNFreeIn E D en fuel k
  | 0, _, _ => trivial
  | k + 1, m, h => by
    simp only [calmRounds, Bool.and_eq_true] at h
    refine ⟨fun f fs t i hf hp hi => ?_, fun m' hm => ?_⟩
    · rw [hf] at h
      exact calmPath_sound hp h.1 i hi
    · rw [hm] at h
      exact calmRounds_sound h.2

/-- computes `NaNFree` -/
def calmProcess (H : FloatHost) (p : Process) (A : SMod) (o : Options) (w : Nat) : Bool :=
  match loadFile (some A.file) with
  | .ok L =>
    let ok (m : Machine SessionEx.wasi) := calmRounds (envOf H p.atomics p.trig L.prog L.hasWasi)
      (p.D (envOf H p.atomics p.trig L.prog L.hasWasi)) p.cr p.fuel p.fuel { m with frames := setFirstEnable p.cr m.frames }
    match o.restore with
    | some saved => match restore SessionEx.lz L.prog L.inst saved with
      | (.ok st, i) => ok (st.resume i w)
      | _ => true
    | none => match L.exportFunc o.invoke, parseParams SessionEx.text o.params with
      | .ok f, .ok ps => match Machine.new (S := SessionEx.wasi) L.prog L.inst w f ps with
        | .ok m => ok m
        | _ => true
      | _, _ => true
  | _ => true

theorem calmProcess_sound {H : FloatHost} {p : Process} {A : SMod} {o : Options} {w : Nat} (h : calmProcess H p A o w = true) :
    p.NaNFree (S := SessionEx.wasi) SessionEx.text SessionEx.lz H (some A.file) o w := by
  intro L m hb
  unfold calmProcess at h
  cases hb with
  | fresh hL ho hf hp hm =>
    simp only [hL, ho, hf, hp, hm] at h
    exact calmRounds_sound h
  | resumed hL ho hr =>
    simp only [hL, ho, hr] at h
    exact calmRounds_sound h

/-- 1.5 + 2.25, times itself, and down to an integer: 14 -/
def squares : WSeq :=
  .op (.const .f64 (0x3FF8000000000000 : BitVec 64)) <| .op (.const .f64 (0x4002000000000000 : BitVec 64)) <|
  .op (.bin (.arith .s64 .add)) <| .op (.localTee 0) <| .op (.localGet 0) <| .op (.bin (.arith .s64 .mul)) <|
  .op (.un (.trunc .i32_f64_s)) .done

/-- the module -/
def F : SMod where
  types := [⟨[], [.i32]⟩]
  imports := []
  funcs := [⟨0, [(1, .f64)], squares⟩]
  tables := []
  mems := []
  globals := []
  exports := [("run", .func 0)]
  start := none
  elems := []
  datas := []

theorem fmem {t : FuncType} {ls : List (Nat × Cls)} {b : WSeq} (h : SFunc.wasm t ls b ∈ (F.source Sample.host).funcs) :
    t = ⟨[], [.i32]⟩ ∧ ls = [(1, .f64)] ∧ b = squares := by
  simp only [SMod.source, F, SMod.type, List.map_nil, List.map_cons, List.nil_append, List.mem_cons, SFunc.wasm.injEq, List.not_mem_nil, or_false] at h
  exact h

/-- what the preprocessor knows -/
def finfo : MInfo := (F.source Sample.host).info F.globalTypes

/-- registers the function uses -/
def fsizes : Bool :=
  match compileFn (fnCtx finfo ⟨[], [.i32]⟩ [(1, .f64)]) squares.body with
  | some ⟨_, _, some W⟩ => [Cls.i32, .i64, .f32, .f64, .ref, .v128].all fun c => decide (W c ≤ 65536)
  | _ => true

theorem fsizes_ok : ∀ code W, compileFn (fnCtx finfo ⟨[], [.i32]⟩ [(1, .f64)]) squares.body = some code → code.alloc = some W → ∀ c, W c ≤ 65536 := by
  have h : fsizes = true := by decide +kernel
  intro code W hc hW c
  obtain ⟨l, bd, al⟩ := code
  simp only at hW
  subst hW
  simp only [fsizes, hc, List.all_eq_true, decide_eq_true_eq] at h
  exact h c (by cases c <;> decide)

theorem fwasi {t : FuncType} {id : Nat} (h : SFunc.wasi t id ∈ (F.source Sample.host).funcs) : False := by
  simp [SMod.source, F] at h

theorem faccepted : Accepted SessionEx.wasi (F.source Sample.host) F.globalTypes := by
  refine ⟨fun t ls b h => ?_, fun t ls b h => ?_, fun t id h => (fwasi h).elim, fun t id h => (fwasi h).elim⟩
  · obtain ⟨rfl, rfl, rfl⟩ := fmem h
    exact ⟨⟨by simp [squares, WSeq.Proper, isBracket], some [.i32], by decide +kernel, by decide⟩, by decide +kernel, by decide +kernel, by decide +kernel⟩
  · obtain ⟨rfl, rfl, rfl⟩ := fmem h
    exact ⟨by decide, by simp, fsizes_ok⟩

theorem fwell : F.WellFormed SessionEx.wasi Sample.host where
  imports := by intro i hi; cases hi
  tables := by intro l hl; cases hl
  mems := by intro l hl; cases hl
  decls :=
    { imports := by intro i hi; cases hi
      types := by
        intro f hf
        simp only [SMod.decls, F, List.map_cons, List.map_nil, List.mem_cons, List.not_mem_nil, or_false] at hf
        subst hf; show 0 < 1; decide
      mems := by intro p hp; cases hp
      globals := by intro i m c e h; cases (show ([] : List (Bool × Cls × CExpr))[i]? = some (m, c, e) from h)
      elems := by intro e he; cases he
      datas := by intro d hd; cases hd
      exports := by
        intro e he
        simp only [SMod.decls, F, List.mem_cons, List.not_mem_nil, or_false] at he
        subst he; decide
      start := by simp [SMod.decls, F] }
  globals := by intro i m c e h; cases (show ([] : List (Bool × Cls × CExpr))[i]? = some (m, c, e) from h)
  exports := by simp [F]
  dataLen := by intro d hd; cases hd
  accepted := faccepted

theorem fcompiles : ∃ P, (F.source Sample.host).compile F.globalTypes = some P := by
  have : ((F.source Sample.host).compile F.globalTypes).isSome = true := by decide +kernel
  exact Option.isSome_iff_exists.mp this

theorem fmovable : Movable (F.source Sample.host) where
  saved t ls b h := by
    obtain ⟨rfl, rfl, rfl⟩ := fmem h
    decide +kernel
  bodies t ls b h := by
    obtain ⟨rfl, rfl, rfl⟩ := fmem h
    decide +kernel
  funcs := by show 1 ≤ _; decide
  results t ls b h := by
    obtain ⟨rfl, rfl, rfl⟩ := fmem h
    decide

/-- started on one machine, stopped after the addition, ended on the other -/
def squared : Option Report := do
  let (o, w) ← after Sample.host F (SessionEx.stopped 1) opts 0
  if calmProcess Sample.host (SessionEx.stopped 1) F opts 0 && calmProcess negative SessionEx.calm F o w then
    ends negative F SessionEx.calm o w
  else none

theorem squared_session : ∃ r s, NaNFreeSession (S := SessionEx.wasi) SessionEx.text SessionEx.lz (some F.file) opts (0 : Nat) r ∧
    seen r = .ok (.result (some (vi 14)), s) := by
  have h : squared = some (.result (some (vi 14))) := by decide +kernel
  unfold squared at h
  simp only [Option.bind_eq_bind, Option.bind_eq_some_iff, Prod.exists] at h
  obtain ⟨o1, w1, h1, h3⟩ := h
  split at h3
  · rename_i hc
    rw [Bool.and_eq_true] at hc
    have hn1 := calmProcess_sound hc.1
    have hn2 := calmProcess_sound hc.2
    unfold after at h1
    split at h1
    · rename_i st b i w' hr
      split at h1
      · rename_i hlen
        cases h1
        unfold ends at h3
        split at h3
        · rename_i st2 rep c s hr2
          cases h3
          exact ⟨_, _, .move Sample.host _ hr hn1 rfl rfl rfl hlen
            (.last negative _ hr2 hn2 (fun l hl => by cases hl; exact ⟨nofun, nofun, nofun⟩)), rfl⟩
        · cases h3
      · cases h1
    · cases h1
  · cases h3

/-- So `moved_without_nan_partial` applies. -/
example (q : Process) : ∃ s fuel r', ({ q.undisturbed with fuel := fuel }).run (S := SessionEx.wasi) SessionEx.text
    SessionEx.lz Sample.host (some F.file) opts (0 : Nat) = some r' ∧ seen r' = .ok (.result (some (vi 14)), s) := by
  obtain ⟨P, hP⟩ := fcompiles
  obtain ⟨r, s, h1, h2⟩ := squared_session
  obtain ⟨fuel, r', h3, h4⟩ := (moved_without_nan_partial SessionEx.keeps fwell hP fmovable rfl h1 q).1
  exact ⟨s, fuel, r', h3, h4.trans h2⟩

end PlatformsEx
end Verif.Props
