import Verif.Lemmas.DeadRun
import Verif.Props.Sample
/-
C24: unreachable code has no effect.
-/
namespace Verif.Props
open Verif.Model Verif.Lemmas Verif.Spec

/-- what can be seen of the end of a call: the values, or that a checkpoint was taken; and in both cases the registers, the
instance (memory, globals, tables, …), the outside world and the number of looks at the trigger -/
inductive Seen (S : Wasi)
  | values (vs : List Val) (rf : RegFile) (inst : Inst) (world : S.W) (looks : Nat)
  | ckpt (rf : RegFile) (inst : Inst) (world : S.W) (looks : Nat)

/-- what can be seen of the end of a run -/
def _root_.Verif.Model.End.seen {S : Wasi} : End S → Seen S
  | .done vs m => .values vs m.rf m.inst m.world m.looks
  | .ckpt m => .ckpt m.rf m.inst m.world m.looks

/-- start function `f` and run it for at most `n` steps: `none` if it is still running -/
def callSeen {S : Wasi} (E : Env) (D : Dispatcher) (en : Bool) (n : Nat) (inst : Inst) (w : S.W) (f : Nat) (params : List Val) :
    Option (Res (Seen S)) :=
  match Machine.new (S := S) E.P inst w f params with
  | .ok m => (m.run E D en n).map (Res.rmap End.seen)
  | .trap e => some (.trap e)
  | .panic => some .panic
  | .ub => some .ub

theorem seen_ren {S : Wasi} (F : Nat → Nat → Nat) (e : End S) : (e.ren F).seen = e.seen := by cases e <;> rfl

theorem rmap_seen_ren {S : Wasi} (F : Nat → Nat → Nat) (r : Res (End S)) : (r.rmap (End.ren F)).rmap End.seen = r.rmap End.seen := by
  cases r with
  | ok e => exact congrArg Res.ok (seen_ren F e)
  | _ => rfl

theorem callSeen_moves {S : Wasi} {E E' : Env} (hH : E'.H = E.H) (ha : E'.atomics = E.atomics) (hw : E'.hasWasi = E.hasWasi)
    (ht : E'.trig = E.trig) {F : Nat → Nat → Nat} (h : ProgMoves F E.P E'.P) (hM : MadeP E.P) {D D' : Dispatcher} (hD : Pair E E' D D')
    (hD1 : Pair E E D D) (en : Bool) (n : Nat) (inst : Inst) (w : S.W) (f : Nat) (params : List Val) :
    callSeen E' D' en n inst w f params = callSeen E D en n inst w f params := by
  unfold callSeen
  rw [new_ren h]
  cases hm : Machine.new (S := S) E.P inst w f params with
  | ok m =>
    simp only [Res.rmap]
    rw [run_ren hD hD1 ⟨hH, ha, hw, ht, h.sig⟩ h hM en n m (new_live hM hm)]
    cases m.run E D en n with
    | none => rfl
    | some r => exact congrArg some (rmap_seen_ren F r)
  | _ => rfl

/-- the program with function `g` replaced -/
def _root_.Verif.Model.Prog.setFn (P : Prog) (g : Nat) (t : FuncType) (c : Code) : Prog := { P with funcs := P.funcs.set g (.runtime t c) }

theorem Preprocessed.setFn {P : Prog} (h : Preprocessed P) {g : Nat} {t : FuncType} {c : Code} {K : FnCtx} {ops : List WOp}
    (hc : compileFn K ops = some c) : Preprocessed (P.setFn g t c) := by
  intro f t' c' hf
  simp only [Prog.setFn, List.getElem?_set] at hf
  split at hf
  · split at hf
    · cases hf; exact ⟨K, ops, hc⟩
    · cases hf
  · exact h f t' c' hf

/-- the renaming that moves function `g` only -/
def only (g : Nat) (f : Nat → Nat) : Nat → Nat → Nat := fun k => if k = g then f else id

theorem progMoves_set {P : Prog} {g : Nat} {t : FuncType} {c c' : Code} (hg : P.funcs[g]? = some (.runtime t c)) {f : Nat → Nat}
    (hl : c'.locals = c.locals) (ha : c'.alloc = c.alloc) (hb : Moves f c.body c'.body) :
    ProgMoves (only g f) P (P.setFn g t c') where
  types := rfl
  zero k := by unfold only; split; exact hb.zero; rfl
  there k x hx := by
    have hlt := (List.getElem?_eq_some_iff.1 hg).1
    by_cases hk : g = k
    · subst hk
      rw [hg] at hx; cases hx
      refine ⟨.runtime t c', by simp [Prog.setFn, List.getElem?_set, hlt], ?_⟩
      rw [show only g f g = f by simp [only]]
      exact .runtime hl ha hb
    · refine ⟨x, by simp [Prog.setFn, List.getElem?_set, hk, hx], ?_⟩
      rw [show only g f k = id by simp [only, Ne.symm hk]]
      cases x with
      | runtime t0 c0 => exact .runtime rfl rfl (Moves.id _)
      | wasi => exact .wasi
  absent k hk := by
    have h1 := List.getElem?_eq_none_iff.1 hk
    simp only [Prog.setFn]
    rw [List.getElem?_eq_none_iff]
    simpa using h1

/-- **C24**, compilation: code behind an unconditional branch, `return` or `unreachable` — any properly bracketed sequence
`w`, however long, whatever operators it consists of — decides neither whether the function is accepted, nor its locals, nor
its registers, nor any of its instructions: two such sequences lead to the same instructions around one run of `nop`s whose
length is the number of operators of the sequence, with jump targets behind it moved by that number. -/
theorem dead_code_compiles (K : FnCtx) (pre suf : List WOp) {t : WOp} (ht : isTerm t = true) :
    ∃ p, 0 < p ∧ ∀ w : WSeq, w.Proper →
      compileFn K (pre ++ t :: (w.flat ++ suf)) =
        (compileFn K (pre ++ t :: suf)).map fun c => { c with body := insC p w.flat.length c.body } := by
  obtain ⟨p, hp, h⟩ := compile_dead (K := K) (pre := pre) (suf := suf) ht
  exact ⟨p, hp, fun w hw => (h w hw).1⟩

/-- acceptance does not depend on the unreachable part -/
theorem dead_code_accepted (K : FnCtx) (pre suf : List WOp) {t : WOp} (ht : isTerm t = true) {w w' : WSeq} (hw : w.Proper)
    (hw' : w'.Proper) : (compileFn K (pre ++ t :: (w.flat ++ suf))).isSome = (compileFn K (pre ++ t :: (w'.flat ++ suf))).isSome := by
  obtain ⟨p, _, h⟩ := dead_code_compiles K pre suf ht
  rw [h w hw, h w' hw', Option.isSome_map, Option.isSome_map]

/-- adding unreachable code where there was none -/
theorem dead_code_added {K : FnCtx} {pre suf : List WOp} {t : WOp} (ht : isTerm t = true) {w : WSeq} (hw : w.Proper) {c0 c : Code}
    (h0 : compileFn K (pre ++ t :: suf) = some c0) (h1 : compileFn K (pre ++ t :: (w.flat ++ suf)) = some c)
    {E E' : Env} (hp : Preprocessed E.P) {g : Nat} {ty : FuncType} (hg : E.P.funcs[g]? = some (.runtime ty c0))
    (hE : E' = { E with P := E.P.setFn g ty c }) {D D' : Dispatcher} (hD : Pair E E' D D') {S : Wasi}
    (en : Bool) (n : Nat) (inst : Inst) (world : S.W) (f : Nat) (params : List Val) :
    callSeen E' D' en n inst world f params = callSeen E D en n inst world f params := by
  obtain ⟨p, h2, h3⟩ := compile_dead (K := K) (pre := pre) (suf := suf) ht
  obtain ⟨h4, h5⟩ := h3 w hw
  have hlen := h5 c0 h0
  have hnf := compile_noFall h1
  rw [h4, h0] at h1
  simp only [Option.map_some, Option.some.injEq] at h1
  subst h1
  have hpm := progMoves_set (c' := { c0 with body := insC p w.flat.length c0.body }) hg rfl rfl (Moves.insC h2 hlen hnf)
  have hD1 : Pair E E D D := by cases hD; exact .loop; exact .tco
  subst hE
  exact callSeen_moves (E := E) (E' := { E with P := E.P.setFn g ty { c0 with body := insC p w.flat.length c0.body } })
    rfl rfl rfl rfl hpm (made_of hp) hD hD1 en n inst world f params

/-- **C24**: let two programs differ only in one function, and there only in the code behind an unconditional branch,
`return` or `unreachable`, up to the matching `end` or `else` (`w` in one, `w'` in the other — any properly bracketed
sequences, of any lengths, well-typed or not).  Then calling any function of either with any parameters in any instance and
world, with either dispatcher, with checkpointing enabled or not and with any schedule of checkpoint triggers shows the
same after the same number of steps: the same values, failure, checkpoint, instance, outside world — or that it still
runs. -/
theorem dead_code_no_effect {K : FnCtx} {pre suf : List WOp} {t : WOp} (ht : isTerm t = true) {w w' : WSeq} (hw : w.Proper)
    (hw' : w'.Proper) {c c' : Code} (h1 : compileFn K (pre ++ t :: (w.flat ++ suf)) = some c)
    (h2 : compileFn K (pre ++ t :: (w'.flat ++ suf)) = some c') {E E' : Env} (hp : Preprocessed E.P) {g : Nat} {ty : FuncType}
    (hg : E.P.funcs[g]? = some (.runtime ty c)) (hE : E' = { E with P := E.P.setFn g ty c' }) {S : Wasi}
    (en : Bool) (n : Nat) (inst : Inst) (world : S.W) (f : Nat) (params : List Val) :
    callSeen E' (loopD E') en n inst world f params = callSeen E (loopD E) en n inst world f params ∧
    callSeen E' (tcoD E') en n inst world f params = callSeen E (tcoD E) en n inst world f params := by
  have hlt := (List.getElem?_eq_some_iff.1 hg).1
  -- the function without any unreachable code there
  obtain ⟨c0, h0⟩ : ∃ c0, compileFn K (pre ++ t :: suf) = some c0 := by
    obtain ⟨p, _, h⟩ := dead_code_compiles K pre suf ht
    rw [h w hw] at h1
    cases hc : compileFn K (pre ++ t :: suf) with
    | none => rw [hc] at h1; cases h1
    | some c0 => exact ⟨c0, rfl⟩
  have key : ∀ {D0 D D' : Dispatcher} (E0 : Env), E0 = { E with P := E.P.setFn g ty c0 } → Pair E0 E D0 D → Pair E0 E' D0 D' →
      callSeen E' D' en n inst world f params = callSeen E D en n inst world f params := by
    intro D0 D D' E0 h3 hD hD'
    have hp0 : Preprocessed E0.P := by rw [h3]; exact hp.setFn h0
    have hg0 : E0.P.funcs[g]? = some (.runtime ty c0) := by rw [h3]; simp [Prog.setFn, hlt]
    have hEE : E = { E0 with P := E0.P.setFn g ty c } := by
      rw [h3]
      obtain ⟨H, P, at', hw0, tr⟩ := E
      obtain ⟨types, funcs⟩ := P
      simp only [Prog.setFn, List.set_set, Env.mk.injEq, Prog.mk.injEq, true_and, and_true]
      refine List.ext_getElem? fun k => ?_
      rw [List.getElem?_set]
      split
      · rename_i hk
        subst hk
        exact hg
      · rfl
    have hEE' : E' = { E0 with P := E0.P.setFn g ty c' } := by
      rw [h3, hE]
      simp only [Prog.setFn, List.set_set]
    rw [dead_code_added ht hw h0 h1 hp0 hg0 hEE hD, dead_code_added ht hw' h0 h2 hp0 hg0 hEE' hD']
  exact ⟨key { E with P := E.P.setFn g ty c0 } rfl .loop .loop, key { E with P := E.P.setFn g ty c0 } rfl .tco .tco⟩

/-- **C24**, from inside: in every run of a preprocessed program — in the middle of any dispatcher call, in every suspended
caller, also after a restore — the place that is executed next is never one of unreachable code (a `nop`: the preprocessor
emits it for nothing else). -/
theorem dead_code_never_executed {S : Wasi} {E : Env} (hp : Preprocessed E.P) {m : Machine S} (hm : Met E m) {f : Frame}
    (hf : f ∈ m.frames) : (E.P.body f.func)[f.at]? ≠ some .nop ∧
      ∀ d, Reaches E (E.P.body f.func) (m.enter f) d → (E.P.body f.func)[d.vm.pc]? ≠ some .nop := by
  have h := met_live (made_of hp) hm f hf
  refine ⟨h.alive, fun d hd => ?_⟩
  suffices StandsAt (E.P.body f.func) d.vm from this.alive
  have h0 := h.enter m
  revert h0
  generalize m.enter f = d0 at hd
  intro h0
  induction hd with
  | refl => exact h0
  | step hp' hi hs _ ih =>
    apply ih
    have hvm := poll_vm' hp'
    rw [← hvm] at h0
    exact h0.step (made_of hp f.func) hi hs

/-! ## a case -/

/-- `block; br 0; <dead>; end; i32.const 7; end` with nothing unreachable, and with two unreachable parts: a loop that would
trap, and operators that do not even type-check -/
def deadPre : List WOp := [.block .empty]
def deadSuf : List WOp := [.fin, .const .i32 7#32, .fin]
def deadW : WSeq := .loop .empty (.op .unreachable .done) (.op (.const .i32 3#32) .done)
def deadW' : WSeq := .op (.const .i64 5#64) (.op .drop (.op .drop (.op (.br 9) .done)))
def deadCtx : FnCtx := ⟨⟨[], [], []⟩, [], [], [.i32]⟩

def deadBody (w : WSeq) : Option (List Instr) := (compileFn deadCtx (deadPre ++ .br 0 :: (w.flat ++ deadSuf))).map (·.body)

theorem deadW_body : deadBody deadW = some
    [.block false, .br 0 7 [] [], .nop, .nop, .nop, .nop, .fin [] [], .op1 (.mov .i32) (.reg 0) (.const 7#32), .fin [⟨.i32, 0⟩] []] := rfl

theorem deadW'_body : deadBody deadW' = some
    [.block false, .br 0 7 [] [], .nop, .nop, .nop, .nop, .fin [] [], .op1 (.mov .i32) (.reg 0) (.const 7#32), .fin [⟨.i32, 0⟩] []] := rfl

theorem dead0_body : deadBody .done = some
    [.block false, .br 0 3 [] [], .fin [] [], .op1 (.mov .i32) (.reg 0) (.const 7#32), .fin [⟨.i32, 0⟩] []] := rfl

example : deadW.Proper ∧ deadW'.Proper ∧ isTerm (.br 0) = true := ⟨⟨⟨rfl, trivial⟩, rfl, trivial⟩, ⟨rfl, rfl, rfl, rfl, trivial⟩, rfl⟩

/-- the two functions, and a run of each: the value 7 -/
def deadCode (w : WSeq) : Code := (compileFn deadCtx (deadPre ++ .br 0 :: (w.flat ++ deadSuf))).getD ⟨[], [], none⟩
def deadProg (w : WSeq) : Prog := ⟨[], [.runtime ⟨[], [.i32]⟩ (deadCode w)]⟩

def isSeven {S : Wasi} : Option (Res (Seen S)) → Bool
  | some (.ok (.values [v] _ _ _ _)) => decide (v = ⟨.i32, 7#32⟩)
  | _ => false

example : Preprocessed (deadProg deadW) ∧
    isSeven (callSeen (S := ⟨Unit, fun _ _ _ _ => .panic⟩) ⟨Sample.host, deadProg deadW, false, false, fun _ => false⟩
      (loopD ⟨Sample.host, deadProg deadW, false, false, fun _ => false⟩) true 20 ⟨none, 0, [], [], []⟩ () 0 []) = true := by
  refine ⟨?_, by decide +kernel⟩
  intro f t code hf
  match f, hf with
  | 0, hf => cases hf; exact ⟨deadCtx, _, show compileFn deadCtx (deadPre ++ .br 0 :: (deadW.flat ++ deadSuf)) = some (deadCode deadW) from rfl⟩

end Verif.Props
