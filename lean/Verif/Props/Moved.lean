import Verif.Spec.Moved
import Verif.Props.SessionEx
/-
C62: what a process leaves behind (descriptors) is not part of a checkpoint.
-/
namespace Verif.Props
open Verif.Model Verif.Spec Verif.Lemmas

/-- the same machine in another world -/
def inWorld {S : Wasi} (m : Machine S) (w : S.W) : Machine S := { m with world := w }

/-- the same machine, but for related worlds -/
def LikeM {S : Wasi} (R : S.W → S.W → Prop) (m m' : Machine S) : Prop := m' = inWorld m m'.world ∧ R m.world m'.world

theorem LikeM.mk' {S : Wasi} {R : S.W → S.W → Prop} {m : Machine S} {w : S.W} (h : R m.world w) : LikeM R m (inWorld m w) := ⟨rfl, h⟩

/-- the same round, but for related worlds -/
def LikeRound {S : Wasi} (R : S.W → S.W → Prop) : Round S → Round S → Prop
  | .running m, .running m' => LikeM R m m'
  | .done vs m, .done vs' m' => vs = vs' ∧ LikeM R m m'
  | .ckpt m, .ckpt m' => LikeM R m m'
  | _, _ => False

/-- the same end -/
def LikeEnd {S : Wasi} (R : S.W → S.W → Prop) : End S → End S → Prop
  | .done vs m, .done vs' m' => vs = vs' ∧ LikeM R m m'
  | .ckpt m, .ckpt m' => LikeM R m m'
  | _, _ => False

/-- the same, as long as it takes -/
def LikeOpt {α : Type} (Q : α → α → Prop) : Option (Res α) → Option (Res α) → Prop
  | none, none => True
  | some a, some b => Alike Q a b
  | _, _ => False

theorem Alike.bind {α β : Type} {Q : β → β → Prop} (x : Res α) {f g : α → Res β} (h : ∀ a, x = .ok a → Alike Q (f a) (g a)) :
    Alike Q (x >>= f) (x >>= g) := by
  cases x with
  | ok a => exact h a rfl
  | trap e => exact rfl
  | panic => trivial
  | ub => trivial

theorem return_alike {S : Wasi} {R : S.W → S.W → Prop} (m : Machine S) {w : S.W} (h : R m.world w) :
    Alike (LikeRound R) m.doReturn (inWorld m w).doReturn := by
  obtain ⟨rf, frames, inst, world, looks⟩ := m
  cases frames with
  | nil => trivial
  | cons f rest =>
    cases rest with
    | nil => exact Alike.bind _ fun vs _ => ⟨rfl, rfl, h⟩
    | cons c rest' => exact Alike.bind _ fun vs _ => Alike.bind _ fun rf _ => ⟨rfl, h⟩

theorem invoke_alike {S : Wasi} {R : S.W → S.W → Prop} {P : Prog} {en : Bool} (m : Machine S) {w : S.W} (h : R m.world w) (g : Nat)
    (ps : List Val) (rs : List Reg) : Alike (LikeRound R) (m.doInvoke P en g ps rs) ((inWorld m w).doInvoke P en g ps rs) := by
  unfold Machine.doInvoke
  split
  · exact Alike.bind _ fun ls _ => ⟨rfl, h⟩
  · rfl
  · trivial

theorem wasi_alike {S : Wasi} {fresh : S.W → S.W} {R : S.W → S.W → Prop} (u : Unaware S fresh R) {hasWasi : Bool} (m : Machine S) {w : S.W}
    (h : R m.world w) (id : Nat) (ps : List Val) (r : Option Reg) :
    Alike (LikeRound R) (m.doWasi hasWasi id ps r) ((inWorld m w).doWasi hasWasi id ps r) := by
  obtain ⟨rf, frames, inst, world, looks⟩ := m
  unfold Machine.doWasi
  simp only [inWorld]
  cases hasWasi with
  | false => rfl
  | true =>
    cases inst.mem with
    | none => rfl
    | some mem =>
      simp only
      have hc := u.call id ps mem world w h
      cases h1 : S.call id ps mem world with
      | ok x =>
        cases h2 : S.call id ps mem w with
        | ok y =>
          rw [h1, h2] at hc
          obtain ⟨x1, x2, x3⟩ := x
          obtain ⟨y1, y2, y3⟩ := y
          obtain ⟨e1, e2, e3⟩ := hc
          simp only at e1 e2 e3
          subst e1 e2
          simp only [Res.bind_ok]
          cases x1 with
          | none => rfl
          | some res =>
            cases r with
            | none => exact ⟨rfl, e3⟩
            | some reg =>
              cases res with
              | none => exact ⟨rfl, e3⟩
              | some v => exact Alike.bind _ fun rf _ => ⟨rfl, e3⟩
        | trap e => rw [h1, h2] at hc; exact hc.elim
        | panic => rw [h1, h2] at hc; exact hc.elim
        | ub => rw [h1, h2] at hc; exact hc.elim
      | trap e =>
        cases h2 : S.call id ps mem w with
        | trap e' => rw [h1, h2] at hc; exact hc
        | _ => rw [h1, h2] at hc; exact hc.elim
      | panic =>
        cases h2 : S.call id ps mem w with
        | panic => trivial
        | _ => rw [h1, h2] at hc; exact hc.elim
      | ub =>
        cases h2 : S.call id ps mem w with
        | ub => trivial
        | _ => rw [h1, h2] at hc; exact hc.elim

theorem round_alike {S : Wasi} {fresh : S.W → S.W} {R : S.W → S.W → Prop} (u : Unaware S fresh R) {E : Env} {D : Dispatcher} {en : Bool} {n : Nat}
    {m m' : Machine S} (h : LikeM R m m') : LikeOpt (LikeRound R) (m.round E D en n) (m'.round E D en n) := by
  obtain ⟨h1, h2⟩ := h
  rw [h1]
  generalize m'.world = w at h2
  unfold Machine.round
  cases hf : m.frames with
  | nil =>
    have : (inWorld m w).frames = [] := hf
    simp only [this]
    exact ⟨rfl, rfl, h2⟩
  | cons f fs =>
    have : (inWorld m w).frames = f :: fs := hf
    simp only [this]
    have he : (inWorld m w).enter f = m.enter f := rfl
    rw [he]
    cases D n (E.P.body f.func) (m.enter f) with
    | none => trivial
    | some r =>
      refine Alike.bind r fun fin _ => ?_
      cases fin with
      | ckpt d => exact ⟨rfl, h2⟩
      | halt d => exact return_alike (m.leave f d) h2
      | yield y d =>
        cases y with
        | ret => exact return_alike (m.leave f d) h2
        | invoke g ps rs => exact invoke_alike (m.leave f d) h2 g ps rs
        | wasi id ps r => exact wasi_alike u (m.leave f d) h2 id ps r

theorem runLoop_alike {S : Wasi} {fresh : S.W → S.W} {R : S.W → S.W → Prop} (u : Unaware S fresh R) {E : Env} {D : Dispatcher} {en : Bool} {n : Nat} :
    ∀ (k : Nat) {m m' : Machine S}, LikeM R m m' → LikeOpt (LikeEnd R) (m.runLoop E D en n k) (m'.runLoop E D en n k)
  | 0, _, _, _ => trivial
  | k + 1, m, m', h => by
    have hr := round_alike u (E := E) (D := D) (en := en) (n := n) h
    rw [Machine.runLoop, Machine.runLoop]
    cases h1 : m.round E D en n with
    | none =>
      cases h2 : m'.round E D en n with
      | none => trivial
      | some y => rw [h1, h2] at hr; exact hr.elim
    | some x =>
      cases h2 : m'.round E D en n with
      | none => rw [h1, h2] at hr; exact hr.elim
      | some y =>
        rw [h1, h2] at hr
        cases x with
        | ok x =>
          cases y with
          | ok y =>
            cases x with
            | running a => cases y with
              | running b => exact runLoop_alike u k hr
              | _ => exact hr.elim
            | done vs a => cases y with
              | done vs' b => exact hr
              | _ => exact hr.elim
            | ckpt a => cases y with
              | ckpt b => exact hr
              | _ => exact hr.elim
          | _ => exact hr.elim
        | trap e => cases y with
          | trap e' => exact hr
          | _ => exact hr.elim
        | panic => cases y with
          | panic => trivial
          | _ => exact hr.elim
        | ub => cases y with
          | ub => trivial
          | _ => exact hr.elim

/-- what a process leaves is the same, but for related worlds -/
def LikeLeft {S : Wasi} (R : S.W → S.W → Prop) (l l' : Left S) : Prop :=
  l.status = l'.status ∧ l.report = l'.report ∧ l.ckpt = l'.ckpt ∧ match l.state, l'.state with
    | some (i, w), some (i', w') => i = i' ∧ R w w'
    | none, none => True
    | _, _ => False

theorem process_alike {S : Wasi} {fresh : S.W → S.W} {R : S.W → S.W → Prop} (u : Unaware S fresh R) {lz : Lz} {E : Env} {D : Dispatcher} {en : Bool}
    {fuel : Nat} {old : Option (List Byte)} {io : Io} {m m' : Machine S} (h : LikeM R m m') :
    LikeOpt (LikeLeft R) (m.process lz E D en fuel old io) (m'.process lz E D en fuel old io) := by
  have hr : LikeOpt (LikeEnd R) (m.run E D en fuel) (m'.run E D en fuel) := by
    refine runLoop_alike u fuel ?_
    obtain ⟨h1, h2⟩ := h
    refine ⟨?_, h2⟩
    rw [h1]; rfl
  unfold Machine.process
  cases h1 : m.run E D en fuel with
  | none =>
    cases h2 : m'.run E D en fuel with
    | none => trivial
    | some y => rw [h1, h2] at hr; exact hr.elim
  | some x =>
    cases h2 : m'.run E D en fuel with
    | none => rw [h1, h2] at hr; exact hr.elim
    | some y =>
      rw [h1, h2] at hr
      cases x with
      | ok x =>
        cases y with
        | ok y =>
          cases x with
          | done vs a => cases y with
            | done vs' b =>
              obtain ⟨rfl, e, hw⟩ := hr
              refine ⟨rfl, rfl, rfl, ?_, hw⟩
              show a.inst = b.inst
              rw [e]; rfl
            | _ => exact hr.elim
          | ckpt a => cases y with
            | ckpt b =>
              obtain ⟨e, hw⟩ := hr
              have hc : b.checkpoint lz E.P old io = a.checkpoint lz E.P old io := by rw [e]; rfl
              have hi : a.inst = b.inst := by rw [e]; rfl
              simp only [hc]
              cases a.checkpoint lz E.P old io with
              | mk c file => cases c with
                | ok _ => exact ⟨rfl, rfl, rfl, hi, hw⟩
                | trap e => exact ⟨rfl, rfl, rfl, trivial⟩
                | panic => trivial
                | ub => trivial
            | _ => exact hr.elim
        | _ => exact hr.elim
      | trap e => cases y with
        | trap e' => cases hr; exact ⟨rfl, rfl, rfl, by rw [show (Left.failed (S := S) old e).state = none by unfold Left.failed; split <;> rfl]; trivial⟩
        | _ => exact hr.elim
      | panic => cases y with
        | panic => trivial
        | _ => exact hr.elim
      | ub => cases y with
        | ub => trivial
        | _ => exact hr.elim

theorem new_alike {S : Wasi} {R : S.W → S.W → Prop} (P : Prog) (i : Inst) {w w' : S.W} (h : R w w') (f : Nat) (ps : List Val) :
    Alike (LikeM R) (Machine.new (S := S) P i w f ps) (Machine.new (S := S) P i w' f ps) := by
  unfold Machine.new
  split
  · split
    · rfl
    · exact ⟨rfl, h⟩
  · rfl

theorem command_alike {S : Wasi} {fresh : S.W → S.W} {R : S.W → S.W → Prop} (u : Unaware S fresh R) {T : FloatText} {lz : Lz} {H : FloatHost}
    {file : WFile} (p : Process) (o : Options) {w w' : S.W} (h : R w w') :
    LikeOpt (LikeLeft R) (p.run T lz H file o w) (p.run T lz H file o w') := by
  unfold Process.run command
  cases loadFile file with
  | ok L =>
    simp only
    cases o.restore with
    | some saved =>
      simp only
      cases restore lz L.prog L.inst saved with
      | mk c i => cases c with
        | ok st => exact process_alike u ⟨rfl, h⟩
        | trap e => exact ⟨rfl, rfl, rfl, trivial⟩
        | panic => trivial
        | ub => trivial
    | none =>
      simp only
      cases L.exportFunc o.invoke with
      | ok f =>
        simp only
        cases parseParams T o.params with
        | ok ps =>
          simp only
          have hn := new_alike (S := S) (R := R) L.prog L.inst h f ps
          cases h1 : Machine.new (S := S) L.prog L.inst w f ps with
          | ok m =>
            cases h2 : Machine.new (S := S) L.prog L.inst w' f ps with
            | ok m' => rw [h1, h2] at hn; exact process_alike u hn
            | _ => rw [h1, h2] at hn; exact hn.elim
          | trap e =>
            cases h2 : Machine.new (S := S) L.prog L.inst w' f ps with
            | trap e' => rw [h1, h2] at hn; cases hn; exact ⟨rfl, rfl, rfl, trivial⟩
            | _ => rw [h1, h2] at hn; exact hn.elim
          | panic =>
            cases h2 : Machine.new (S := S) L.prog L.inst w' f ps with
            | panic => trivial
            | _ => rw [h1, h2] at hn; exact hn.elim
          | ub =>
            cases h2 : Machine.new (S := S) L.prog L.inst w' f ps with
            | ub => trivial
            | _ => rw [h1, h2] at hn; exact hn.elim
        | _ => trivial
      | trap e => exact ⟨rfl, rfl, rfl, trivial⟩
      | panic => trivial
      | ub => trivial
  | _ => trivial

/-- the two views of what a process leaves -/
theorem seen_alike {S : Wasi} {R : S.W → S.W → Prop} {r r' : Res (Left S)} (h : Alike (LikeLeft R) r r') : SeenAlike R (seen r) (seen r') := by
  cases r with
  | ok l => cases r' with
    | ok l' =>
      obtain ⟨_, h2, _, h4⟩ := h
      refine ⟨h2, ?_⟩
      obtain ⟨st, rep, ck, s⟩ := l
      obtain ⟨st', rep', ck', s'⟩ := l'
      cases s with
      | none => cases s' with
        | none => trivial
        | some y => exact h4.elim
      | some x => cases s' with
        | none => exact h4.elim
        | some y => exact ⟨congrArg storeOf h4.1, h4.2⟩
    | _ => exact h.elim
  | trap e => cases r' with
    | trap e' => exact h
    | _ => exact h.elim
  | panic => cases r' with
    | panic => trivial
    | _ => exact h.elim
  | ub => cases r' with
    | ub => trivial
    | _ => exact h.elim

/-- a session in which things are left behind looks like one in which nothing is -/
theorem moved_session {S : Wasi} {fresh : S.W → S.W} {R : S.W → S.W → Prop} (u : Unaware S fresh R) {T : FloatText} {lz : Lz} {H : FloatHost}
    {file : WFile} {o : Options} {w' : S.W} {r' : Res (Left S)} (h : MovedSession fresh T lz H file o w' r') :
    ∀ w, R w w' → ∃ r, Session T lz H file o w r ∧ Alike (LikeLeft R) r r' := by
  induction h with
  | @last o world r p h hr =>
    intro w hw
    have ha := command_alike u (T := T) (lz := lz) (H := H) (file := file) p o hw
    rw [h] at ha
    cases h1 : p.run T lz H file o w with
    | none => rw [h1] at ha; exact ha.elim
    | some x =>
      rw [h1] at ha
      refine ⟨x, .last p h1 ?_, ha⟩
      intro l hl
      subst hl
      cases r with
      | ok l' =>
        obtain ⟨_, e, _⟩ := ha
        rw [e]
        exact hr l' rfl
      | _ => exact ha.elim
  | @move o world r p l b i w1 h hl hb hs hlen next ih =>
    intro w hw
    have ha := command_alike u (T := T) (lz := lz) (H := H) (file := file) p o hw
    rw [h] at ha
    cases h1 : p.run T lz H file o w with
    | none => rw [h1] at ha; exact ha.elim
    | some x =>
      rw [h1] at ha
      cases x with
      | ok l0 =>
        obtain ⟨_, e2, e3, e4⟩ := ha
        rw [hs] at e4
        cases hs0 : l0.state with
        | none => rw [hs0] at e4; exact e4.elim
        | some q =>
          obtain ⟨i0, w0⟩ := q
          rw [hs0] at e4
          obtain ⟨_, hR⟩ := e4
          obtain ⟨r0, k1, k2⟩ := ih w0 (u.fresh _ _ hR)
          exact ⟨r0, .move p h1 (e2.trans hl) (e3.trans hb) hs0 hlen k1, k2⟩
      | _ => exact ha.elim

/-- **C62**, for programs that move and host functions that cannot tell whether the process is new.  Let the processes of a
session each find the world without what its predecessor had open.  If the host functions give the same answers in worlds that
differ only in that (`Unaware`), the session shows what a single undisturbed process shows, with a world that differs only in
that.
Missing from the full claim: hosts with descriptors — a descriptor opened before a checkpoint is closed after it
(`descriptor_lost_violated`) — and what `session_transparent_partial` lacks. -/
theorem moved_session_transparent_partial {S : Wasi} (hS : WasiKeepsSize S) {fresh : S.W → S.W} {R : S.W → S.W → Prop} (u : Unaware S fresh R)
    {T : FloatText} {lz : Lz} {A : SMod} {H : FloatHost}
    (h : A.WellFormed S H) {P : Prog} (hc : (A.source H).compile A.globalTypes = some P) (hm : Movable (A.source H)) {o : Options}
    (ho : o.restore = none) {world : S.W} (hw : R world world) {r : Res (Left S)} (hs : MovedSession fresh T lz H (some A.file) o world r) (q : Process) :
    (∃ fuel r', ({ q.undisturbed with fuel := fuel }).run T lz H (some A.file) o world = some r' ∧ SeenAlike R (seen r') (seen r)) ∧
    (∀ fuel r', ({ q.undisturbed with fuel := fuel }).run T lz H (some A.file) o world = some r' → SeenAlike R (seen r') (seen r)) := by
  obtain ⟨r0, h0, ha⟩ := moved_session u hs world hw
  obtain ⟨⟨fuel, r', h1, h2⟩, h3⟩ := session_transparent_partial hS h hc hm ho h0 q
  refine ⟨⟨fuel, r', h1, by rw [h2]; exact seen_alike ha⟩, fun fuel r' hr => ?_⟩
  rw [h3 fuel r' hr]
  exact seen_alike ha

/-- the counting host of the session example, in worlds that agree about the count; the second half is left behind -/
def forgetful : Wasi := { W := Nat × Nat, call := fun _ _ m w => .ok (some (some (vi 0)), m, (w.1 + 1, w.2 + 1)) }

example : Unaware forgetful (fun w => (w.1, 0)) (fun w w' => w.1 = w'.1) where
  call id ps mem w w' h := ⟨rfl, rfl, by simp [h]⟩
  fresh w w' h := h

/-! ### The interpreter's own WASI functions -/

/-- the same outcome of a method, but for related worlds -/
def LikeP {N : Native} (R : N.W → N.W → Prop) (x y : Except Verif.Spec.WasiErr (BitVec 32) × Mem × N.W) : Prop :=
  x.1 = y.1 ∧ x.2.1 = y.2.1 ∧ R x.2.2 y.2.2

section
variable {N : Native} {fresh : N.W → N.W} {R : N.W → N.W → Prop} (u : NativeUnaware N fresh R) {w w' : N.W} (h : R w w')
include u h

theorem native_alike (m : Mem) (fn : WasiFn) (args : List NArg) (ptrs : List IoVec) :
    Alike (LikeP R) (nativeCall N m w fn args ptrs) (nativeCall N m w' fn args ptrs) := by
  obtain ⟨h1, h2⟩ := u.call fn args w w' h
  unfold nativeCall
  rw [h1]
  exact Alike.bind _ fun d _ => ⟨rfl, rfl, h2⟩

theorem nativeLocal_alike (m : Mem) (fn : WasiFn) (args : List NArg) (ptrs : List IoVec) (size : Nat) (ptr : BitVec 32) :
    Alike (LikeP R) (nativeCallLocal N m w fn args ptrs size ptr) (nativeCallLocal N m w' fn args ptrs size ptr) := by
  obtain ⟨h1, h2⟩ := u.call fn (args ++ [.ret size]) w w' h
  unfold nativeCallLocal
  rw [h1]
  exact Alike.bind _ fun d _ => Alike.bind _ fun m' _ => ⟨rfl, rfl, h2⟩

theorem arm_alike (argv : List (List Byte)) (fn : WasiFn) (ps : List Val) (m : Mem) :
    Alike (LikeP R) (passArm N argv fn ps m w) (passArm N argv fn ps m w') := by
  have n := native_alike u h
  have l := nativeLocal_alike u h
  cases fn with
  | fdWrite =>
    simp only [passArm, pFdWrite]
    have e : writeHost N w = writeHost N w' := by
      funext fd bufs
      simp only [writeHost, (u.call _ _ w w' h).1]
    rw [e]
    refine Alike.bind _ fun o _ => ⟨rfl, rfl, ?_⟩
    show R (writeWorld N w _ o.host) (writeWorld N w' _ o.host)
    cases o.host with
    | none => exact h
    | some bufs => exact (u.call _ _ w w' h).2
  | environGet =>
    simp only [passArm, pEnvironGet, u.envSizes w w' h, u.envGet w w' h]
    split
    · exact ⟨rfl, rfl, h⟩
    · split
      · exact ⟨rfl, rfl, h⟩
      · exact Alike.bind _ fun m1 _ => Alike.bind _ fun m2 _ => ⟨rfl, rfl, h⟩
  | environSizesGet =>
    simp only [passArm, pEnvironSizesGet, u.envSizes w w' h]
    split
    · exact ⟨rfl, rfl, h⟩
    · exact Alike.bind _ fun m1 _ => Alike.bind _ fun m2 _ => ⟨rfl, rfl, h⟩
  | randomGet =>
    simp only [passArm, pRandomGet]
    split
    · exact ⟨rfl, rfl, h⟩
    · exact n _ _ _ _
  | fdRead =>
    simp only [passArm, pFdRead]
    split
    · trivial
    · exact Alike.bind _ fun vs _ => l _ _ _ _ _ _
  | fdPread =>
    simp only [passArm, pFdPread]
    split
    · trivial
    · exact Alike.bind _ fun vs _ => l _ _ _ _ _ _
  | fdPwrite =>
    simp only [passArm, pFdPwrite]
    split
    · trivial
    · exact Alike.bind _ fun vs _ => Alike.bind _ fun bs _ => l _ _ _ _ _ _
  | argsGet => exact Alike.bind _ fun m1 _ => ⟨rfl, rfl, h⟩
  | argsSizesGet => exact Alike.bind _ fun m1 _ => ⟨rfl, rfl, h⟩
  | _ =>
    first
      | exact n _ _ _ _
      | exact l _ _ _ _ _ _
      | exact Alike.bind _ fun _ _ => n _ _ _ _
      | exact Alike.bind _ fun _ _ => Alike.bind _ fun _ _ => n _ _ _ _
      | exact ⟨rfl, rfl, h⟩

end

/-- C62: if the functions of the native host do not depend on what a process leaves behind, neither do the WASI functions the
interpreter offers its guest. -/
theorem pass_unaware {N : Native} {fresh : N.W → N.W} {R : N.W → N.W → Prop} (u : NativeUnaware N fresh R) (argv : List (List Byte)) :
    Unaware (passthrough N argv) fresh R where
  fresh := u.fresh
  call id ps mem w w' h := by
    show Alike _ (match WasiFn.all[id]? with
      | some fn => passCall N argv fn ps mem w >>= passResult N
      | none => .ok (none, mem, w)) (match WasiFn.all[id]? with
      | some fn => passCall N argv fn ps mem w' >>= passResult N
      | none => .ok (none, mem, w'))
    cases WasiFn.all[id]? with
    | none => exact ⟨rfl, rfl, h⟩
    | some fn =>
      simp only
      have ha : Alike (LikeP R) (passCall N argv fn ps mem w) (passCall N argv fn ps mem w') := by
        unfold passCall
        split
        · exact ⟨rfl, rfl, h⟩
        · split
          · exact arm_alike u h argv fn ps mem
          · exact ⟨rfl, rfl, h⟩
      cases h1 : passCall N argv fn ps mem w with
      | ok x =>
        cases h2 : passCall N argv fn ps mem w' with
        | ok y =>
          rw [h1, h2] at ha
          obtain ⟨x1, x2, x3⟩ := x
          obtain ⟨y1, y2, y3⟩ := y
          obtain ⟨e1, e2, e3⟩ := ha
          simp only at e1 e2 e3
          subst e1 e2
          cases x1 with
          | ok e => exact ⟨rfl, rfl, e3⟩
          | error e => cases e <;> first | trivial | exact ⟨rfl, rfl, e3⟩
        | _ => rw [h1, h2] at ha; exact ha.elim
      | trap e =>
        cases h2 : passCall N argv fn ps mem w' with
        | trap e' => rw [h1, h2] at ha; exact ha
        | _ => rw [h1, h2] at ha; exact ha.elim
      | panic =>
        cases h2 : passCall N argv fn ps mem w' with
        | panic => trivial
        | _ => rw [h1, h2] at ha; exact ha.elim
      | ub =>
        cases h2 : passCall N argv fn ps mem w' with
        | ub => trivial
        | _ => rw [h1, h2] at ha; exact ha.elim

/-! ### Descriptors -/

namespace Descr

/-- A native host with one file that can be opened: the world says how often it was opened, and whether it is open in the
running process, as descriptor 4.  `fd_sync` fails with `badf` (8) unless it is open; the other functions do nothing. -/
def host : Native where
  W := Nat × Bool
  call fn args w := match fn with
    | .pathOpen => (⟨0, []⟩, (w.1 + 1, true))
    | .fdSync => (⟨if w.2 = true ∧ args = [.num 4] then 0 else 8, []⟩, w)
    | _ => (⟨0, []⟩, w)
  envSizes _ := (0, 0, 0)
  envGet _ := (0, [], [])

/-- the interpreter's functions over it -/
abbrev wasi : Wasi := passthrough host []

/-- what a new process finds: the file, closed -/
def fresh (w : Nat × Bool) : Nat × Bool := (w.1, false)

/-- open the file (with an empty name: the memory has no pages), then `fd_sync` descriptor 4 -/
def main : WSeq :=
  .op (ci 3) <| .op (ci 0) <| .op (ci 0) <| .op (ci 0) <| .op (ci 0) <| .op (.const .i64 (0 : BitVec 64)) <| .op (.const .i64 (0 : BitVec 64)) <|
  .op (ci 0) <| .op (ci 8) <| .op (.call 0) <| .op .drop <| .op (ci 4) <| .op (.call 1) .done

/-- the module -/
def B : SMod where
  types := [⟨[.i32, .i32, .i32, .i32, .i32, .i64, .i64, .i32, .i32], [.i32]⟩, ⟨[.i32], [.i32]⟩, ⟨[], [.i32]⟩]
  imports := [("path_open", 0), ("fd_sync", 1)]
  funcs := [⟨2, [], main⟩]
  tables := []
  mems := [⟨0, none⟩]
  globals := []
  exports := [("run", .func 2)]
  start := none
  elems := []
  datas := []

/-- `--invoke run` -/
def opts : Options := ⟨"b.wasm".toList, none, "run", [], none, true⟩

/-- the first process, stopped right after `path_open` -/
def first : Process := ⟨true, (· == 10), tcoD, .tco, true, none, .fine, 200⟩

/-- what the command prints -/
def says (p : Process) (o : Options) (w : Nat × Bool) : Option Report :=
  match p.run (S := wasi) SessionEx.text SessionEx.lz Sample.host (some B.file) o w with
  | some (.ok l) => some l.report
  | _ => none

/-- stop, restore, end -/
def moved : Option Report :=
  match first.run (S := wasi) SessionEx.text SessionEx.lz Sample.host (some B.file) opts ((0, false) : Nat × Bool) with
  | some (.ok ⟨_, .checkpointed, some b, some (_, w)⟩) =>
    if b.length < 2 ^ 32 then says SessionEx.calm { opts with restore := some (some b) } (fresh w) else none
  | _ => none

theorem undisturbed_says : says SessionEx.calm opts (0, false) = some (.result (some (vi 0))) := by decide +kernel

theorem moved_says : moved = some (.result (some (vi 8))) := by decide +kernel

end Descr

/-- C62 is false of the code: a program opens a file and syncs it.  Undisturbed, both calls succeed and the command prints 0.
Checkpointed in between and restored, the second call fails with `badf`: the restored process has the number of a descriptor
that no longer exists, because descriptors are not part of the checkpoint and are not opened again. -/
theorem descriptor_lost_violated : ∃ r r', MovedSession (S := Descr.wasi) Descr.fresh SessionEx.text SessionEx.lz Sample.host (some Descr.B.file) Descr.opts
      ((0, false) : Nat × Bool) (.ok r) ∧ r.report = .result (some (vi 8)) ∧
    SessionEx.calm.run (S := Descr.wasi) SessionEx.text SessionEx.lz Sample.host (some Descr.B.file) Descr.opts ((0, false) : Nat × Bool) = some (.ok r') ∧
    r'.report = .result (some (vi 0)) := by
  have h1 := Descr.undisturbed_says
  have h2 := Descr.moved_says
  unfold Descr.moved at h2
  split at h2
  · rename_i b i w hrun
    split at h2
    · rename_i hlen
      unfold Descr.says at h1 h2
      split at h1
      · rename_i r' hr'
        split at h2
        · rename_i r hr
          have e1 := Option.some.inj h1
          have e2 := Option.some.inj h2
          refine ⟨r, r', .move Descr.first hrun rfl rfl rfl hlen (.last SessionEx.calm hr ?_), e2, hr', e1⟩
          intro l hl
          cases hl
          rw [e2]
          exact ⟨nofun, nofun, nofun⟩
        · cases h2
      · cases h1
    · cases h2
  · cases h2

end Verif.Props
