import Verif.Lemmas.WebOp
import Verif.Props.Machine
/-
Sequences and calls: the source-level semantics of the compiler properties is sound for the rules of `Spec.WebAssembly`.
-/
namespace Verif.Lemmas
open Verif.Model Verif.Spec Verif.Props

/-- what the rules call an abnormal end -/
def Fail.out {W : Type} (st : Store) (w : W) : Fail → WOut W
  | .trap (.processExit c) => .exit c st w
  | _ => .trap st w

/-- the same for calls -/
def Fail.callOut {W : Type} (st : Store) (w : W) : Fail → CallOut W
  | .trap (.processExit c) => .exit c st w
  | _ => .trap st w

/-- an end that is not the program's wish -/
theorem Fail.out_trap {W : Type} {st : Store} {w : W} {e : Err} (h : ∀ c, e ≠ .processExit c) : Fail.out st w (.trap e) = .trap st w := by
  cases e <;> first | rfl | exact absurd rfl (h _)

theorem Fail.callOut_trap {W : Type} {st : Store} {w : W} {e : Err} (h : ∀ c, e ≠ .processExit c) :
    Fail.callOut st w (.trap e) = .trap st w := by
  cases e <;> first | rfl | exact absurd rfl (h _)

/-- an abnormal end leaves blocks and calls -/
theorem Fail.leaves {W : Type} {n : Nat} {rest : List Val} {st : Store} {w : W} (f : Fail) :
    Leaves n rest (Fail.out st w f) (.inl (Fail.out st w f)) := by
  unfold Fail.out; split <;> constructor

theorem Fail.returns {W : Type} {locals rest : List Val} {st : Store} {w : W} (f : Fail) :
    Returns locals rest (Fail.callOut st w f) (.inl (Fail.out st w f)) := by
  unfold Fail.out Fail.callOut; split <;> constructor

/-- the outcome `o` is one that `P` allows, or `P` allows the odd end -/
def Agr {W : Type} (P : WOut W → Prop) (o : SOut W) : Prop :=
  (∃ y, P (.odd y)) ∨
    match o with
    | .norm vs s => P (.norm vs s) ∧ s.st.Good
    | .br d vs s => P (.br d vs s) ∧ s.st.Good
    | .ret vs s => P (.ret vs s) ∧ s.st.Good
    | .fail .ub _ _ => False
    | .fail f st w => P (Fail.out st w f) ∧ st.Good
    | .stuck | .timeout => True
    | .gap => False

/-- the same for calls -/
def CAgr {W : Type} (P : CallOut W → Prop) (o : COut W) : Prop :=
  (∃ y, P (.odd y)) ∨
    match o with
    | .ok vs st w => P (.ok vs st w) ∧ st.Good
    | .fail .ub _ _ => False
    | .fail f st w => P (Fail.callOut st w f) ∧ st.Good
    | .stuck | .timeout => True
    | .gap => False

theorem Agr.mono {W : Type} {P P' : WOut W → Prop} {o : SOut W} (h : Agr P o) (f : ∀ x, P x → P' x) : Agr P' o := by
  rcases h with ⟨y, h⟩ | h
  · exact .inl ⟨_, f _ h⟩
  · refine .inr ?_
    cases o with
    | norm => exact ⟨f _ h.1, h.2⟩
    | br => exact ⟨f _ h.1, h.2⟩
    | ret => exact ⟨f _ h.1, h.2⟩
    | fail e => cases e <;> first | exact ⟨f _ h.1, h.2⟩ | exact h
    | stuck => trivial
    | timeout => trivial
    | gap => exact h.elim

theorem popVs_inv {ts : List Cls} {stk ps r : List Val} (h : popVs ts stk = some (ps, r)) :
    stk = ps.reverse ++ r ∧ ps.map (·.cls) = ts := by
  unfold popVs at h
  split at h
  · rename_i hc
    simp only [Option.some.injEq, Prod.mk.injEq] at h
    obtain ⟨rfl, rfl⟩ := h
    refine ⟨by simp, ?_⟩
    rw [List.map_reverse, hc, List.reverse_reverse]
  · cases h

variable {S : Wasi} {Q : SProg} {M : MInfo}

theorem Agr.land {P P' : WOut S.W → Prop} {n : Nat} {rest : List Val} {k : WSeq} {kf : List Val → SSt S.W → SOut S.W}
    {o : SOut S.W} (h : Agr P o)
    (hP : ∀ wo x out, P wo → Leaves n rest wo x → After S Q M k x out → P' out)
    (hk : ∀ stk s, s.st.Good → Agr (Ev S Q M k stk s) (kf stk s)) : Agr P' (o.land n rest kf) := by
  rcases h with ⟨y, h⟩ | h
  · exact .inl ⟨_, hP _ _ _ h .odd .stop⟩
  · cases o with
    | norm vs s => exact (hk _ _ h.2).mono fun x hx => hP _ _ _ h.1 .norm (.go hx)
    | br d vs s =>
      cases d with
      | zero => exact (hk _ _ h.2).mono fun x hx => hP _ _ _ h.1 .leave (.go hx)
      | succ d => exact .inr ⟨hP _ _ _ h.1 .outer .stop, h.2⟩
    | ret vs s => exact .inr ⟨hP _ _ _ h.1 .ret .stop, h.2⟩
    | fail e =>
      refine .inr ?_
      cases e <;> first | exact ⟨hP _ _ _ h.1 (Fail.leaves _) .stop, h.2⟩ | exact h
    | stuck => exact .inr trivial
    | timeout => exact .inr trivial
    | gap => exact h.elim

theorem CAgr.cont {P : CallOut S.W → Prop} {P' : WOut S.W → Prop} {locals rest : List Val} {k : WSeq}
    {kf : List Val → SSt S.W → SOut S.W} {o : COut S.W} (h : CAgr P o)
    (hP : ∀ c x out, P c → Returns locals rest c x → After S Q M k x out → P' out)
    (hk : ∀ stk s, s.st.Good → Agr (Ev S Q M k stk s) (kf stk s)) : Agr P' (o.cont locals rest kf) := by
  rcases h with ⟨y, h⟩ | h
  · exact .inl ⟨_, hP _ _ _ h .odd .stop⟩
  · cases o with
    | ok vs st w => exact (hk _ _ h.2).mono fun x hx => hP _ _ _ h.1 .ok (.go hx)
    | fail e =>
      refine .inr ?_
      cases e <;> first | exact ⟨hP _ _ _ h.1 (Fail.returns _) .stop, h.2⟩ | exact h
    | stuck => exact .inr trivial
    | timeout => exact .inr trivial
    | gap => exact h.elim

/-- the outcome is not the end of the process -/
def Stays {α : Type} (r : Res α) : Prop := ∀ c, r ≠ .trap (.processExit c)

theorem Stays.bind {α β : Type} {x : Res α} {f : α → Res β} (hx : Stays x) (hf : ∀ a, Stays (f a)) : Stays (x.bind f) := by
  cases x with
  | ok a => exact hf a
  | trap e => intro c h; cases h; exact hx c rfl
  | panic => exact nofun
  | ub => exact nofun

theorem stays_ok {α : Type} (a : α) : Stays (.ok a) := nofun

theorem readAt_stays (d : List Byte) (p n : Nat) : Stays (readAt d p n) := by
  intro c
  unfold readAt
  split <;> exact nofun

theorem writeAt_stays (d : List Byte) (p : Nat) (bs : List Byte) : Stays (writeAt d p bs) := by
  intro c
  unfold writeAt
  split <;> exact nofun

theorem truncTrap_stays (op : Spec.TruncOp) (x : Nat) : Stays (truncTrap op x) := by
  intro c
  simp only [truncTrap]
  (repeat' split) <;> (intro h; cases h)

theorem iBin_stays {w : Nat} (op : Spec.IBinOp) (a b : BitVec w) : Stays (iBin op a b) := by
  intro c
  cases op <;> simp only [iBin] <;> (repeat' split) <;> (intro h; cases h)

theorem eval1_stays (H : FloatHost) (op : Op1) (a : op.src.Carrier) : Stays (op.eval H a) := by
  unfold Op1.eval
  split <;> first | exact stays_ok _ | exact (truncTrap_stays _ _).bind fun _ => stays_ok _

theorem eval2_stays (H : FloatHost) (op : Op2) (a b : op.src.Carrier) : Stays (op.eval H a b) := by
  unfold Op2.eval
  split <;> first | exact stays_ok _ | exact iBin_stays _ _ _

theorem load_stays (m : Mem) (op : Spec.LoadOp) (p : BitVec 32) (off : BitVec 64) : Stays (m.load op p off) :=
  (readAt_stays _ _ _).bind fun _ => stays_ok _

theorem store_stays (m : Mem) (op : Spec.StoreOp) (p : BitVec 32) (off : BitVec 64) (v : op.cls.Carrier) : Stays (m.store op p off v) :=
  (writeAt_stays _ _ _).bind fun _ => stays_ok _

theorem grow_stays (m : Mem) (d : BitVec 32) : Stays (m.growInstr d) := by
  unfold Mem.growInstr
  split <;> exact nofun

theorem copy_stays (m : Mem) (a b n : BitVec 32) : Stays (m.copy a b n) := by
  unfold Mem.copy
  split
  · exact nofun
  · exact (readAt_stays _ _ _).bind fun _ => (writeAt_stays _ _ _).bind fun _ => stays_ok _

theorem fill_stays (m : Mem) (a b n : BitVec 32) : Stays (m.fill a b n) := by
  unfold Mem.fill
  split
  · exact nofun
  · exact (writeAt_stays _ _ _).bind fun _ => stays_ok _

theorem init_stays (m : Mem) (seg : List Byte) (a b n : BitVec 32) : Stays (m.initInstr seg a b n) := by
  intro c
  simp only [Mem.initInstr, Mem.init]
  (repeat' split) <;> (intro h; cases h)

theorem fillTable_stays (tb : List Ref) (i : BitVec 32) (x : Ref) (n : BitVec 32) : Stays (fillTable tb i x n) := by
  intro c
  simp only [fillTable]
  (repeat' split) <;> (intro h; cases h)

theorem push_stays {W : Type} (c : Cls) {x : Res c.Carrier} (hx : Stays x) (r : List Val) (s : SSt W) : Stays (push c x r s) :=
  hx.bind fun _ => stays_ok _

theorem onMem_stays {W : Type} (s : SSt W) {e : Res (List Val × SSt W)} (he : Stays e) {f : Mem → Res (List Val × SSt W)}
    (hf : ∀ m, Stays (f m)) : Stays (onMem s e f) := by
  unfold onMem
  split
  · exact hf _
  · exact he

/-- no operator ends the process -/
theorem opSem_stays {H : FloatHost} {W : Type} {o : WOp} {stk : List Val} {s : SSt W} {e : Err} (h : opSem H o stk s = some (.trap e)) :
    ∀ c, e ≠ .processExit c := by
  have key : ∀ x, opSem H o stk s = some x → Stays x := by
    intro x hx
    cases o <;> simp only [opSem] at hx <;> (repeat' split at hx) <;> (try cases hx) <;>
      first
      | (intro _ hc; cases hc; done)
      | exact push_stays _ (eval1_stays _ _ _) _ _
      | exact push_stays _ (eval2_stays _ _ _ _) _ _
      | exact onMem_stays _ (by intro _ h; cases h) fun m => push_stays _ (load_stays _ _ _ _) _ _
      | exact onMem_stays _ (by intro _ h; cases h) fun m => (store_stays _ _ _ _ _).bind fun _ => stays_ok _
      | exact onMem_stays _ (by intro _ h; cases h) fun m => push_stays _ (stays_ok _) _ _
      | exact onMem_stays _ (by intro _ h; cases h) fun m => (grow_stays _ _).bind fun _ => push_stays _ (stays_ok _) _ _
      | exact onMem_stays _ (by intro _ h; cases h) fun m => (copy_stays _ _ _ _).bind fun _ => stays_ok _
      | exact onMem_stays _ (by intro _ h; cases h) fun m => (fill_stays _ _ _ _).bind fun _ => stays_ok _
      | exact onMem_stays _ (by intro _ h; cases h) fun m => by intro _ h; cases h
      | exact onMem_stays _ (by intro _ h; cases h) fun m => (init_stays _ _ _ _ _).bind fun _ => stays_ok _
      | exact (fillTable_stays _ _ _ _).bind fun _ => stays_ok _
  intro c he
  subst he
  exact key _ h c rfl

theorem op_cont {o : WOp} {k : WSeq} {stk : List Val} {s : SSt S.W} {kf : List Val → SSt S.W → SOut S.W} (g : s.st.Good)
    (hk : ∀ stk s, s.st.Good → Agr (Ev S Q M k stk s) (kf stk s)) :
    Agr (Ev S Q M (.op o k) stk s) (SOut.cont s (opSem Q.H o stk s) kf) := by
  cases hx : opSem Q.H o stk s with
  | none => exact .inr trivial
  | some x =>
    rcases op_sound Q.H g hx with ⟨y, h⟩ | h
    · exact .inl ⟨_, .odd h⟩
    · cases x with
      | ok y => exact (hk _ _ h.2).mono fun _ hz => .next h.1 hz
      | trap e =>
        refine .inr ?_
        show Ev S Q M _ _ _ (Fail.out s.st s.world (.trap e)) ∧ s.st.Good
        rw [Fail.out_trap (opSem_stays hx)]
        exact ⟨.trap h, g⟩
      | panic => exact .inr ⟨.trap h, g⟩
      | ub => exact h.elim

theorem ev_sound {again : WSeq → List Val → SSt S.W → SOut S.W} {call : SFunc → List Val → Store → S.W → COut S.W}
    (ha : ∀ w stk s, s.st.Good → Agr (Ev S Q M w stk s) (again w stk s))
    (hc : ∀ F args st w, st.Good → CAgr (Call S Q M F args st w) (call F args st w)) :
    ∀ (w : WSeq) (stk : List Val) (s : SSt S.W), s.st.Good → Agr (Ev S Q M w stk s) (ev Q M again call w stk s) := by
  intro w
  induction w with
  | done => intro stk s g; exact .inr ⟨.done, g⟩
  | op o k ih =>
    intro stk s g
    cases o
    case br d => exact .inr ⟨.br, g⟩
    case brIf d =>
      simp only [ev]
      split
      · exact .inr trivial
      · rename_i c r hp
        rw [popV_inv hp]
        split
        · rename_i h0; subst h0; exact (ih r s g).mono fun _ => .brIf0
        · rename_i h0; exact .inr ⟨.brIf (i32_nz h0), g⟩
    case brTable ds d =>
      simp only [ev]
      split
      · exact .inr trivial
      · rename_i i r hp
        rw [popV_inv hp]
        refine .inr ⟨?_, g⟩
        unfold pick
        cases hd : ds[BitVec.toNat (w := 32) i]? with
        | some l => exact .brTable hd
        | none => exact .brTableD (by simpa using hd)
    case ret => exact .inr ⟨.ret, g⟩
    case call f =>
      simp only [ev, callTo]
      split
      · exact .inr trivial
      · rename_i F hF
        split
        · exact .inr trivial
        · rename_i args r hp
          obtain ⟨rfl, hcls⟩ := popVs_inv hp
          exact (hc F args s.st s.world g).cont (fun c x out h1 h2 h3 => .call hF hcls h1 h2 h3) ih
    case callIndirect ty t =>
      simp only [ev, callThrough]
      split
      · exact .inr trivial
      · rename_i i r hp
        rw [popV_inv hp]
        split
        · rename_i ht
          exact .inl ⟨_, .callNoTable (by simpa using ht)⟩
        · rename_i tb ht
          split
          · rename_i f hi
            split
            · rename_i F want hF hT
              split
              · rename_i hty
                cases hFc : F with
                | wasi _ _ => subst hFc; exact .inl ⟨_, .callHost ht hi hF⟩
                | wasm t' ls' b' =>
                  rw [← hFc]
                  cases hp' : popVs want.params r with
                  | none => subst hFc; exact .inr trivial
                  | some x =>
                  obtain ⟨args, r'⟩ := x
                  obtain ⟨rfl, hcls⟩ := popVs_inv hp'
                  rw [hFc]
                  simp only
                  rw [← hFc]
                  exact (hc F args s.st s.world g).cont
                    (fun c x out h1 h2 h3 => .callIndirect ht hi hF (by rw [hT, hty]) (by rw [hcls, hty]) h1 h2 h3) ih
              · rename_i hty
                refine .inr ⟨.callNull ht hi fun f' F' h1 h2 h3 => ?_, g⟩
                cases h1
                rw [hF] at h2; cases h2
                rw [hT] at h3; cases h3
                exact hty rfl
            · rename_i hno
              refine .inr ⟨.callNull ht hi fun f' F' h1 h2 h3 => ?_, g⟩
              cases h1
              exact hno _ _ h2 h3
          · rename_i hno
            cases hi : tb[BitVec.toNat (w := 32) i]? with
            | none => exact .inr ⟨.callOutside ht (by simpa using hi), g⟩
            | some x =>
              refine .inr ⟨.callNull ht hi fun f' F' h1 h2 h3 => ?_, g⟩
              subst h1
              exact hno _ hi
    all_goals exact op_cont g ih
  | block bt b k ihb ihk =>
    intro stk s g
    simp only [ev]
    split
    · exact .inr trivial
    · rename_i ps r hp
      obtain ⟨rfl, hcls⟩ := popVs_inv hp
      exact (ihb ps.reverse s g).land (fun wo x out h1 h2 h3 => .block hcls h1 h2 h3) ihk
  | loop bt b k ihb ihk =>
    intro stk s g
    simp only [ev]
    split
    · exact .inr trivial
    · rename_i ps r hp
      obtain ⟨rfl, hcls⟩ := popVs_inv hp
      rcases ihb ps.reverse s g with ⟨y, h⟩ | h
      · exact .inl ⟨_, .loop hcls h (by intro _ _ h; cases h) .odd .stop⟩
      · cases ho : ev Q M again call b ps.reverse s with
        | norm vs s' =>
          rw [ho] at h
          exact (ihk _ _ h.2).mono fun _ hx => .loop hcls h.1 (by intro _ _ h; cases h) .norm (.go hx)
        | br d vs s' =>
          rw [ho] at h
          cases d with
          | zero => exact (ha _ _ _ h.2).mono fun _ hx => .again hcls h.1 hx
          | succ d => exact .inr ⟨.loop hcls h.1 (by intro _ _ h; cases h) .outer .stop, h.2⟩
        | ret vs s' =>
          rw [ho] at h
          exact .inr ⟨.loop hcls h.1 (by intro _ _ h; cases h) .ret .stop, h.2⟩
        | fail e =>
          rw [ho] at h
          refine .inr ?_
          cases e <;> first
            | exact ⟨.loop hcls h.1 (by intro _ _ h; unfold Fail.out at h; split at h <;> cases h) (Fail.leaves _) .stop, h.2⟩
            | exact h
        | stuck => exact .inr trivial
        | timeout => exact .inr trivial
        | gap => rw [ho] at h; exact h.elim
  | ite bt t k iht ihk =>
    intro stk s g
    simp only [ev]
    split
    · exact .inr trivial
    · rename_i c r hp
      rw [popV_inv hp]
      split
      · exact .inr trivial
      · rename_i ps r' hp'
        obtain ⟨rfl, hcls⟩ := popVs_inv hp'
        split
        · rename_i h0
          exact (iht ps.reverse s g).land (fun wo x out h1 h2 h3 => .ite (i32_nz h0) hcls h1 h2 h3) ihk
        · rename_i h0
          have : c = (0 : BitVec 32) := Classical.byContradiction h0
          subst this
          exact (ihk _ s g).mono fun _ hx => .ite0 hcls hx
  | itee bt t e k iht ihe ihk =>
    intro stk s g
    simp only [ev]
    split
    · exact .inr trivial
    · rename_i c r hp
      rw [popV_inv hp]
      split
      · exact .inr trivial
      · rename_i ps r' hp'
        obtain ⟨rfl, hcls⟩ := popVs_inv hp'
        split
        · rename_i h0
          exact (iht ps.reverse s g).land (fun wo x out h1 h2 h3 => .itee (i32_nz h0) hcls h1 h2 h3) ihk
        · rename_i h0
          have : c = (0 : BitVec 32) := Classical.byContradiction h0
          subst this
          exact (ihe ps.reverse s g).land (fun wo x out h1 h2 h3 => .itee0 hcls h1 h2 h3) ihk

theorem initialLocals_eq (args : List Val) (ls : List (Nat × Cls)) : initialLocals args ls = args ++ declLocals ls := by
  unfold initialLocals declLocals
  rw [List.flatMap_def]
  congr 3
  funext p
  obtain ⟨n, c⟩ := p
  cases c <;> rfl

theorem body_fails {t : FuncType} {ls : List (Nat × Cls)} {b : WSeq} {args : List Val} {st : Store} {w : S.W} {f : Fail}
    {st' : Store} {w' : S.W} (h : Ev S Q M b [] ⟨initialLocals args ls, st, w⟩ (Fail.out st' w' f)) :
    Call S Q M (.wasm t ls b) args st w (Fail.callOut st' w' f) := by
  unfold Fail.out at h
  unfold Fail.callOut
  split at h
  · exact .exitOut h
  · exact .trapOut h

theorem call_sound (hS : WasiKeepsSize S) {runBody : WSeq → List Val → SSt S.W → SOut S.W}
    (hr : ∀ w stk s, s.st.Good → Agr (Ev S Q M w stk s) (runBody w stk s)) (F : SFunc) (args : List Val) (st : Store)
    (w : S.W) (g : st.Good) : CAgr (Call S Q M F args st w) (callWith S runBody F args st w) := by
  cases F with
  | wasm t ls b =>
    have h := hr b [] ⟨args ++ declLocals ls, st, w⟩ g
    rw [← initialLocals_eq] at h
    simp only [callWith, ← initialLocals_eq]
    rcases h with ⟨y, h⟩ | h
    · exact .inl ⟨_, .oddOut h⟩
    · cases ho : runBody b [] ⟨initialLocals args ls, st, w⟩ with
      | norm vs s' => rw [ho] at h; exact .inr ⟨.norm h.1, h.2⟩
      | br d vs s' => rw [ho] at h; exact .inr ⟨.brOut h.1, h.2⟩
      | ret vs s' => rw [ho] at h; exact .inr ⟨.retOut h.1, h.2⟩
      | fail e =>
        rw [ho] at h
        refine .inr ?_
        cases e <;> first | exact ⟨body_fails (f := .trap _) h.1, h.2⟩ | exact ⟨.trapOut h.1, h.2⟩ | exact h
      | stuck => exact .inr trivial
      | timeout => exact .inr trivial
      | gap => rw [ho] at h; exact h.elim
  | wasi t id =>
    simp only [callWith]
    cases hm : st.mem with
    | none => exact .inl ⟨_, .hostOdd fun m h => by rw [hm] at h; cases h⟩
    | some m =>
      simp only
      cases hcall : S.call id args m w with
      | ok r =>
        obtain ⟨v, m', w'⟩ := r
        simp only [hostResult]
        cases v with
        | none =>
          obtain ⟨h1, h2⟩ := hS _ _ _ _ _ _ _ hcall
          exact .inr ⟨.hostFails hm hcall, same_size g hm h1 h2⟩
        | some v =>
          obtain ⟨h1, h2⟩ := hS _ _ _ _ _ _ _ hcall
          cases v with
          | some v =>
            simp only
            split
            · rename_i hv; exact .inr ⟨.host hm hcall (by simpa using hv), same_size g hm h1 h2⟩
            · exact .inr trivial
          | none =>
            simp only
            split
            · rename_i hv; exact .inr ⟨.host hm hcall (by simpa using hv.symm), same_size g hm h1 h2⟩
            · exact .inr trivial
      | trap e =>
        refine .inr ?_
        by_cases he : ∃ c, e = .processExit c
        · obtain ⟨c, rfl⟩ := he
          exact ⟨.hostExits hm hcall, g⟩
        · show Call S Q M _ _ _ _ (Fail.callOut st w (.trap e)) ∧ st.Good
          rw [Fail.callOut_trap fun c h => he ⟨c, h⟩]
          exact ⟨.hostRefuses hm (.inl ⟨e, hcall, fun c h => he ⟨c, h⟩⟩), g⟩
      | panic => exact .inr ⟨.hostRefuses hm (.inr hcall), g⟩
      | ub => exact .inl ⟨_, .hostOdd fun x h => by rw [hm] at h; cases h; exact hcall⟩

theorem run_sound (hS : WasiKeepsSize S) : ∀ (n : Nat) (w : WSeq) (stk : List Val) (s : SSt S.W), s.st.Good →
    Agr (Ev S Q M w stk s) (run S Q M n w stk s) := by
  intro n
  induction n with
  | zero => intro w stk s _; exact .inr trivial
  | succ n ih => exact ev_sound ih (call_sound hS ih)

end Verif.Lemmas
