import Verif.Lemmas.ExecL
import Verif.Props.QuietRun
/-
What a run leaves does not depend on dispatcher and checkpoint option while no trigger is raised (C66).
-/
namespace Verif.Lemmas
open Verif.Model Verif.Props

/-- `plainRun` with the state at the end, also when a handler fails -/
def plainL (H : FloatHost) (P : Prog) (code : List Instr) : Nat → VM → Option (Res (Option Yield × VM) × VM)
  | 0, _ => none
  | n + 1, vm =>
    match code[vm.pc]? with
    | none => some (.ok (none, { vm with pc := 0, labels := [] }), vm)
    | some i =>
      match step H P code.length vm i with
      | .ok (.cont vm) => plainL H P code n vm
      | .ok (.yield y vm) => some (.ok (some y, vm), vm)
      | .trap e => some (.trap e, vm)
      | .panic => some (.panic, vm)
      | .ub => some (.ub, vm)

theorem plainL_mono (H : FloatHost) (P : Prog) (code : List Instr) : ∀ (n : Nat) (vm : VM) {r},
    plainL H P code n vm = some r → plainL H P code (n + 1) vm = some r := by
  intro n
  induction n with
  | zero => intro vm r h; cases h
  | succ n ih =>
    intro vm r h
    rw [plainL] at h ⊢
    cases hc : code[vm.pc]? with
    | none => rw [hc] at h; exact h
    | some i =>
      rw [hc] at h
      simp only at h ⊢
      cases hs : step H P code.length vm i with
      | ok o => rw [hs] at h; cases o with
        | cont vm => exact ih _ h
        | yield y vm => exact h
      | trap e => rw [hs] at h; exact h
      | panic => rw [hs] at h; exact h
      | ub => rw [hs] at h; exact h

theorem plainL_unique {H : FloatHost} {P : Prog} {code : List Instr} {n n' : Nat} {vm : VM} {r r'}
    (h : plainL H P code n vm = some r) (h' : plainL H P code n' vm = some r') : r = r' := by
  have up : ∀ j n {r}, plainL H P code n vm = some r → plainL H P code (n + j) vm = some r := by
    intro j
    induction j with
    | zero => intro n r h; exact h
    | succ j ih => intro n r h; exact plainL_mono _ _ _ _ _ (ih n h)
  have a := up n' n h
  have b := up n n' h'
  rw [Nat.add_comm] at b
  rw [a] at b
  exact Option.some.inj b

theorem plainL_sim (H : FloatHost) (P : Prog) (code : List Instr) : ∀ (n : Nat) (s s' : VM) (o : Res (Option Yield × VM)) (v : VM),
    VSim s s' → plainL H P code n s = some (o, v) →
    ∃ o' v', plainL H P code n s' = some (o', v') ∧ ResRel PSim o o' ∧ v.inst.data = v'.inst.data
  | 0, _, _, _, _, _, h => by cases h
  | n + 1, s, s', o, v, hs, h => by
    rw [plainL] at h ⊢
    rw [← hs.pc]
    cases hc : code[s.pc]? with
    | none =>
      rw [hc] at h
      cases h
      exact ⟨_, _, rfl, .ok ⟨rfl, { hs with pc := rfl, labels := rfl }⟩, hs.inst⟩
    | some i =>
      rw [hc] at h
      simp only at h ⊢
      have hst := step_sim H P code.length hs i
      generalize step H P code.length s i = a at h hst
      generalize step H P code.length s' i = b at hst
      cases hst with
      | ok ho =>
        cases ho with
        | cont hv => exact plainL_sim H P code n _ _ o v hv h
        | yield hv => cases h; exact ⟨_, _, rfl, .ok ⟨rfl, hv⟩, hv.inst⟩
      | trap e => cases h; exact ⟨_, _, rfl, .trap e, hs.inst⟩
      | panic => cases h; exact ⟨_, _, rfl, .panic, hs.inst⟩
      | ub => cases h; exact ⟨_, _, rfl, .ub, hs.inst⟩

/-- a dispatcher that leaves what the checkpoint-free execution leaves -/
def LeavesPlain (E : Env) (D : DispatcherL) : Prop :=
  ∀ n code d r vm, Inside code → D n code d = some (r, vm) →
    ∃ k v, plainL E.H E.P code k d.vm = some (obsF r, v) ∧ v.inst = vm.inst

theorem loop_leaves {E : Env} (hq : Quiet E) (code : List Instr) : ∀ (n : Nat) (d : DState) (r : Res Final) (vm : VM),
    loopRunL E code n d = some (r, vm) → ∃ k v, plainL E.H E.P code k d.vm = some (obsF r, v) ∧ v.inst = vm.inst
  | 0, _, _, _, h => by cases h
  | n + 1, d, r, vm, h => by
    have hqp := quiet_poll hq d
    have hvm := poll_vm E d
    obtain ⟨d1, hd1⟩ : ∃ d1, poll E d = (false, d1) := ⟨(poll E d).2, by rw [← hqp]⟩
    rw [hd1] at hvm
    simp only at hvm
    rw [loopRunL, hd1] at h
    simp only at h
    cases hc : code[d1.vm.pc]? with
    | none =>
      have one : plainL E.H E.P code 1 d.vm = some (.ok (none, { d.vm with pc := 0, labels := [] }), d.vm) := by
        rw [plainL, ← hvm, hc]
      have hle := List.getElem?_eq_none_iff.mp hc
      rw [hc] at h
      simp only at h
      match hls : d1.vm.labels with
      | [] => rw [hls] at h; cases h; exact ⟨1, d.vm, by rw [one, obsF, hvm], by rw [hvm]⟩
      | [_] => rw [hls] at h; cases h; exact ⟨1, d.vm, by rw [one, obsF, hvm], by rw [hvm]⟩
      | l :: l2 :: rest =>
        rw [hls] at h
        simp only at h
        split at h
        · cases h; exact ⟨1, d.vm, by rw [one, obsF, hvm], by rw [hvm]⟩
        · rename_i hx
          obtain ⟨k, v, hk, hv⟩ := loop_leaves hq code n _ r vm h
          have hpc : code[(if l.isLoop then d1.vm.pc + 1 else l.returnIp)]? = none := by
            apply List.getElem?_eq_none_iff.mpr
            split
            · omega
            · rename_i hlp
              simp only [Bool.not_eq_true] at hlp
              simp only [hlp, and_true, Nat.not_le] at hx
              omega
          cases k with
          | zero => cases hk
          | succ k =>
            rw [plainL] at hk
            simp only [hpc] at hk
            simp only [Option.some.injEq, Prod.mk.injEq] at hk
            obtain ⟨h1, h2⟩ := hk
            refine ⟨1, d.vm, ?_, ?_⟩
            · rw [one, ← h1, hvm]
            · rw [← hv, ← h2, hvm]
    | some i =>
      rw [hc] at h
      simp only at h
      cases hs : step E.H E.P code.length d1.vm i with
      | ok o =>
        rw [hs] at h
        cases o with
        | cont vm' =>
          obtain ⟨k, v, hk, hv⟩ := loop_leaves hq code n _ r vm h
          exact ⟨k + 1, v, by rw [plainL, ← hvm, hc]; simp only [hs]; exact hk, hv⟩
        | yield y vm' => cases h; exact ⟨1, _, by rw [plainL, ← hvm, hc]; simp only [hs]; rfl, rfl⟩
      | trap e => rw [hs] at h; cases h; exact ⟨1, d1.vm, by rw [plainL, ← hvm, hc]; simp only [hs]; rfl, rfl⟩
      | panic => rw [hs] at h; cases h; exact ⟨1, d1.vm, by rw [plainL, ← hvm, hc]; simp only [hs]; rfl, rfl⟩
      | ub => rw [hs] at h; cases h; exact ⟨1, d1.vm, by rw [plainL, ← hvm, hc]; simp only [hs]; rfl, rfl⟩

theorem chain_leaves {E : Env} (hq : Quiet E) (code : List Instr) (hin : Inside code) : ∀ (n : Nat) (d : DState) (r : Res Final)
    (vm : VM), d.vm.pc ≤ code.length → tcoChainL E code n d = some (r, vm) →
    ∃ v, plainL E.H E.P code n d.vm = some (obsF r, v) ∧ v.inst = vm.inst
  | 0, _, _, _, _, h => by cases h
  | n + 1, d, r, vm, hpc, h => by
    rw [tcoChainL] at h
    rw [plainL]
    cases hc : code[d.vm.pc]? with
    | none =>
      have hle := List.getElem?_eq_none_iff.mp hc
      rw [hc] at h
      simp only [show d.vm.pc = code.length by omega, if_true, Option.some.injEq, Prod.mk.injEq] at h
      obtain ⟨rfl, rfl⟩ := h
      exact ⟨_, rfl, rfl⟩
    | some i =>
      rw [hc] at h
      simp only at h ⊢
      have hlt := (List.getElem?_eq_some_iff.mp hc).1
      cases hs : step E.H E.P code.length d.vm i with
      | ok o =>
        rw [hs] at h
        cases o with
        | cont vm' =>
          simp only at h ⊢
          have hqp := quiet_poll hq { d with vm := vm' }
          have hvm := poll_vm E { d with vm := vm' }
          obtain ⟨d1, hd1⟩ : ∃ d1, poll E { d with vm := vm' } = (false, d1) := ⟨(poll E { d with vm := vm' }).2, by rw [← hqp]⟩
          rw [hd1] at hvm h
          simp only at hvm h
          have := chain_leaves hq code hin n d1 r vm
            (by rw [hvm]; exact step_pc hlt (hin i (List.mem_of_getElem? hc)) hs) h
          rw [hvm] at this; exact this
        | yield y vm' => cases h; exact ⟨_, rfl, rfl⟩
      | trap e => rw [hs] at h; cases h; exact ⟨_, rfl, rfl⟩
      | panic => rw [hs] at h; cases h; exact ⟨_, rfl, rfl⟩
      | ub => rw [hs] at h; cases h; exact ⟨_, rfl, rfl⟩

/-- both dispatchers do -/
theorem loopDL_leaves {E : Env} (hq : Quiet E) : LeavesPlain E (loopDL E) :=
  fun n code d r vm _ h => loop_leaves hq code n d r vm h

theorem tcoDL_leaves {E : Env} (hq : Quiet E) : LeavesPlain E (tcoDL E) := by
  intro n code d r vm hin h
  simp only [tcoDL, tcoRunL] at h
  have hqp := quiet_poll hq d
  have hvm := poll_vm E d
  obtain ⟨d1, hd1⟩ : ∃ d1, poll E d = (false, d1) := ⟨(poll E d).2, by rw [← hqp]⟩
  rw [hd1] at hvm h
  simp only at hvm h
  split at h
  · rename_i hle
    cases h
    refine ⟨1, d1.vm, ?_, rfl⟩
    rw [plainL, ← hvm, List.getElem?_eq_none_iff.mpr hle]; rfl
  · rename_i hlt
    obtain ⟨v, h1, h2⟩ := chain_leaves hq code hin n d1 r vm (by omega) h
    rw [hvm] at h1
    exact ⟨n, v, h1, h2⟩

/-- the same memory, globals, tables, data segments and outside world -/
def SameL {S : Wasi} (l l' : Inst × S.W) : Prop := l.1.data = l'.1.data ∧ l.2 = l'.2

theorem wasiLeft_sim {S : Wasi} {hw : Bool} {m m' : Machine S} (h : MSim m m') (id : Nat) (ps : List Val) :
    SameL (m.wasiLeft hw id ps) (m'.wasiLeft hw id ps) := by
  obtain ⟨dm, dg, dt, dd⟩ := Inst.data_eq h.inst
  unfold Machine.wasiLeft
  rw [dm, h.world]
  cases hw with
  | false => exact ⟨h.inst, rfl⟩
  | true =>
    cases m'.inst.mem with
    | none => exact ⟨h.inst, rfl⟩
    | some mem =>
      simp only
      cases S.call id ps mem m'.world with
      | ok r => exact ⟨by simp only [Inst.data, dg, dt, dd], rfl⟩
      | _ => exact ⟨h.inst, rfl⟩

theorem reactLeft_sim {S : Wasi} {E : Env} {m m' : Machine S} (h : MSim m m')
    {f g : Frame} {fs gs : List Frame} (hm : m.frames = f :: fs) (hm' : m'.frames = g :: gs)
    (x x' : Final) (ho : ResRel PSim (obsF (.ok x)) (obsF (.ok x'))) (hne : obsF (.ok x) ≠ .trap .checkpointRequested) :
    SameL (m.reactLeft E f x) (m'.reactLeft E g x') := by
  cases x with
  | ckpt d => exact absurd rfl hne
  | halt d =>
    cases x' with
    | ckpt d' => cases ho
    | yield y d' => cases ho with | ok hp => cases hp.y
    | halt d' => cases ho with | ok hp => exact ⟨hp.vm.inst, h.world⟩
  | yield y d =>
    cases x' with
    | ckpt d' => cases ho
    | halt d' => cases ho with | ok hp => cases hp.y
    | yield y' d' =>
      cases ho with
      | ok hp =>
        have hy : y = y' := by have := hp.y; simpa using this
        subst hy
        cases y with
        | ret => exact ⟨hp.vm.inst, h.world⟩
        | invoke k ps rs => exact ⟨hp.vm.inst, h.world⟩
        | wasi id ps r => exact wasiLeft_sim (leave_sim h hm hm' hp.vm) id ps

/-- Two runs of equivalent machines that both end leave the same. -/
theorem runLoopL_sim {S : Wasi} {E : Env} {D D' : DispatcherL} (hD : LeavesPlain E D) (hD' : LeavesPlain E D')
    (hnc : ∀ n code d r vm, D n code d = some (r, vm) → obsF r ≠ .trap .checkpointRequested)
    (hin : InsideP E.P) {en en' : Bool} {n n' : Nat} : ∀ (k k' : Nat) (m m' : Machine S) (r r' : Res (End S)) (l l' : Inst × S.W),
    MSim m m' → m.runLoopL E D en n k = some (r, l) → m'.runLoopL E D' en' n' k' = some (r', l') → obsE r = obsE r' ∧ SameL l l'
  | 0, _, _, _, _, _, _, _, _, h, _ => by cases h
  | _ + 1, 0, _, _, _, _, _, _, _, _, h => by cases h
  | k + 1, k' + 1, m, m', r, r', l, l', he, h, h' => by
    rw [Machine.runLoopL] at h h'
    have hfr := he.frames
    match hm : m.frames, hm' : m'.frames with
    | [], _ :: _ => rw [hm, hm'] at hfr; simp at hfr
    | _ :: _, [] => rw [hm, hm'] at hfr; simp at hfr
    | [], [] =>
      simp only [Machine.roundL, hm] at h
      simp only [Machine.roundL, hm'] at h'
      cases h; cases h'
      exact ⟨by simp [obsE, he.inst, he.world], he.inst, he.world⟩
    | f :: fs, g :: gs =>
      rw [hm, hm'] at hfr
      simp only [List.map_cons, List.cons.injEq] at hfr
      obtain ⟨hfg, -⟩ := hfr
      have hfunc : f.func = g.func := (keys hfg).1
      simp only [Machine.roundL, hm] at h
      simp only [Machine.roundL, hm'] at h'
      cases hd : D n (E.P.body f.func) (m.enter f) with
      | none => rw [hd] at h; cases h
      | some x =>
        cases hd' : D' n' (E.P.body g.func) (m'.enter g) with
        | none => rw [hd'] at h'; cases h'
        | some x' =>
          obtain ⟨x, vm⟩ := x
          obtain ⟨x', vm'⟩ := x'
          rw [hd] at h
          rw [hd'] at h'
          obtain ⟨j, v, hj, hv⟩ := hD _ _ _ _ _ (hin f.func) hd
          obtain ⟨o, v1, hj2, hos, hvv⟩ := plainL_sim _ _ _ j _ _ _ _ (enter_sim he hm hm') hj
          rw [hfunc] at hj2
          obtain ⟨j', v', hj', hv'⟩ := hD' _ _ _ _ _ (hin g.func) hd'
          have e := plainL_unique hj2 hj'
          simp only [Prod.mk.injEq] at e
          obtain ⟨rfl, rfl⟩ := e
          rw [hv, hv'] at hvv
          have hn := hnc _ _ _ _ _ hd
          cases x with
          | ok fin =>
            cases x' with
            | ok fin' =>
              have hrel := react_sim (E := E) (en := en) (en' := en') he hm hm' (.ok fin) (.ok fin') hos hn
              have hl := reactLeft_sim (E := E) he hm hm' fin fin' hos hn
              simp only [Res.bind_ok] at hrel
              simp only at h h'
              generalize ha : m.react E en f fin = a at hrel h
              generalize hb : m'.react E en' g fin' = b at hrel h'
              cases hrel with
              | ok hrr =>
                cases hrr with
                | running hq => exact runLoopL_sim hD hD' hnc hin k k' _ _ r r' l l' hq h h'
                | done hi hw =>
                  cases h; cases h'
                  exact ⟨by simp [obsE, hi, hw], hl⟩
              | trap e => cases h; cases h'; exact ⟨rfl, hl⟩
              | panic => cases h; cases h'; exact ⟨rfl, hl⟩
              | ub => cases h; cases h'; exact ⟨rfl, hl⟩
            | trap e => cases fin <;> first | (cases hos; done) | exact absurd rfl hn
            | panic => cases fin <;> cases hos
            | ub => cases fin <;> cases hos
          | trap e =>
            cases x' with
            | ok fin' => cases fin' <;> first | (cases hos; done) | (cases hos; exact absurd rfl hn)
            | trap e' => cases hos; cases h; cases h'; exact ⟨rfl, hvv, he.world⟩
            | panic => cases hos
            | ub => cases hos
          | panic =>
            cases x' with
            | ok fin' => cases fin' <;> cases hos
            | trap e' => cases hos
            | panic => cases h; cases h'; exact ⟨rfl, hvv, he.world⟩
            | ub => cases hos
          | ub =>
            cases x' with
            | ok fin' => cases fin' <;> cases hos
            | trap e' => cases hos
            | panic => cases hos
            | ub => cases h; cases h'; exact ⟨rfl, hvv, he.world⟩

end Verif.Lemmas
