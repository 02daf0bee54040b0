import Verif.Props.Executed
/-
C80, groundwork: what has been executed determines the state it has led to.
-/
namespace Verif.Props
open Verif.Model Verif.Spec Verif.Lemmas

/-- `St H P code l s I`: in state `s`, after the instructions at the positions `l`, the instance is `I`, and the body has not ended -/
inductive St (H : FloatHost) (P : Prog) (code : List Instr) : List Nat → VM → Inst → Prop
  | here (s) : St H P code [] s s.inst.data
  | step {l s s1 i I} (hi : code[s.pc]? = some i) (hs : Model.step H P code.length s i = .ok (.cont s1)) (k : St H P code l s1 I) :
      St H P code (s.pc :: l) s I

theorem St.at_end {H : FloatHost} {P : Prog} {code : List Instr} {l : List Nat} {s : VM} {I : Inst} (h : St H P code l s I)
    (hi : code[s.pc]? = none) : l = [] ∧ I = s.inst.data := by
  cases h with
  | here => exact ⟨rfl, rfl⟩
  | step hi' => rw [hi] at hi'; cases hi'

theorem St.nil {H : FloatHost} {P : Prog} {code : List Instr} {s : VM} {I : Inst} (h : St H P code [] s I) : I = s.inst.data := by
  cases h; rfl

theorem St.sim {H : FloatHost} {P : Prog} {code : List Instr} {l : List Nat} {s : VM} {I : Inst} (h : St H P code l s I) :
    ∀ {t : VM}, VSim s t → St H P code l t I := by
  induction h with
  | here => intro t hv; rw [hv.inst]; exact .here _
  | @step l s s1 i I hi hs _ ih =>
    intro t hv
    have hst := step_sim H P code.length hv i
    rw [hs] at hst
    generalize hb : Model.step H P code.length t i = a at hst
    cases hst with
    | ok ho =>
      cases ho with
      | cont hv1 => rw [hv.pc]; exact .step (by rw [← hv.pc]; exact hi) hb (ih hv1)

theorem St.tr {H : FloatHost} {P : Prog} {code : List Instr} {l : List Nat} {s : VM} {I : Inst} (h : St H P code l s I) :
    Tr H P code false l s := by
  induction h with
  | here => exact .cut _
  | step hi hs _ ih => exact .step hi hs ih

theorem St.det {H : FloatHost} {P : Prog} {code : List Instr} {l : List Nat} {s : VM} {I : Inst} (h : St H P code l s I) :
    ∀ {j : List Nat} {J : Inst}, St H P code j s J → l = j → I = J := by
  induction h with
  | here =>
    rintro j J k rfl
    exact k.nil.symm
  | step hi hs _ ih =>
    intro j J k e
    cases k with
    | here => cases e
    | step hi' hs' k' =>
      rw [hi] at hi'; cases hi'
      rw [hs] at hs'; cases hs'
      exact ih k' (List.cons.inj e).2

/-- all of the body has been executed: what is left is to return, with the instance as it is -/
theorem St.over {E : Env} {code : List Instr} {l : List Nat} {s : VM} {I : Inst} (h : St E.H E.P code l s I) :
    ∀ {j : List Nat}, Tr E.H E.P code true j s → l = j → ∃ vm, PlainTo E code s (.ok (none, vm)) ∧ vm.inst.data = I := by
  induction h with
  | here s =>
    intro j k e
    cases k with
    | over hi => exact ⟨{ s with pc := 0, labels := [] }, ⟨1, by rw [plainRun, hi]⟩, rfl⟩
    | last => cases e
    | step => cases e
  | step hi hs _ ih =>
    intro j k e
    cases k with
    | over => cases e
    | last hi' hs' => rw [hi] at hi'; cases hi'; exact absurd hs (hs' _)
    | step hi' hs' k' =>
      rw [hi] at hi'; cases hi'
      rw [hs] at hs'; cases hs'
      obtain ⟨vm, h1, h2⟩ := ih k' (List.cons.inj e).2
      exact ⟨vm, (plainTo_step hi hs _).mpr h1, h2⟩

/-- where a dispatcher that stops for a checkpoint is -/
def NotesS (H : FloatHost) (P : Prog) (code : List Instr) (l : List Nat) (s : VM) (r : Option (Res Final)) : Prop :=
  ∀ d, r = some (.ok (.ckpt d)) → ∀ j I, St H P code j d.vm I → St H P code (l ++ j) s I

theorem NotesS.step {H : FloatHost} {P : Prog} {code : List Instr} {l : List Nat} {s s1 : VM} {i : Instr} {r : Option (Res Final)}
    (hi : code[s.pc]? = some i) (hs : Model.step H P code.length s i = .ok (.cont s1)) (h : NotesS H P code l s1 r) :
    NotesS H P code (s.pc :: l) s r :=
  fun d hd j I k => .step hi hs (h d hd j I k)

theorem loop_beyond_inst {E : Env} {code : List Instr} : ∀ (n : Nat) (d : DState), code.length ≤ d.vm.pc →
    ∀ d', loopRun E code n d = some (.ok (.ckpt d')) → d'.vm.inst = d.vm.inst
  | 0, _, _, _, h => by simp [loopRun] at h
  | n + 1, d, hd, d', h => by
    rw [loopRun] at h
    generalize hp : poll E d = pd at h
    obtain ⟨b, d1⟩ := pd
    have hv := poll_vm' hp
    rw [← hv] at hd ⊢
    cases b with
    | true => cases h; rfl
    | false =>
      simp only [List.getElem?_eq_none_iff.mpr hd] at h
      cases hl : d1.vm.labels with
      | nil => rw [hl] at h; cases h
      | cons l ls =>
        cases ls with
        | nil => rw [hl] at h; cases h
        | cons l2 ls =>
          rw [hl] at h
          simp only at h
          by_cases hc : l.returnIp ≤ d1.vm.pc ∧ l.isLoop = false
          · rw [if_pos hc] at h; cases h
          · rw [if_neg hc] at h
            have := loop_beyond_inst n _ (by
              simp only
              split
              · omega
              · rename_i hlp
                simp only [Bool.not_eq_true] at hlp
                simp only [hlp, and_true, Nat.not_le] at hc
                omega) d' h
            exact this

theorem loop_is_at {E : Env} {code : List Instr} : ∀ (n : Nat) (d : DState),
    NotesS E.H E.P code (loopPcs E code n d) d.vm (loopRun E code n d)
  | 0, d => fun d' h => by simp [loopRun] at h
  | n + 1, d => by
    by_cases hle : code.length ≤ d.vm.pc
    · obtain ⟨h1, h2⟩ := loop_beyond (E := E) (n + 1) d hle
      rw [h1]
      intro d' he j I k
      obtain ⟨rfl, rfl⟩ := k.at_end (List.getElem?_eq_none_iff.mpr (h2 d' he))
      rw [loop_beyond_inst _ _ hle _ he]
      exact .here _
    · rw [loopPcs, loopRun]
      generalize hp : poll E d = pd
      obtain ⟨b, d1⟩ := pd
      have hv := poll_vm' hp
      rw [← hv] at hle ⊢
      cases b with
      | true => intro d' h j I k; cases h; exact k
      | false =>
        cases hi : code[d1.vm.pc]? with
        | none => exact absurd (List.getElem?_eq_none_iff.mp hi) hle
        | some i =>
          simp only [hi]
          cases hs : Model.step E.H E.P code.length d1.vm i with
          | ok o =>
            cases o with
            | cont vm => exact NotesS.step hi hs (loop_is_at n { d1 with vm := vm })
            | yield y vm => exact fun d' h => by cases h
          | trap e => exact fun d' h => by cases h
          | panic => exact fun d' h => by cases h
          | ub => exact fun d' h => by cases h

theorem chain_is_at {E : Env} {code : List Instr} : ∀ (n : Nat) (d : DState),
    NotesS E.H E.P code (chainPcs E code n d) d.vm (tcoChain E code n d)
  | 0, d => fun d' h => by simp [tcoChain] at h
  | n + 1, d => by
    rw [chainPcs, tcoChain]
    cases hi : code[d.vm.pc]? with
    | none =>
      simp only
      split
      · exact fun d' h => by cases h
      · exact fun d' h => by cases h
    | some i =>
      simp only
      cases hs : Model.step E.H E.P code.length d.vm i with
      | ok o =>
        cases o with
        | cont vm =>
          simp only
          generalize hp : poll E { d with vm := vm } = pd
          obtain ⟨b, d1⟩ := pd
          have hv : d1.vm = vm := poll_vm' hp
          cases b with
          | true => intro d' h j I k; cases h; exact St.step hi hs (by rw [← hv]; exact k)
          | false => exact NotesS.step hi hs (by rw [← hv]; exact chain_is_at n d1)
        | yield y vm => exact fun d' h => by cases h
      | trap e => exact fun d' h => by cases h
      | panic => exact fun d' h => by cases h
      | ub => exact fun d' h => by cases h

theorem disp_is_at {E : Env} {D : Dispatcher} {T : Tracer} (h : IsDT E D T) (n : Nat) (code : List Instr) (d : DState) :
    NotesS E.H E.P code (T n code d) d.vm (D n code d) := by
  cases h with
  | loop => exact loop_is_at n d
  | tco =>
    simp only [tcoD, tcoRun, tcoPcs]
    generalize hp : poll E d = pd
    obtain ⟨b, d1⟩ := pd
    have hv := poll_vm' hp
    rw [← hv]
    cases b with
    | true => intro d' h j I k; cases h; exact k
    | false =>
      simp only
      split
      · exact fun d' h => by cases h
      · exact chain_is_at n d1

/-- `StM H P w l m X`: after the machine `m` has executed the instructions `l`, instance and world are `X` -/
inductive StM {S : Wasi} (H : FloatHost) (P : Prog) (w : Bool) : List (Nat × Nat) → Machine S → Inst × S.W → Prop
  | part {m f fs l I} (hm : m.frames = f :: fs) (ht : St H P (P.body f.func) l (m.enter f).vm I) : StM H P w (tagged f.func l) m (I, m.world)
  | next {m m1 f fs l j n X} (hm : m.frames = f :: fs) (ht : Tr H P (P.body f.func) true l (m.enter f).vm)
      (hr : m.round (looking H P w) (loopD (looking H P w)) true n = some (.ok (.running m1))) (hj : StM H P w j m1 X) :
      StM H P w (tagged f.func l ++ j) m X

section
variable {S : Wasi} {H : FloatHost} {P : Prog} {w a : Bool} {t : Nat → Bool}

theorem StM.sim (hin : InsideP P) {l : List (Nat × Nat)} {m : Machine S} {X : Inst × S.W} (h : StM H P w l m X) :
    ∀ {m' : Machine S}, MSim m m' → StM H P w l m' X := by
  induction h with
  | part hm ht =>
    intro m' hs
    obtain ⟨g, gs, hm', hf⟩ := tops hs hm
    rw [hf] at ht ⊢
    rw [hs.world]
    exact .part hm' (ht.sim (enter_sim hs hm hm'))
  | next hm ht hr _ ih =>
    intro m' hs
    obtain ⟨g, gs, hm', hf⟩ := tops hs hm
    rw [hf] at ht ⊢
    obtain ⟨n', m1', h1, h2⟩ := round_lift hin .loop hs hr
    exact .next hm' (ht.sim (enter_sim hs hm hm')) h1 (ih h2)

theorem return_keeps {m m1 : Machine S} (h : m.doReturn = .ok (.running m1)) : m1.inst = m.inst ∧ m1.world = m.world := by
  unfold Machine.doReturn at h
  split at h
  · cases h
  · split at h
    · simp [Res.bind_eq_ok] at h
    · simp only [Res.bind_eq_ok] at h
      obtain ⟨vs, -, rf, -, h⟩ := h
      cases h
      exact ⟨rfl, rfl⟩

/-- at the end of a body, the round only returns -/
theorem round_over (hin : InsideP P) {m m1 : Machine S} {f : Frame} {fs : List Frame} {l : List Nat} {I : Inst} {n : Nat}
    (hm : m.frames = f :: fs) (ht : Tr H P (P.body f.func) true l (m.enter f).vm) (hs : St H P (P.body f.func) l (m.enter f).vm I)
    (hr : m.round (looking H P w) (loopD (looking H P w)) true n = some (.ok (.running m1))) : m1.inst.data = I ∧ m1.world = m.world := by
  simp only [Machine.round, hm] at hr
  split at hr
  · cases hr
  · rename_i x hx
    simp only [Option.some.injEq] at hr
    have hp := looking_quiet.faithful.fwd _ _ _ _ (hin f.func) hx
    obtain ⟨vm, h1, h2⟩ := St.over (E := looking H P w) hs ht rfl
    have e := plainTo_unique (E := looking H P w) hp h1
    cases x with
    | ok fin =>
      cases fin with
      | ckpt d => cases e
      | yield y d => cases e
      | halt d =>
        simp only [obsF, Res.ok_inj, Prod.mk.injEq, true_and] at e
        subst e
        obtain ⟨k1, k2⟩ := return_keeps (m := m.leave f d) (m1 := m1) hr
        rw [k1, k2]
        exact ⟨h2, rfl⟩
    | trap e => cases hr
    | panic => cases hr
    | ub => cases hr

theorem StM.nil (hin : InsideP P) {l : List (Nat × Nat)} {m : Machine S} {X : Inst × S.W} (h : StM H P w l m X) :
    l = [] → X = (m.inst.data, m.world) := by
  induction h with
  | @part m f fs l I hm ht =>
    intro e
    have : l = [] := List.map_eq_nil_iff.mp e
    subst this
    rw [ht.nil]
    rfl
  | @next m m1 f fs l j n X hm ht hr _ ih =>
    intro e
    obtain ⟨e1, e2⟩ := List.append_eq_nil_iff.mp e
    have : l = [] := List.map_eq_nil_iff.mp e1
    subst this
    obtain ⟨k1, k2⟩ := round_over hin hm ht (.here _) hr
    rw [ih e2, k1, k2]
    rfl

theorem tagged_inj {f : Nat} {l j : List Nat} (h : tagged f l = tagged f j) : l = j := by
  refine List.map_inj_right (fun a b e => ?_) |>.mp h
  exact (Prod.mk.inj e).2

theorem StM.det_next (hin : InsideP P) {m m1 : Machine S} {f : Frame} {fs : List Frame} {l l2 : List Nat} {j : List (Nat × Nat)} {I : Inst}
    {n : Nat} {X : Inst × S.W} (hm : m.frames = f :: fs) (hs : St H P (P.body f.func) l (m.enter f).vm I)
    (ht : Tr H P (P.body f.func) true l2 (m.enter f).vm)
    (hr : m.round (looking H P w) (loopD (looking H P w)) true n = some (.ok (.running m1))) (hj : StM H P w j m1 X)
    (e : tagged f.func l = tagged f.func l2 ++ j) : (I, m.world) = X := by
  have hp : l <+: l2 := by
    rcases hs.tr.comparable ht with ⟨_, h⟩ | ⟨h, _⟩ | h
    · exact h
    · cases h
    · rw [h]; exact List.prefix_refl _
  have hlen := congrArg List.length e
  simp only [List.length_map, List.length_append] at hlen
  have hle := hp.length_le
  have hj0 : j = [] := List.length_eq_zero_iff.mp (by omega)
  have e2 : l = l2 := hp.eq_of_length (by omega)
  subst e2
  obtain ⟨k1, k2⟩ := round_over hin hm ht hs hr
  rw [hj.nil hin hj0, k1, k2]

theorem StM.det (hin : InsideP P) {l : List (Nat × Nat)} {m : Machine S} {X : Inst × S.W} (h : StM H P w l m X) :
    ∀ {j : List (Nat × Nat)} {Y : Inst × S.W}, StM H P w j m Y → l = j → X = Y := by
  induction h with
  | @part m f fs l I hm ht =>
    intro j Y k e
    cases k with
    | part hm' ht' =>
      rw [hm] at hm'; cases hm'
      have := tagged_inj e
      subst this
      rw [ht.det ht' rfl]
    | next hm' ht' hr' hj' =>
      rw [hm] at hm'; cases hm'
      exact StM.det_next hin hm ht ht' hr' hj' e
  | @next m m1 f fs l j n X hm ht hr hj ih =>
    intro j' Y k e
    cases k with
    | part hm' ht' =>
      rw [hm] at hm'; cases hm'
      exact (StM.det_next hin hm ht' ht hr hj e.symm).symm
    | @next _ m2 f2 fs2 l2 j2 n2 _ hm' ht' hr' hj' =>
      rw [hm] at hm'; cases hm'
      have e1 := round_det looking_quiet.faithful hr hr'
      simp only [Res.ok_inj, Round.running.injEq] at e1
      subst e1
      have e2 : l = l2 := by
        rcases ht.comparable ht' with ⟨h, _⟩ | ⟨h, _⟩ | h
        · cases h
        · cases h
        · exact h
      subst e2
      exact ih hj' (List.append_cancel_left e)

/-- where a run that stops for a checkpoint is -/
def StopsM (H : FloatHost) (P : Prog) (w : Bool) (l : List (Nat × Nat)) (m : Machine S) (r : Option (Res (End S))) : Prop :=
  ∀ mc, r = some (.ok (.ckpt mc)) → mc.frames ≠ [] ∧ ∀ j X, StM H P w j mc X → StM H P w (l ++ j) m X

theorem stop_is_at (hin : InsideP P) {D : Dispatcher} (hD : IsD (envOf H a t P w) D) {n : Nat} {m : Machine S} (hl : Labelled m) {f : Frame}
    {fs : List Frame} (hm : m.frames = f :: fs) {d : DState} (hx : D n (P.body f.func) (m.enter f) = some (.ok (.ckpt d))) {l : List Nat}
    (hn : ∀ b j, Tr H P (P.body f.func) b j d.vm → Tr H P (P.body f.func) b (l ++ j) (m.enter f).vm)
    (hst : ∀ j I, St H P (P.body f.func) j d.vm I → St H P (P.body f.func) (l ++ j) (m.enter f).vm I) (j : List (Nat × Nat))
    (X : Inst × S.W) (hj : StM H P w j (m.leave f d) X) : StM H P w (tagged f.func l ++ j) m X := by
  obtain ⟨k, hk⟩ := disp_ticks hD hx
  have hlab : d.vm.labels ≠ [] := hk.labelled (hl f (by rw [hm]; simp))
  have hg := leave_frames (d := d) hm
  generalize hgf : ({ f with
    locals := d.vm.locals
    labels := match d.vm.labels with | [] => [] | l :: ls => { l with ip := d.vm.pc } :: ls
    retRegs := d.vm.retRegs
    memPtr := d.vm.memPtr } : Frame) = g at hg
  have hgfunc : g.func = f.func := by rw [← hgf]
  have hen := enter_leave hm d hlab g fs hg
  have hw : (m.leave f d).world = m.world := rfl
  generalize hmc : m.leave f d = mc at hj
  cases hj with
  | part hm2 ht =>
    subst hmc; rw [hg] at hm2; cases hm2
    rw [hgfunc] at ht ⊢
    rw [← List.map_append, hw]
    exact .part hm (hst _ _ (ht.sim hen.symm))
  | @next _ m1 f2 fs2 l2 j2 n2 _ hm2 ht hr hj2 =>
    subst hmc; rw [hg] at hm2; cases hm2
    rw [hgfunc] at ht ⊢
    rw [← List.append_assoc, ← List.map_append]
    simp only [Machine.round, hg] at hr
    split at hr
    · cases hr
    · rename_i x' hx'
      rw [hgfunc] at hx'
      simp only [Option.some.injEq] at hr
      have hr2 : (x' >>= m.react (looking H P w) true f) = .ok (.running m1) := by
        rw [← hr]
        cases x' with
        | ok v => exact (react_leave hm d g fs hg v).symm
        | trap e => rfl
        | panic => rfl
        | ub => rfl
      obtain ⟨j', hj'⟩ := looking_quiet.faithful.fwd _ _ _ _ (hin f.func) hx'
      obtain ⟨o2, hj2', hos⟩ := plain_sim _ _ _ j' _ _ _ hen.symm hj'
      have hp : PlainTo (looking H P w) (P.body f.func) (m.enter f).vm o2 :=
        (Ticks.plain (E := looking H P w) hk o2).mpr ⟨j', hj2'⟩
      obtain ⟨n', m1', h1, h2⟩ := round_by hin (.refl m) hm hm hp hos hr2
      exact .next hm (hn _ _ (ht.sim hen.symm)) h1 (hj2.sim hin h2)

/-- whatever the build, the dispatcher and the triggers -/
theorem run_is_at (hin : InsideP P) {D : Dispatcher} {T : Tracer} (hD : IsDT (envOf H a t P w) D T) {en : Bool} {n : Nat} :
    ∀ (k : Nat) (m : Machine S), Labelled m →
      StopsM H P w (m.runLoopPcs (envOf H a t P w) D T en n k) m (m.runLoop (envOf H a t P w) D en n k)
  | 0, m, _ => fun mc h => by simp [Machine.runLoop] at h
  | k + 1, m, hl => by
    rw [Machine.runLoopPcs, Machine.runLoop]
    cases hm : m.frames with
    | nil =>
      simp only [Machine.roundPcs, Machine.round, hm]
      exact fun mc h => by cases h
    | cons f fs =>
      have hd := disp_notes hD n (P.body f.func) (m.enter f)
      have hd2 := disp_is_at hD n (P.body f.func) (m.enter f)
      have he : m.roundPcs (envOf H a t P w) T n = tagged f.func (T n (P.body f.func) (m.enter f)) := by
        simp only [Machine.roundPcs, hm]; rfl
      rw [he]
      generalize T n (P.body f.func) (m.enter f) = l at hd hd2 ⊢
      cases hx : D n (P.body f.func) (m.enter f) with
      | none =>
        have hr : m.round (envOf H a t P w) D en n = none := by
          simp only [Machine.round, hm]
          rw [show D n ((envOf H a t P w).P.body f.func) (m.enter f) = none from hx]
        rw [hr]
        exact fun mc h => by cases h
      | some x =>
        have hr : m.round (envOf H a t P w) D en n = some (x >>= m.react (envOf H a t P w) en f) := by
          simp only [Machine.round, hm]
          rw [show D n ((envOf H a t P w).P.body f.func) (m.enter f) = some x from hx]
        by_cases hc : ∃ d, x = .ok (.ckpt d)
        · obtain ⟨d, rfl⟩ := hc
          rw [hx] at hd
          rw [hr]
          simp only [Res.bind_ok, Machine.react, List.append_nil]
          intro mc h
          cases h
          exact ⟨by rw [leave_frames hm]; simp, fun j X hj => stop_is_at hin hD.isD hl hm hx hd (hd2 d hx) j X hj⟩
        · have hne : ∀ d, x ≠ .ok (.ckpt d) := fun d e => hc ⟨d, e⟩
          have ht : Tr H P (P.body f.func) true l (m.enter f).vm := by
            rw [hx] at hd
            unfold Notes at hd
            split at hd
            · rename_i e; cases e
            · rename_i e; simp only [Option.some.injEq] at e; exact absurd e (hne _)
            · exact hd
          by_cases hrun : ∃ m1, (x >>= m.react (envOf H a t P w) en f) = .ok (.running m1)
          · obtain ⟨m1, h1⟩ := hrun
            rw [hr, h1]
            simp only
            rw [h1] at hr
            obtain ⟨n', m1', h2, h3⟩ := round_lift hin hD.isD (.refl m) hr
            intro mc hmc
            obtain ⟨k1, k2⟩ := run_is_at hin hD k m1 (lab_round hD.isD hr hl) mc hmc
            refine ⟨k1, fun j X hj => ?_⟩
            rw [List.append_assoc]
            exact .next hm ht h2 ((k2 j X hj).sim hin h3)
          · have hno : ∀ m1, (x >>= m.react (envOf H a t P w) en f) ≠ .ok (.running m1) := fun m1 e => hrun ⟨m1, e⟩
            rw [hr]
            generalize hy : (x >>= m.react (envOf H a t P w) en f) = y at hno
            cases y with
            | ok r =>
              cases r with
              | running m1 => exact absurd rfl (hno m1)
              | done vs m1 => exact fun mc h => by cases h
              | ckpt m1 =>
                exfalso
                cases x with
                | ok fin =>
                  obtain ⟨d, rfl, -⟩ := react_ckpt hy
                  exact hne d rfl
                | trap e => cases hy
                | panic => cases hy
                | ub => cases hy
            | trap e => exact fun mc h => by cases h
            | panic => exact fun mc h => by cases h
            | ub => exact fun mc h => by cases h

theorem process_stops (hin : InsideP P) {D : Dispatcher} {T : Tracer} (hD : IsDT (envOf H a t P w) D T) {en : Bool} {n : Nat} {m mc : Machine S}
    (hl : Labelled m) (h : m.run (envOf H a t P w) D en n = some (.ok (.ckpt mc))) :
    (∀ j X, StM H P w j mc X → StM H P w (m.runPcs (envOf H a t P w) D T en n ++ j) m X) ∧
    StM H P w (m.runPcs (envOf H a t P w) D T en n) m (mc.inst.data, mc.world) := by
  obtain ⟨k1, k2⟩ := run_is_at hin hD n _ (setFirst_labelled en hl) mc h
  have k3 : ∀ j X, StM H P w j mc X → StM H P w (m.runPcs (envOf H a t P w) D T en n ++ j) m X :=
    fun j X hj => (k2 j X hj).sim hin (setFirst_msim m en).symm
  refine ⟨k3, ?_⟩
  cases hm : mc.frames with
  | nil => exact absurd hm k1
  | cons f fs =>
    have := k3 _ _ (.part hm (.here _))
    rw [show tagged f.func [] = [] from rfl, List.append_nil] at this
    exact this

end

end Verif.Props
