import Verif.Props.ExecutedTr
/-
C79, groundwork: the same of a whole run.
-/
namespace Verif.Props
open Verif.Model Verif.Spec Verif.Lemmas

/-- function and position -/
abbrev tagged (f : Nat) (l : List Nat) : List (Nat × Nat) := l.map fun pc => (f, pc)

theorem plainTo_unique {E : Env} {code : List Instr} {s : VM} {o o' : Res (Option Yield × VM)} (h : PlainTo E code s o)
    (h' : PlainTo E code s o') : o = o' := by
  obtain ⟨k, h⟩ := h
  obtain ⟨k', h'⟩ := h'
  induction k generalizing s k' with
  | zero => simp [plainRun] at h
  | succ k ih =>
    cases k' with
    | zero => simp [plainRun] at h'
    | succ k' =>
      rw [plainRun] at h h'
      split at h
      · rename_i hi
        rw [hi] at h'
        simp only [Option.some.injEq] at h h'
        rw [← h, ← h']
      · rename_i i hi
        simp only [hi] at h'
        split at h
        · rename_i vm hs
          simp only [hs] at h'
          exact ih h k' h'
        all_goals
          rename_i hs
          simp only [hs, Option.some.injEq] at h h'
          rw [← h, ← h']

/-- `TrM H P w b l m`: the machine `m` will execute the instructions `l`, and, if `b`, then comes to an end -/
inductive TrM {S : Wasi} (H : FloatHost) (P : Prog) (w : Bool) : Bool → List (Nat × Nat) → Machine S → Prop
  | cut (m) : TrM H P w false [] m
  | empty {m} (hm : m.frames = []) : TrM H P w true [] m
  | part {m f fs l} (hm : m.frames = f :: fs) (ht : Tr H P (P.body f.func) false l (m.enter f).vm) : TrM H P w false (tagged f.func l) m
  | over {m f fs l} (hm : m.frames = f :: fs) (ht : Tr H P (P.body f.func) true l (m.enter f).vm)
      (hn : ∀ n m1, m.round (looking H P w) (loopD (looking H P w)) true n ≠ some (.ok (.running m1))) : TrM H P w true (tagged f.func l) m
  | next {b m m1 f fs l j n} (hm : m.frames = f :: fs) (ht : Tr H P (P.body f.func) true l (m.enter f).vm)
      (hr : m.round (looking H P w) (loopD (looking H P w)) true n = some (.ok (.running m1))) (hj : TrM H P w b j m1) :
      TrM H P w b (tagged f.func l ++ j) m

section
variable {S : Wasi} {H : FloatHost} {P : Prog} {w a : Bool} {t : Nat → Bool}

theorem tops {m m' : Machine S} (hs : MSim m m') {f : Frame} {fs : List Frame} (hm : m.frames = f :: fs) :
    ∃ g gs, m'.frames = g :: gs ∧ f.func = g.func := by
  have hfr := hs.frames
  rw [hm] at hfr
  cases hm' : m'.frames with
  | nil => rw [hm'] at hfr; simp at hfr
  | cons g gs =>
    rw [hm'] at hfr
    simp only [List.map_cons, List.cons.injEq] at hfr
    exact ⟨g, gs, rfl, (keys hfr.1).1⟩

theorem TrM.sim (hin : InsideP P) {b : Bool} {l : List (Nat × Nat)} {m : Machine S} (h : TrM H P w b l m) :
    ∀ {m' : Machine S}, MSim m m' → TrM H P w b l m' := by
  induction h with
  | cut => exact fun _ => .cut _
  | @empty m hm =>
    intro m' hs
    have hfr := hs.frames
    rw [hm] at hfr
    exact .empty (List.map_eq_nil_iff.mp hfr.symm)
  | part hm ht =>
    intro m' hs
    obtain ⟨g, gs, hm', hf⟩ := tops hs hm
    rw [hf] at ht ⊢
    exact .part hm' (ht.sim (enter_sim hs hm hm'))
  | over hm ht hn =>
    intro m' hs
    obtain ⟨g, gs, hm', hf⟩ := tops hs hm
    rw [hf] at ht ⊢
    refine .over hm' (ht.sim (enter_sim hs hm hm')) fun n m1 hr => ?_
    obtain ⟨n', m1', h1, -⟩ := round_lift hin .loop hs.symm hr
    exact hn _ _ h1
  | next hm ht hr _ ih =>
    intro m' hs
    obtain ⟨g, gs, hm', hf⟩ := tops hs hm
    rw [hf] at ht ⊢
    obtain ⟨n', m1', h1, h2⟩ := round_lift hin .loop hs hr
    exact .next hm' (ht.sim (enter_sim hs hm hm')) h1 (ih h2)

theorem tagged_prefix {f : Nat} {l j : List Nat} (h : l <+: j) (k : List (Nat × Nat)) : tagged f l <+: tagged f j ++ k :=
  (h.map _).trans (List.prefix_append _ _)

/-- two lists of what a machine will execute: one is the beginning of the other, and a complete one is the longer -/
theorem TrM.comparable {b : Bool} {l : List (Nat × Nat)} {m : Machine S} (h : TrM H P w b l m) :
    ∀ {c : Bool} {j : List (Nat × Nat)}, TrM H P w c j m → (b = false ∧ l <+: j) ∨ (c = false ∧ j <+: l) ∨ l = j := by
  induction h with
  | cut => exact fun _ => .inl ⟨rfl, List.nil_prefix⟩
  | @empty m hm =>
    intro c j k
    cases k with
    | cut => exact .inr (.inl ⟨rfl, List.nil_prefix⟩)
    | empty => exact .inr (.inr rfl)
    | part hm' => rw [hm] at hm'; cases hm'
    | over hm' => rw [hm] at hm'; cases hm'
    | next hm' => rw [hm] at hm'; cases hm'
  | @part m f fs l hm ht =>
    intro c j k
    cases k with
    | cut => exact .inr (.inl ⟨rfl, List.nil_prefix⟩)
    | empty hm' => rw [hm] at hm'; cases hm'
    | part hm' ht' =>
      rw [hm] at hm'; cases hm'
      rcases ht.comparable ht' with ⟨_, h⟩ | ⟨_, h⟩ | rfl
      · exact .inl ⟨rfl, h.map _⟩
      · exact .inr (.inl ⟨rfl, h.map _⟩)
      · exact .inr (.inr rfl)
    | over hm' ht' =>
      rw [hm] at hm'; cases hm'
      rcases ht.comparable ht' with ⟨_, h⟩ | ⟨h, _⟩ | rfl
      · exact .inl ⟨rfl, h.map _⟩
      · cases h
      · exact .inr (.inr rfl)
    | next hm' ht' hr' hj' =>
      rw [hm] at hm'; cases hm'
      rcases ht.comparable ht' with ⟨_, h⟩ | ⟨h, _⟩ | rfl
      · exact .inl ⟨rfl, tagged_prefix h _⟩
      · cases h
      · exact .inl ⟨rfl, List.prefix_append _ _⟩
  | @over m f fs l hm ht hn =>
    intro c j k
    cases k with
    | cut => exact .inr (.inl ⟨rfl, List.nil_prefix⟩)
    | empty hm' => rw [hm] at hm'; cases hm'
    | part hm' ht' =>
      rw [hm] at hm'; cases hm'
      rcases ht.comparable ht' with ⟨h, _⟩ | ⟨_, h⟩ | rfl
      · cases h
      · exact .inr (.inl ⟨rfl, h.map _⟩)
      · exact .inr (.inr rfl)
    | over hm' ht' =>
      rw [hm] at hm'; cases hm'
      rcases ht.comparable ht' with ⟨h, _⟩ | ⟨h, _⟩ | rfl
      · cases h
      · cases h
      · exact .inr (.inr rfl)
    | next hm' ht' hr' hj' => exact absurd hr' (hn _ _)
  | @next b m m1 f fs l j n hm ht hr _ ih =>
    intro c j' k
    cases k with
    | cut => exact .inr (.inl ⟨rfl, List.nil_prefix⟩)
    | empty hm' => rw [hm] at hm'; cases hm'
    | part hm' ht' =>
      rw [hm] at hm'; cases hm'
      rcases ht.comparable ht' with ⟨h, _⟩ | ⟨_, h⟩ | rfl
      · cases h
      · exact .inr (.inl ⟨rfl, tagged_prefix h _⟩)
      · exact .inr (.inl ⟨rfl, List.prefix_append _ _⟩)
    | over hm' ht' hn' => exact absurd hr (hn' _ _)
    | @next _ _ m2 f2 fs2 l2 j2 n2 hm' ht' hr' hj' =>
      rw [hm] at hm'; cases hm'
      have e := round_det looking_quiet.faithful hr hr'
      simp only [Res.ok_inj, Round.running.injEq] at e
      subst e
      have e : l = l2 := by
        rcases ht.comparable ht' with ⟨h, _⟩ | ⟨h, _⟩ | h
        · cases h
        · cases h
        · exact h
      subst e
      rcases ih hj' with ⟨h1, h2⟩ | ⟨h1, h2⟩ | rfl
      · exact .inl ⟨h1, (List.prefix_append_right_inj _).mpr h2⟩
      · exact .inr (.inl ⟨h1, (List.prefix_append_right_inj _).mpr h2⟩)
      · exact .inr (.inr rfl)

/-- what a run notes, according to how it ends -/
def NotesM (H : FloatHost) (P : Prog) (w : Bool) (l : List (Nat × Nat)) (m : Machine S) : Option (Res (End S)) → Prop
  | none => TrM H P w false l m
  | some (.ok (.ckpt mc)) => ∀ b j, TrM H P w b j mc → TrM H P w b (l ++ j) m
  | some _ => TrM H P w true l m

theorem NotesM.next (hin : InsideP P) {m m1 m1' : Machine S} {f : Frame} {fs : List Frame} {l : List Nat} {j : List (Nat × Nat)} {n : Nat}
    {r : Option (Res (End S))} (hm : m.frames = f :: fs) (ht : Tr H P (P.body f.func) true l (m.enter f).vm)
    (hr : m.round (looking H P w) (loopD (looking H P w)) true n = some (.ok (.running m1'))) (hs : MSim m1 m1')
    (h : NotesM H P w j m1 r) : NotesM H P w (tagged f.func l ++ j) m r := by
  unfold NotesM at h ⊢
  split at h
  · exact .next hm ht hr (h.sim hin hs)
  · intro b k hk
    rw [List.append_assoc]
    exact .next hm ht hr ((h b k hk).sim hin hs)
  · exact .next hm ht hr (h.sim hin hs)

theorem not_ckpt_ne {m m1 : Machine S} {E : Env} {en : Bool} {f : Frame} {x : Res Final} (h : (x >>= m.react E en f) = .ok (.running m1)) :
    obsF x ≠ .trap .checkpointRequested := by
  cases x with
  | ok fin =>
    cases fin with
    | ckpt d => simp [Machine.react] at h
    | halt d => simp [obsF]
    | yield y d => simp [obsF]
  | trap e => cases h
  | panic => cases h
  | ub => cases h

theorem cut_plain {E : Env} {code : List Instr} {s : VM} {x : Res Final} (h : CutOk E code s x) (hne : ∀ d, x ≠ .ok (.ckpt d)) :
    PlainTo E code s (obsF x) := by
  cases x with
  | ok fin =>
    cases fin with
    | ckpt d => exact absurd rfl (hne d)
    | halt d => exact h
    | yield y d => exact h
  | trap e => exact h
  | panic => exact h
  | ub => exact h

/-- if the round a dispatcher makes ends the run, so does the round of the looking interpreter -/
theorem not_running (hin : InsideP P) {D : Dispatcher} (hD : IsD (envOf H a t P w) D) {en : Bool} {n : Nat} {m : Machine S} {f : Frame}
    {fs : List Frame} (hm : m.frames = f :: fs) {x : Res Final} (hx : D n (P.body f.func) (m.enter f) = some x)
    (hne : ∀ d, x ≠ .ok (.ckpt d)) (hno : ∀ m1, (x >>= m.react (envOf H a t P w) en f) ≠ .ok (.running m1)) (n' : Nat) (m1 : Machine S) :
    m.round (looking H P w) (loopD (looking H P w)) true n' ≠ some (.ok (.running m1)) := by
  intro hr
  have hp : PlainTo (looking H P w) (P.body f.func) (m.enter f).vm (obsF x) := cut_plain (disp_cut hD (hin f.func) hx) hne
  simp only [Machine.round, hm] at hr
  split at hr
  · cases hr
  · rename_i x' hx'
    simp only [Option.some.injEq] at hr
    obtain ⟨k, hk⟩ := looking_quiet.faithful.fwd _ _ _ _ (hin f.func) hx'
    have e : obsF x' = obsF x := plainTo_unique (E := looking H P w) ⟨k, hk⟩ hp
    have hrel := react_sim (E := envOf H a t P w) (en := true) (en' := en) (MSim.refl m) hm hm x' x (by
      rw [e]
      generalize obsF x = o
      cases o with
      | ok v => exact .ok ⟨rfl, .refl _⟩
      | trap e => exact .trap e
      | panic => exact .panic
      | ub => exact .ub) (not_ckpt_ne hr)
    have hr' : (x' >>= m.react (envOf H a t P w) true f) = .ok (.running m1) := hr
    rw [hr'] at hrel
    generalize hb : (x >>= m.react (envOf H a t P w) en f) = y at hrel
    cases hrel with
    | ok hrr => cases hrr with | running hq => exact hno _ hb

/-- stopping in the middle of a body and going on from there -/
theorem stop_goes_on (hin : InsideP P) {D : Dispatcher} (hD : IsD (envOf H a t P w) D) {n : Nat} {m : Machine S} (hl : Labelled m) {f : Frame}
    {fs : List Frame} (hm : m.frames = f :: fs) {d : DState} (hx : D n (P.body f.func) (m.enter f) = some (.ok (.ckpt d))) {l : List Nat}
    (hn : ∀ b j, Tr H P (P.body f.func) b j d.vm → Tr H P (P.body f.func) b (l ++ j) (m.enter f).vm) (b : Bool) (j : List (Nat × Nat))
    (hj : TrM H P w b j (m.leave f d)) : TrM H P w b (tagged f.func l ++ j) m := by
  obtain ⟨k, hk⟩ := disp_ticks hD hx
  have hlab : d.vm.labels ≠ [] := hk.labelled (hl f (by rw [hm]; simp))
  have hg := leave_frames (d := d) hm
  generalize hgf : ({ f with
    locals := d.vm.locals
    labels := match d.vm.labels with | [] => [] | l :: ls => { l with ip := d.vm.pc } :: ls
    retRegs := d.vm.retRegs
    memPtr := d.vm.memPtr } : Frame) = g at hg
  have hgfunc : g.func = f.func := by rw [← hgf]
  have hen := enter_leave hm d hlab g fs hg
  have back : ∀ {b j}, Tr H P (P.body g.func) b j ((m.leave f d).enter g).vm → Tr H P (P.body f.func) b (l ++ j) (m.enter f).vm := by
    intro b j h
    rw [hgfunc] at h
    exact hn b j (h.sim hen.symm)
  generalize hmc : m.leave f d = mc at hj
  cases hj with
  | cut => rw [List.append_nil]; exact .part hm (by have := hn false [] (.cut _); rwa [List.append_nil] at this)
  | empty hm2 => subst hmc; rw [hg] at hm2; cases hm2
  | part hm2 ht =>
    subst hmc; rw [hg] at hm2; cases hm2
    rw [hgfunc, ← List.map_append]
    exact .part hm (back ht)
  | over hm2 ht hno =>
    subst hmc; rw [hg] at hm2; cases hm2
    rw [hgfunc, ← List.map_append]
    refine .over hm (back ht) fun n' m1 hr => ?_
    simp only [Machine.round, hm] at hr
    split at hr
    · cases hr
    · rename_i x' hx'
      simp only [Option.some.injEq] at hr
      obtain ⟨i, hi⟩ := looking_quiet.faithful.fwd _ _ _ _ (hin f.func) hx'
      obtain ⟨i2, hi2⟩ := (Ticks.plain (E := looking H P w) hk (obsF x')).mp ⟨i, hi⟩
      obtain ⟨o2, hj2, hos⟩ := plain_sim _ _ _ i2 _ _ _ hen hi2
      have hr2 : (x' >>= (m.leave f d).react (looking H P w) true g) = .ok (.running m1) := by
        rw [← hr]
        cases x' with
        | ok v => exact react_leave hm d g fs hg v
        | trap e => rfl
        | panic => rfl
        | ub => rfl
      obtain ⟨n2, m2, h1, -⟩ := round_by hin (.refl (m.leave f d)) hg hg (o := o2) ⟨i2, by rw [hgfunc]; exact hj2⟩ hos hr2
      exact hno _ _ h1
  | @next _ _ m1 f2 fs2 l2 j2 n2 hm2 ht hr hj2 =>
    subst hmc; rw [hg] at hm2; cases hm2
    rw [hgfunc, ← List.append_assoc, ← List.map_append]
    simp only [Machine.round, hg] at hr
    split at hr
    · cases hr
    · rename_i x' hx'
      rw [hgfunc] at hx'
      simp only [Option.some.injEq] at hr
      have hr2 : (x' >>= m.react (looking H P w) true f) = .ok (.running m1) := by
        rw [← hr]
        cases x' with
        | ok v => exact (react_leave hm d g fs hg v).symm
        | trap e => rfl
        | panic => rfl
        | ub => rfl
      obtain ⟨j', hj'⟩ := looking_quiet.faithful.fwd _ _ _ _ (hin f.func) hx'
      obtain ⟨o2, hj2', hos⟩ := plain_sim _ _ _ j' _ _ _ hen.symm hj'
      have hp : PlainTo (looking H P w) (P.body f.func) (m.enter f).vm o2 :=
        (Ticks.plain (E := looking H P w) hk o2).mpr ⟨j', hj2'⟩
      obtain ⟨n', m1', h1, h2⟩ := round_by hin (.refl m) hm hm hp hos hr2
      exact .next hm (back ht) h1 (hj2.sim hin h2)

/-- whatever the build, the dispatcher and the triggers -/
theorem run_notes (hin : InsideP P) {D : Dispatcher} {T : Tracer} (hD : IsDT (envOf H a t P w) D T) {en : Bool} {n : Nat} :
    ∀ (k : Nat) (m : Machine S), Labelled m →
      NotesM H P w (m.runLoopPcs (envOf H a t P w) D T en n k) m (m.runLoop (envOf H a t P w) D en n k)
  | 0, m, _ => .cut _
  | k + 1, m, hl => by
    rw [Machine.runLoopPcs, Machine.runLoop]
    cases hm : m.frames with
    | nil =>
      simp only [Machine.roundPcs, Machine.round, hm, List.append_nil]
      exact TrM.empty hm
    | cons f fs =>
      have hd := disp_notes hD n (P.body f.func) (m.enter f)
      have he : m.roundPcs (envOf H a t P w) T n = tagged f.func (T n (P.body f.func) (m.enter f)) := by
        simp only [Machine.roundPcs, hm]; rfl
      rw [he]
      generalize T n (P.body f.func) (m.enter f) = l at hd ⊢
      cases hx : D n (P.body f.func) (m.enter f) with
      | none =>
        have hr : m.round (envOf H a t P w) D en n = none := by
          simp only [Machine.round, hm]
          rw [show D n ((envOf H a t P w).P.body f.func) (m.enter f) = none from hx]
        rw [hx] at hd
        rw [hr]
        simp only [List.append_nil]
        exact TrM.part hm hd
      | some x =>
        have hr : m.round (envOf H a t P w) D en n = some (x >>= m.react (envOf H a t P w) en f) := by
          simp only [Machine.round, hm]
          rw [show D n ((envOf H a t P w).P.body f.func) (m.enter f) = some x from hx]
        by_cases hc : ∃ d, x = .ok (.ckpt d)
        · obtain ⟨d, rfl⟩ := hc
          rw [hx] at hd
          rw [hr]
          simp only [Res.bind_ok, Machine.react, List.append_nil]
          exact fun b j hj => stop_goes_on hin hD.isD hl hm hx hd b j hj
        · have hne : ∀ d, x ≠ .ok (.ckpt d) := fun d e => hc ⟨d, e⟩
          have ht : Tr H P (P.body f.func) true l (m.enter f).vm := by
            rw [hx] at hd
            unfold Notes at hd
            split at hd
            · rename_i e; cases e
            · rename_i e; simp only [Option.some.injEq] at e; exact absurd e (hne _)
            · exact hd
          by_cases hrun : ∃ m1, (x >>= m.react (envOf H a t P w) en f) = .ok (.running m1)
          · obtain ⟨m1, h1⟩ := hrun
            rw [hr, h1]
            simp only
            rw [h1] at hr
            obtain ⟨n', m1', h2, h3⟩ := round_lift hin hD.isD (.refl m) hr
            exact NotesM.next hin hm ht h2 h3 (run_notes hin hD k m1 (lab_round hD.isD hr hl))
          · have hno : ∀ m1, (x >>= m.react (envOf H a t P w) en f) ≠ .ok (.running m1) := fun m1 e => hrun ⟨m1, e⟩
            have ho : TrM H P w true (tagged f.func l) m := .over hm ht (not_running hin hD.isD hm hx hne hno)
            rw [hr]
            generalize hy : (x >>= m.react (envOf H a t P w) en f) = y at hno
            cases y with
            | ok r =>
              cases r with
              | running m1 => exact absurd rfl (hno m1)
              | done vs m1 => simp only [List.append_nil]; exact ho
              | ckpt m1 =>
                exfalso
                cases x with
                | ok fin =>
                  obtain ⟨d, rfl, -⟩ := react_ckpt hy
                  exact hne d rfl
                | trap e => cases hy
                | panic => cases hy
                | ub => cases hy
            | trap e => simp only [List.append_nil]; exact ho
            | panic => simp only [List.append_nil]; exact ho
            | ub => simp only [List.append_nil]; exact ho

end

end Verif.Props
