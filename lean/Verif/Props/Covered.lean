import Verif.Props.Executed
/-
C79: what a session has executed, an undisturbed process executes too if it is watched long enough.
-/
namespace Verif.Props
open Verif.Model Verif.Spec Verif.Lemmas

theorem loop_covers {E : Env} (hq : Quiet E) {code : List Instr} {b : Bool} {l : List Nat} {s : VM} (h : Tr E.H E.P code b l s) :
    ∀ d : DState, d.vm = s → ∃ n0, ∀ n, n0 ≤ n → l <+: loopPcs E code n d := by
  induction h with
  | cut => exact fun d _ => ⟨0, fun n _ => List.nil_prefix⟩
  | over => exact fun d _ => ⟨0, fun n _ => List.nil_prefix⟩
  | @last s i hi hs =>
    rintro d rfl
    refine ⟨1, fun n hn => ?_⟩
    obtain ⟨n, rfl⟩ : ∃ k, n = k + 1 := ⟨n - 1, by omega⟩
    rw [loopPcs]
    have hb := quiet_poll hq d
    generalize hp : poll E d = pd at hb
    obtain ⟨b, d1⟩ := pd
    have hv := poll_vm' hp
    simp only at hb
    subst hb
    rw [← hv] at hi ⊢
    simp only [hi]
    exact List.cons_prefix_cons.mpr ⟨rfl, List.nil_prefix⟩
  | @step b l s s1 i hi hs _ ih =>
    rintro d rfl
    have hb := quiet_poll hq d
    generalize hp : poll E d = pd at hb
    obtain ⟨b, d1⟩ := pd
    have hv := poll_vm' hp
    simp only at hb
    subst hb
    obtain ⟨n0, h0⟩ := ih { d1 with vm := s1 } rfl
    refine ⟨n0 + 1, fun n hn => ?_⟩
    obtain ⟨n, rfl⟩ : ∃ k, n = k + 1 := ⟨n - 1, by omega⟩
    rw [loopPcs, hp]
    rw [← hv] at hi hs ⊢
    simp only [hi, hs]
    exact List.cons_prefix_cons.mpr ⟨rfl, h0 n (by omega)⟩

theorem chain_covers {E : Env} (hq : Quiet E) {code : List Instr} {b : Bool} {l : List Nat} {s : VM} (h : Tr E.H E.P code b l s) :
    ∀ d : DState, d.vm = s → ∃ n0, ∀ n, n0 ≤ n → l <+: chainPcs E code n d := by
  induction h with
  | cut => exact fun d _ => ⟨0, fun n _ => List.nil_prefix⟩
  | over => exact fun d _ => ⟨0, fun n _ => List.nil_prefix⟩
  | @last s i hi hs =>
    rintro d rfl
    refine ⟨1, fun n hn => ?_⟩
    obtain ⟨n, rfl⟩ : ∃ k, n = k + 1 := ⟨n - 1, by omega⟩
    rw [chainPcs]
    simp only [hi]
    exact List.cons_prefix_cons.mpr ⟨rfl, List.nil_prefix⟩
  | @step b l s s1 i hi hs _ ih =>
    rintro d rfl
    have hb := quiet_poll hq { d with vm := s1 }
    generalize hp : poll E { d with vm := s1 } = pd at hb
    obtain ⟨b, d1⟩ := pd
    have hv : d1.vm = s1 := poll_vm' hp
    simp only at hb
    subst hb
    obtain ⟨n0, h0⟩ := ih d1 hv
    refine ⟨n0 + 1, fun n hn => ?_⟩
    obtain ⟨n, rfl⟩ : ∃ k, n = k + 1 := ⟨n - 1, by omega⟩
    rw [chainPcs]
    simp only [hi, hs, hp]
    exact List.cons_prefix_cons.mpr ⟨rfl, h0 n (by omega)⟩

theorem disp_covers {E : Env} (hq : Quiet E) {D : Dispatcher} {T : Tracer} (hD : IsDT E D T) {code : List Instr} {b : Bool} {l : List Nat}
    {d : DState} (h : Tr E.H E.P code b l d.vm) : ∃ n0, ∀ n, n0 ≤ n → l <+: T n code d := by
  cases hD with
  | loop => exact loop_covers hq h d rfl
  | tco =>
    have hb := quiet_poll hq d
    generalize hp : poll E d = pd at hb
    obtain ⟨b, d1⟩ := pd
    have hv := poll_vm' hp
    simp only at hb
    subst hb
    rw [← hv] at h
    simp only [tcoPcs, hp]
    by_cases hle : code.length ≤ d1.vm.pc
    · rw [h.at_end (List.getElem?_eq_none_iff.mpr hle)]
      exact ⟨0, fun n _ => List.nil_prefix⟩
    · simp only [if_neg hle]
      exact chain_covers hq h d1 rfl

section
variable {S : Wasi} {H : FloatHost} {P : Prog} {w a : Bool}

/-- a round of any undisturbed interpreter, from one of the looking one -/
theorem round_back (hin : InsideP P) {D : Dispatcher} (hD : IsD (envOf H a never P w) D) {en : Bool} {n : Nat} {m m' m1 : Machine S}
    (hs : MSim m m') (h : m.round (looking H P w) (loopD (looking H P w)) true n = some (.ok (.running m1))) :
    ∃ n' m1', m'.round (envOf H a never P w) D en n' = some (.ok (.running m1')) ∧ MSim m1 m1' := by
  have q := quietD (E := envOf H a never P w) hD
  have q0 := looking_quiet (H := H) (P := P) (w := w)
  simp only [Machine.round] at h
  cases hm : m.frames with
  | nil => rw [hm] at h; simp at h
  | cons f fs =>
    obtain ⟨g, gs, hm', hf⟩ := tops hs hm
    rw [hm] at h
    simp only at h
    split at h
    · cases h
    · rename_i x hx
      simp only [Option.some.injEq] at h
      obtain ⟨k, hk⟩ := q0.faithful.fwd _ _ _ _ (hin f.func) hx
      obtain ⟨o2, hj, hos⟩ := plain_sim _ _ _ k _ _ _ (enter_sim hs hm hm') hk
      rw [hf] at hj
      obtain ⟨n2, x', hd', hox⟩ := q.faithful.bwd k _ (m'.enter g) _ (hin g.func) hj
      have hrel := react_sim (E := looking H P w) (en := true) (en' := en) hs hm hm' x x' (by rw [hox]; exact hos) (q0.noCk _ _ _ _ hx)
      rw [show (x >>= m.react (looking H P w) true f) = .ok (.running m1) from h] at hrel
      have hr : m'.round (envOf H a never P w) D en n2 = some (x' >>= m'.react (looking H P w) en g) := by
        simp only [Machine.round, hm']
        rw [show D n2 ((envOf H a never P w).P.body g.func) (m'.enter g) = some x' from hd']
        rfl
      generalize hb : (x' >>= m'.react (looking H P w) en g) = b at hrel hr
      cases hrel with
      | ok hrr =>
        cases hrr with
        | @running _ m2 hq => exact ⟨n2, m2, hr, hq⟩

/-- what comes next, an undisturbed interpreter executes -/
theorem run_covers (hin : InsideP P) {D : Dispatcher} {T : Tracer} (hD : IsDT (envOf H a never P w) D T) {en : Bool} {b : Bool}
    {l : List (Nat × Nat)} {m : Machine S} (h : TrM H P w b l m) :
    ∀ {m' : Machine S}, MSim m m' →
      ∃ n0, ∀ n k, n0 ≤ n → n0 ≤ k → l <+: m'.runLoopPcs (envOf H a never P w) D T en n k := by
  have hq : Quiet (envOf H a never P w) := fun _ => rfl
  have q := quietD (E := envOf H a never P w) hD.isD
  have body : ∀ {b : Bool} {l : List Nat} {m : Machine S} {f : Frame} {fs : List Frame}, m.frames = f :: fs →
      Tr H P (P.body f.func) b l (m.enter f).vm → ∀ {m' : Machine S}, MSim m m' →
      ∃ n0, ∀ n k, n0 ≤ n → n0 ≤ k → tagged f.func l <+: m'.runLoopPcs (envOf H a never P w) D T en n k := by
    intro b l m f fs hm ht m' hs
    obtain ⟨g, gs, hm', hf⟩ := tops hs hm
    rw [hf] at ht ⊢
    obtain ⟨n0, h0⟩ := disp_covers hq hD (d := m'.enter g) (ht.sim (enter_sim hs hm hm'))
    refine ⟨n0 + 1, fun n k hn hk => ?_⟩
    obtain ⟨k, rfl⟩ : ∃ j, k = j + 1 := ⟨k - 1, by omega⟩
    rw [Machine.runLoopPcs]
    simp only [Machine.roundPcs, hm']
    exact tagged_prefix (h0 n (by omega)) _
  induction h with
  | cut => exact fun _ => ⟨0, fun _ _ _ _ => List.nil_prefix⟩
  | empty => exact fun _ => ⟨0, fun _ _ _ _ => List.nil_prefix⟩
  | part hm ht => exact fun hs => body hm ht hs
  | over hm ht _ => exact fun hs => body hm ht hs
  | @next b m m1 f fs l j n hm ht hr _ ih =>
    intro m' hs
    obtain ⟨g, gs, hm', hf⟩ := tops hs hm
    obtain ⟨n1, m1', hr', hs1⟩ := round_back hin hD.isD (en := en) hs hr
    obtain ⟨n0, h0⟩ := ih hs1
    refine ⟨max n0 n1 + 1, fun n k hn hk => ?_⟩
    obtain ⟨k, rfl⟩ : ∃ j, k = j + 1 := ⟨k - 1, by omega⟩
    have hrn : m'.round (envOf H a never P w) D en n = some (.ok (.running m1')) := round_mono_le q.faithful (show n1 ≤ n by omega) hr'
    rw [Machine.runLoopPcs, hrn]
    simp only
    have he : m'.roundPcs (envOf H a never P w) T n = tagged f.func l := by
      simp only [Machine.roundPcs, hm', hf]
      rw [hf] at ht
      have hd := disp_notes hD n (P.body g.func) (m'.enter g)
      have ht' := ht.sim (enter_sim hs hm hm')
      have : Tr H P (P.body g.func) true (T n (P.body g.func) (m'.enter g)) (m'.enter g).vm := by
        unfold Notes at hd
        split at hd
        · rename_i e
          simp only [Machine.round, hm'] at hrn
          rw [show D n ((envOf H a never P w).P.body g.func) (m'.enter g) = none from e] at hrn
          cases hrn
        · rename_i d' e
          exact absurd rfl (q.noCk _ _ _ _ e)
        · exact hd
      have e : T n (P.body g.func) (m'.enter g) = l := by
        rcases this.comparable ht' with ⟨h, _⟩ | ⟨h, _⟩ | h
        · cases h
        · cases h
        · exact h
      rw [show T n ((envOf H a never P w).P.body g.func) (m'.enter g) = l from e]
    rw [he]
    exact (List.prefix_append_right_inj _).mpr (h0 n k (by omega) (by omega))

end

/-- **C79**, also for programs that do not end: whatever the processes of a session have executed, one after the other, any undisturbed
process executes too, first and in the same order, if it is watched long enough. -/
theorem session_covered_partial {S : Wasi} (hS : WasiKeepsSize S) {T : FloatText} {lz : Lz} {A : SMod} {H : FloatHost}
    (h : A.WellFormed S H) {P : Prog} (hc : (A.source H).compile A.globalTypes = some P) (hm : Small (A.source H)) {o : Options}
    (ho : o.restore = none) {world : S.W} {o' : Options} {w' : S.W} {l : List (Nat × Nat)}
    (hs : CleanExecuted T lz H (some A.file) o world o' w' l) {p : Process} {j : List (Nat × Nat)}
    (hp : p.Executes T lz H (some A.file) o' w' j) (u : Process) :
    ∃ n0, ∀ n k, n0 ≤ n → ({ u.undisturbed with fuel := n }).Executes T lz H (some A.file) o world k → l ++ j <+: k := by
  obtain ⟨fs, L, _, _, hload, rfl, _, _⟩ := load_ok h hc
  obtain ⟨lv, hl⟩ := small_bounds hc hm
  rcases exec_stands hS hload hl ho hs with ⟨m₀, m, h0, z0, s0, st⟩ | ⟨hn, rfl, rfl, rfl⟩
  · obtain ⟨b, t1⟩ := (executes_notes hl.inside st.begins st.ready.labelled hp).some_of
    have t2 := st.rest _ _ t1
    have key : ∀ tr, ∃ n0, Traced u.D tr → ∀ n, n0 ≤ n → l ++ j <+: m₀.runPcs (envOf H u.atomics never L.prog L.hasWasi)
        (u.D (envOf H u.atomics never L.prog L.hasWasi)) (tr (envOf H u.atomics never L.prog L.hasWasi)) u.cr n := by
      intro tr
      by_cases ht : Traced u.D tr
      · obtain ⟨n0, hn0⟩ := run_covers hl.inside (ht.isDT (envOf H u.atomics never L.prog L.hasWasi)) (en := u.cr) t2 (setFirst_msim m₀ u.cr)
        exact ⟨n0, fun _ n hn => hn0 n n hn hn⟩
      · exact ⟨0, fun h => absurd h ht⟩
    obtain ⟨n1, h1⟩ := key fun E n code d => loopPcs E code n d
    obtain ⟨n2, h2⟩ := key fun E n code d => tcoPcs E code n d
    refine ⟨max n1 n2, fun n k hn hk => ?_⟩
    obtain ⟨tr, ht, ⟨L', m', hb', rfl⟩ | ⟨hnb, _⟩⟩ := hk
    · obtain ⟨rfl, rfl⟩ := begins_unique h0 hb'
      have ht' : Traced u.D tr := ht
      have : l ++ j <+: m₀.runPcs (envOf H u.atomics never L.prog L.hasWasi)
        (u.D (envOf H u.atomics never L.prog L.hasWasi)) (tr (envOf H u.atomics never L.prog L.hasWasi)) u.cr n := by
        clear hb' ht hp hs
        generalize u.D = D at *
        cases ht'
        · exact h1 .loop n (by omega)
        · exact h2 .tco n (by omega)
      exact this
    · exact absurd h0 (hnb _ _)
  · exact ⟨0, fun n k _ hk => by rw [executes_nothing hn hp]; exact List.nil_prefix⟩

end Verif.Props
