import Verif.Props.Untouched
import Verif.Props.Crash
/-
C70 for programs that may contain any instructions, checkpointed only when tables and data segments are as loaded.
-/
namespace Verif.Props
open Verif.Model Verif.Spec Verif.Lemmas

/-- no part of a checkpoint passes for one -/
theorem process_prefixC {S : Wasi} {lz : Lz} {E : Env} {L : Nat → Nat → Nat} (hl : Bounds E.P L) {D : Dispatcher}
    (trig : Nat → Bool) (hD : IsD { E with trig := trig } D) {en : Bool} {fuel : Nat} {old : Option (List Byte)} {io : Io}
    {m : Machine S} (hm : SizedM E.P L m) {l : Left S} (h : m.process lz { E with trig := trig } D en fuel old io = some (.ok l))
    (hrep : l.report = .checkpointed) {b : List Byte} (hb : l.ckpt = some b) (hlen : b.length < 2 ^ 32) (k : Nat) (hk : k < b.length) :
    decode (b.take k) = none := by
  obtain ⟨mc, hrun, hck, -⟩ := process_ckpt h hrep
  rw [hb] at hck
  have hmc : SizedM E.P L mc := run_inv (SizedM E.P L)
    (fun m r n hm hr => sized_round (E := { E with trig := trig }) hl.shaped hl.types hl.regs hD hr hm) fuel _ mc (hm.setFirst en) hrun
  rcases checkpoint_outcomes lz E.P mc old io with ⟨s', b', h1, h2, h3⟩ | ⟨s', b', k, -, -, -, h3⟩ | ⟨-, h3⟩
  · rw [show mc.checkpoint lz E.P old io = _ from hck] at h3
    simp only [Prod.mk.injEq, true_and, Option.some.injEq] at h3
    subst h3
    exact prefix_rejected s' (snapshot_fits hmc hl.bodies hl.funcs h1 h2 hlen) b h2 k hk
  · rw [show mc.checkpoint lz E.P old io = _ from hck] at h3; simp at h3
  · rw [show mc.checkpoint lz E.P old io = _ from hck] at h3; exact absurd rfl h3

/-- the file holds the first bytes of a checkpoint from which the program started as `m0` goes on; no smaller part is accepted -/
structure SavedC {S : Wasi} (lz : Lz) (H : FloatHost) (L : Loaded) (lv : Nat → Nat → Nat) (m0 : Machine S) (b : List Byte) (w : S.W) :
    Prop where
  cut : ∀ k < b.length, decode (b.take k) = none
  resumes : ∃ st j, restore lz L.prog L.inst (some b) = (.ok st, j) ∧ SizedM L.prog lv (st.resume (S := S) j w) ∧
    Sound3 L.inst (st.resume (S := S) j w) ∧ GoesOn H L m0 (st.resume (S := S) j w)

theorem process_savedC {S : Wasi} (hS : WasiKeepsSize S) {lz : Lz} {H : FloatHost} {L : Loaded} {lv : Nat → Nat → Nat}
    (hl : Bounds L.prog lv) (p : Process) {old : Option (List Byte)} {io : Io} {m0 m : Machine S} (hm : SizedM L.prog lv m)
    (hrd : Sound3 L.inst m) (hg : GoesOn H L m0 m) {l : Left S}
    (h : m.process lz (envOf H p.atomics p.trig L.prog L.hasWasi) (p.D (envOf H p.atomics p.trig L.prog L.hasWasi)) p.cr p.fuel old io
      = some (.ok l))
    (hrep : l.report = .checkpointed) {b : List Byte} (hb : l.ckpt = some b) {i' : Inst} {w : S.W} (hs : l.state = some (i', w))
    (hclean : i'.tables = L.inst.tables ∧ i'.datas = L.inst.datas) (hlen : b.length < 2 ^ 32) : SavedC lz H L lv m0 b w := by
  refine ⟨fun k hk => process_prefixC (E := envOf H p.atomics never L.prog L.hasWasi) hl p.trig (p.built.isD _) hm h hrep hb hlen k hk, ?_⟩
  obtain ⟨st, j, _, k1, k2, k3, -, -, -, k4⟩ := clean_moves hS (E := envOf H p.atomics never L.prog L.hasWasi) hl p.trig (p.built.isD _) hm hrd
    h hrep hb hs hclean hlen
  refine ⟨st, j, k1, k2, k3, fun o => (hg o).trans ⟨fun ho => ?_, fun ho => ?_⟩⟩
  · have h1 := quiet_any (a' := p.atomics) (en' := false) hl.inside .loop .loop ho
    exact quiet_any hl.inside .loop .loop ((k4 _ _ false false o .loop .loop).mp h1)
  · have h1 := quiet_any (a' := p.atomics) (en' := false) hl.inside .loop .loop ho
    exact quiet_any hl.inside .loop .loop ((k4 _ _ false false o .loop .loop).mpr h1)

/-- what restoring a possibly incomplete checkpoint does -/
theorem SavedC.restore {S : Wasi} {lz : Lz} {H : FloatHost} {L : Loaded} {lv : Nat → Nat → Nat} {m0 : Machine S} {b : List Byte} {w : S.W}
    (h : SavedC lz H L lv m0 b w) (k : Nat) :
    (b.length ≤ k ∧ b.take k = b) ∨ (k < b.length ∧ restore lz L.prog L.inst (some (b.take k)) = (.trap .deserializationError, L.inst)) := by
  by_cases hk : k < b.length
  · right; exact ⟨hk, by simp only [Model.restore, h.cut k hk]⟩
  · left; exact ⟨by omega, List.take_of_length_le (by omega)⟩

/-- what the file holds at any point of a life -/
theorem life_savedC {S : Wasi} (hS : WasiKeepsSize S) {T : FloatText} {lz : Lz} {H : FloatHost} {file : WFile} {L : Loaded}
    (hload : loadFile file = .ok L) {lv : Nat → Nat → Nat} (hl : Bounds L.prog lv) {o : Options} (ho : o.restore = none) {w0 : S.W}
    {c : Option (List Byte)} {w : S.W} (h : CleanLife T lz H file o w0 c w) :
    c = none ∨ ∃ m0, StartsAs T L o w0 m0 ∧ ∃ b k, c = some (b.take k) ∧ SavedC lz H L lv m0 b w := by
  induction h with
  | start => exact .inl rfl
  | @wrote c w w' before p hold restoring l whole i b run hio fine hrep hb hs hlen hcl ih =>
    right
    cases restoring with
    | false =>
      simp only [Options.again, Bool.false_eq_true, if_false] at run fine
      rcases command_starts (T := T) (lz := lz) (H := H) hload ho w0 with ⟨m, hst, hrun⟩ | ⟨x, hx, hrun⟩
      · rw [hrun] at run fine
        have hM := hst
        obtain ⟨f, ps, -, -, hM⟩ := hM
        obtain ⟨⟨k, hk⟩, -⟩ := process_cut fine hrep hb run hio
        exact ⟨m, hst, b, k, hk, process_savedC hS hl p (new_sized hl.shaped hl.types hM) (new_sound3 hM) (fun o => Iff.rfl) fine hrep hb hs (hcl L hload) hlen⟩
      · obtain ⟨r1, h1, h2⟩ := hrun { p with io := .fine }
        rw [fine] at h1; cases h1
        simp only [seen, hrep] at h2
        exact absurd h2.symm (hx _)
    | true =>
      simp only [Options.again, if_true] at run fine
      rcases ih with rfl | ⟨m0, hst, b0, k0, rfl, hsv⟩
      · simp only [Process.run, command, hload, Model.restore, Option.some.injEq, Res.ok_inj] at fine
        subst fine; cases hrep
      · rcases hsv.restore k0 with ⟨hk, e⟩ | ⟨hk, e⟩
        · rw [e] at run fine
          obtain ⟨st, j, k1, k2, k3, k4⟩ := hsv.resumes
          simp only [Process.run, command, hload, k1] at run fine
          obtain ⟨⟨k, hk⟩, -⟩ := process_cut fine hrep hb run hio
          exact ⟨m0, hst, b, k, hk, process_savedC hS hl p k2 k3 k4 fine hrep hb hs (hcl L hload) hlen⟩
        · simp only [Process.run, command, hload, e, Option.some.injEq, Res.ok_inj] at fine
          subst fine; cases hrep

/-- a process that restores a complete checkpoint and comes to an end shows what an undisturbed process shows -/
theorem savedC_ends {S : Wasi} {T : FloatText} {lz : Lz} {H : FloatHost} {file : WFile} {L : Loaded}
    (hload : loadFile file = .ok L) {lv : Nat → Nat → Nat} (hl : Bounds L.prog lv) {o : Options} (ho : o.restore = none) {w0 : S.W}
    {m0 : Machine S} (hst : StartsAs T L o w0 m0) {b : List Byte} {w : S.W} (hsv : SavedC lz H L lv m0 b w) (p : Process)
    {x : Res (Left S)} (hx : p.run T lz H file { o with restore := some (some b) } w = some x) (hfin : Finished x) (q : Process) :
    ∃ fuel r', ({ q.undisturbed with fuel := fuel }).run T lz H file o w0 = some r' ∧ seen r' = seen x := by
  obtain ⟨st, j, k1, k2, k3, k4⟩ := hsv.resumes
  simp only [Process.run, command, hload, k1] at hx
  obtain ⟨v, h1, h2⟩ := process_end (D' := loopD (envOf H p.atomics never L.prog L.hasWasi)) (en' := false)
    (E := envOf H p.atomics p.trig L.prog L.hasWasi) hl.shaped hl.inside hl.types hl.regs (p.built.isD _) .loop k2 hx hfin
  have h3 := (k4 v).mpr (quiet_any hl.inside .loop .loop h1)
  obtain ⟨fuel, r', h4, h5⟩ := process_runs (lz := lz) (old := q.old) (io := q.io)
    (quietD (E := envOf H q.atomics never L.prog L.hasWasi) (q.built.isD _))
    (quiet_any (en' := q.cr) hl.inside .loop (q.built.isD (envOf H q.atomics never L.prog L.hasWasi)) h3)
  refine ⟨fuel, r', ?_, h5.trans h2.symm⟩
  obtain ⟨f, ps, hE, hP, hM⟩ := hst
  simp only [Process.run, command, hload, ho, hE, hP, hM, Process.undisturbed]
  exact h4

/-- **C70** for programs with any instructions, whose checkpoints are all written while tables and data segments are as the module
file describes them: whatever crashed whenever, a process that restores `./checkpoint.bin` and comes to an end on its own either shows
what a single process that is left alone shows, tables and data segments included, or is refused.
Missing from the full claim: it is refused also if an earlier checkpoint had been completed (`checkpoint_lost_violated`). -/
theorem clean_crash_recovery_partial {S : Wasi} (hS : WasiKeepsSize S) {T : FloatText} {lz : Lz} {A : SMod} {H : FloatHost}
    (h : A.WellFormed S H) {P : Prog} (hc : (A.source H).compile A.globalTypes = some P) (hm : Small (A.source H)) {o : Options}
    (ho : o.restore = none) {w0 w : S.W} {c : Option (List Byte)} (hL : CleanLife T lz H (some A.file) o w0 c w) (p : Process)
    {x : Res (Left S)} (hx : p.run T lz H (some A.file) { o with restore := some c } w = some x) (hfin : Finished x) :
    (∀ q : Process, ∃ fuel r', ({ q.undisturbed with fuel := fuel }).run T lz H (some A.file) o w0 = some r' ∧ seen r' = seen x) ∨
    ∃ e, x = .ok ⟨1, .restoreFailed e, p.old, none⟩ := by
  obtain ⟨fs, L, _, _, hload, rfl, _, _⟩ := load_ok h hc
  obtain ⟨lv, hl⟩ := small_bounds hc hm
  rcases life_savedC hS hload hl ho hL with rfl | ⟨m0, hst, b, k, rfl, hsv⟩
  · right
    simp only [Process.run, command, hload, Model.restore, Option.some.injEq] at hx
    exact ⟨_, hx.symm⟩
  · rcases hsv.restore k with ⟨hk, e⟩ | ⟨hk, e⟩
    · left
      rw [e] at hx
      exact savedC_ends hload hl ho hst hsv p hx hfin
    · right
      simp only [Process.run, command, hload, e, Option.some.injEq] at hx
      exact ⟨_, hx.symm⟩

/-- **C70**, completed checkpoints: the same programs: whatever happened before, if the last process to write `./checkpoint.bin` reported success, a
process that restores it is not refused; if it comes to an end it shows what a single process that is left alone shows. -/
theorem clean_checkpoint_resumes {S : Wasi} (hS : WasiKeepsSize S) {T : FloatText} {lz : Lz} {A : SMod} {H : FloatHost}
    (h : A.WellFormed S H) {P : Prog} (hc : (A.source H).compile A.globalTypes = some P) (hm : Small (A.source H)) {o : Options}
    (ho : o.restore = none) {w0 w w' : S.W} {c : Option (List Byte)} (hL : CleanLife T lz H (some A.file) o w0 c w) (p : Process)
    (restoring : Bool) {l : Left S} {i : Inst} {b : List Byte}
    (run : p.run T lz H (some A.file) (Options.again o c restoring) (if restoring then w else w0) = some (.ok l))
    (hrep : l.report = .checkpointed) (hb : l.ckpt = some b) (hs : l.state = some (i, w')) (hclean : AsLoaded (some A.file) i)
    (hlen : b.length < 2 ^ 32) (p' : Process) {x : Res (Left S)} (hx : p'.run T lz H (some A.file) { o with restore := some (some b) } w' = some x)
    (hfin : Finished x) (q : Process) :
    ∃ fuel r', ({ q.undisturbed with fuel := fuel }).run T lz H (some A.file) o w0 = some r' ∧ seen r' = seen x := by
  obtain ⟨fs, L, _, _, hload, rfl, _, _⟩ := load_ok h hc
  obtain ⟨lv, hl⟩ := small_bounds hc hm
  cases restoring with
  | false =>
    simp only [Options.again, Bool.false_eq_true, if_false] at run
    rcases command_starts (T := T) (lz := lz) (H := H) hload ho w0 with ⟨m, hst, hrun⟩ | ⟨y, hy, hrun⟩
    · rw [hrun] at run
      have hM := hst
      obtain ⟨f, ps, -, -, hM⟩ := hM
      exact savedC_ends hload hl ho hst (process_savedC hS hl p (new_sized hl.shaped hl.types hM) (new_sound3 hM) (fun o => Iff.rfl) run
        hrep hb hs (hclean L hload) hlen) p' hx hfin q
    · obtain ⟨r1, h1, h2⟩ := hrun p
      rw [run] at h1; cases h1
      simp only [seen, hrep] at h2
      exact absurd h2.symm (hy _)
  | true =>
    simp only [Options.again, if_true] at run
    rcases life_savedC hS hload hl ho hL with rfl | ⟨m0, hst, b0, k0, rfl, hsv⟩
    · simp only [Process.run, command, hload, Model.restore, Option.some.injEq, Res.ok_inj] at run
      subst run; cases hrep
    · rcases hsv.restore k0 with ⟨hk, e⟩ | ⟨hk, e⟩
      · rw [e] at run
        obtain ⟨st, j, k1, k2, k3, k4⟩ := hsv.resumes
        simp only [Process.run, command, hload, k1] at run
        exact savedC_ends hload hl ho hst (process_savedC hS hl p k2 k3 k4 run hrep hb hs (hclean L hload) hlen) p' hx hfin q
      · simp only [Process.run, command, hload, e, Option.some.injEq, Res.ok_inj] at run
        subst run; cases hrep


end Verif.Props
