import Verif.Props.Untouched
import Verif.Props.PassRun
import Verif.Props.MigrateEx
/-
C30 for programs with any instructions: a checkpoint says nothing of tables and data segments, and nothing is lost if these are then as
in the instance that is restored into.
-/
namespace Verif.Props
open Verif.Model Verif.Spec Verif.Lemmas
open Sample (wasi host lz keepsSize)

/-- `Migrates`, the tables and data segments being those of the fresh instance `i` when the run stops -/
inductive CleanMigrates {S : Wasi} (lz : Lz) (E : Env) (i : Inst) (m : Machine S) : Machine S → Prop
  | mk {trig : Nat → Bool} {D : Dispatcher} {en : Bool} {n : Nat} {mc : Machine S} {s : Snapshot}
      {old file : Option (List Byte)} {io : Io} {st : Stacks} {i' : Inst}
      (hD : IsD { E with trig := trig } D) (hrun : m.run { E with trig := trig } D en n = some (.ok (.ckpt mc)))
      (clean : mc.inst.tables = i.tables ∧ mc.inst.datas = i.datas)
      (hs : mc.snapshot lz E.P = .ok s) (hf : s.Fits) (hc : mc.checkpoint lz E.P old io = (.ok (), file))
      (hr : restore lz E.P i file = (.ok st, i')) : CleanMigrates lz E i m (st.resume i' mc.world)

/-- any number of such migrations, one after the other -/
inductive CleanMigratesStar {S : Wasi} (lz : Lz) (E : Env) (i : Inst) (m : Machine S) : Machine S → Prop
  | none : CleanMigratesStar lz E i m m
  | more {m1 m2} (h : CleanMigratesStar lz E i m m1) (k : CleanMigrates lz E i m1 m2) : CleanMigratesStar lz E i m m2

theorem clean_migrates_once {S : Wasi} (hS : WasiKeepsSize S) (lz : Lz) {E : Env} (hin : InsideP E.P)
    {i : Inst} {m m' : Machine S} (hm : Sound3 i m) (h : CleanMigrates lz E i m m') :
    Sound3 i m' ∧ ∀ D' D'' en' en'' o, IsD E.quiet D' → IsD E.quiet D'' →
      (Runs E.quiet D' en' m o ↔ Runs E.quiet D'' en'' m' o) := by
  obtain @⟨trig, D, en, n, mc, s, old, file, io, st, j, hD, hrun, hclean, h1, hf, hck, hr⟩ := h
  have h3 : Sound3 i mc := run_inv (Sound3 i)
    (fun m r n hm hr => hm.round hS (E := { E with trig := trig }) hD hr) n _ mc (hm.setFirst en) hrun
  have hrc : Ready i mc := ⟨h3.labelled, h3.ptr, h3.shape, hclean.1, hclean.2⟩
  obtain ⟨st2, j2, hr2, e1, e2, e3, e4, e5, e6⟩ := restore_reproduces lz E.P mc s h1 hf old io file hck i hrc.shape
  rw [hr] at hr2
  cases hr2
  have hsim := resume_sim hrc h1 hf hck hr
  have hready : Sound3 i (st.resume (S := S) j mc.world) := by
    refine ⟨?_, ?_, ⟨?_, ?_⟩⟩
    · intro f hfr
      simp only [Stacks.resume, e2, List.mem_map] at hfr
      obtain ⟨g, hg, rfl⟩ := hfr
      exact hrc.labelled g hg
    · intro f fs hfr
      simp only [Stacks.resume, e2] at hfr
      cases hx : mc.frames with
      | nil => rw [hx] at hfr; cases hfr
      | cons a l => rw [hx] at hfr; cases hfr; rfl
    · exact hrc.shape.globals.trans (by rw [Stacks.resume, e4])
    · exact hrc.shape.mem.trans (by rw [Stacks.resume, e3])
  refine ⟨hready, ?_⟩
  intro D' D'' en' en'' o hD' hD''
  have q' := quietD hD'
  have q'' := quietD hD''
  rw [runs_iff q'.faithful, runs_iff q''.faithful]
  have a1 : MSim { m with frames := setFirstEnable en' m.frames } { m with frames := setFirstEnable en m.frames } :=
    (setFirst_msim m en').symm.trans (setFirst_msim m en)
  have a2 : RunsL E.quiet D' en' { m with frames := setFirstEnable en m.frames } o ↔ RunsL E.quiet D' en' mc o :=
    run_cut (E := { E with trig := trig }) hin hD (D' := D') hD' o n _ mc (setFirst_labelled en hm.labelled) hrun
  have a3 : MSim mc { st.resume (S := S) j mc.world with
      frames := setFirstEnable en'' (st.resume (S := S) j mc.world).frames } :=
    hsim.trans (setFirst_msim _ en'')
  constructor
  · intro h
    exact runsL_sim q' q'' hin a3 (a2.mp (runsL_sim q' q' hin a1 h))
  · intro h
    exact runsL_sim q' q' hin a1.symm (a2.mpr (runsL_sim q'' q' hin a3.symm h))

theorem clean_migrates_star {S : Wasi} (hS : WasiKeepsSize S) (lz : Lz) {E : Env} (hin : InsideP E.P) {i : Inst} {m m' : Machine S}
    (h0 : Sound3 i m) (h : CleanMigratesStar lz E i m m') :
    Sound3 i m' ∧ ∀ D D' en en' o, IsD E.quiet D → IsD E.quiet D' → (Runs E.quiet D en m o ↔ Runs E.quiet D' en' m' o) := by
  induction h with
  | none =>
    refine ⟨h0, fun D D' en en' o hD hD' => ?_⟩
    have q := quietD hD
    have q' := quietD hD'
    exact ⟨runs_of q.faithful q'.faithful q.noCk hin (.refl m) en en' o,
      runs_of q'.faithful q.faithful q'.noCk hin (.refl m) en' en o⟩
  | more _ k ih =>
    obtain ⟨r1, e1⟩ := ih
    obtain ⟨r2, e2⟩ := clean_migrates_once hS lz hin r1 k
    exact ⟨r2, fun D D' en en' o hD hD' => (e1 D D en en o hD hD).trans (e2 D D' en en' o hD hD')⟩

/-- **C30** (`checkpoint_restore_transparent_partial`) for programs with any instructions, stopped when tables and data segments are as in
the fresh instance they are restored into: the end is the same — result values or failure, memory, globals, tables, data segments and
outside world — as without interruption. -/
theorem clean_checkpoint_restore_transparent {S : Wasi} (hS : WasiKeepsSize S) (lz : Lz) {E : Env}
    (hin : InsideP E.P) (i : Inst) (w : S.W) (f : Nat) (ps : List Val) {m m' : Machine S}
    (hnew : Machine.new E.P i w f ps = .ok m) (h : CleanMigratesStar lz E i m m')
    {D D' : Dispatcher} (hD : IsD E.quiet D) (hD' : IsD E.quiet D') (en en' : Bool) (o : Res (List Val × Inst × S.W)) :
    Runs E.quiet D en m o ↔ Runs E.quiet D' en' m' o :=
  (clean_migrates_star hS lz hin (new_sound3 hnew) h).2 D D' en en' o hD hD'

/-- **C30** with the interpreter's own WASI implementation, over any host -/
theorem clean_command_migration {N : Native} {argv : List (List Byte)} (lz : Lz) {E : Env} (hin : InsideP E.P)
    (i : Inst) (w : N.W) (f : Nat) (ps : List Val) {m m' : Machine (passthrough N argv)}
    (hnew : Machine.new E.P i w f ps = .ok m) (h : CleanMigratesStar lz E i m m') {D D' : Dispatcher} (hD : IsD E.quiet D)
    (hD' : IsD E.quiet D') (en en' : Bool) (o : Res (List Val × Inst × N.W)) :
    Runs E.quiet D en m o ↔ Runs E.quiet D' en' m' o :=
  clean_checkpoint_restore_transparent (passthrough_keeps_size N argv) lz hin i w f ps hnew h hD hD' en en' o

/-- Programs without `table.set`, `table.fill` and `data.drop` are always stopped so. -/
theorem migrates_clean {S : Wasi} (hS : WasiKeepsSize S) (lz : Lz) {E : Env} (hin : InsideP E.P) (hP : KeepsSegments E.P) {i : Inst}
    {m m' : Machine S} (hm : Ready i m) (h : MigratesStar lz E i m m') : CleanMigratesStar lz E i m m' := by
  have key : Ready i m' ∧ CleanMigratesStar lz E i m m' := by
    induction h with
    | none => exact ⟨hm, .none⟩
    | more _ k ih =>
      obtain ⟨r1, c1⟩ := ih
      refine ⟨(migrates_once hS lz hin hP r1 k).1, ?_⟩
      obtain @⟨trig, D, en, n, mc, s, old, file, io, st, j, hD, hrun, h1, hf, hck, hr⟩ := k
      have hmc : Ready i mc := run_inv (Ready i)
        (fun m r n hm hr => hm.round hS (E := { E with trig := trig }) hP hD hr) n _ mc (r1.setFirst en) hrun
      exact .more c1 (.mk hD hrun ⟨hmc.seg.tables, hmc.seg.datas⟩ h1 hf hck hr)
  exact key.2

/-! ### The program of `table_write_lost_violated`, stopped before it writes the table -/

namespace Lost

/-- flag raised at the second look -/
def early : Env := { env with trig := fun j => decide (1 ≤ j) }
def midE : Machine wasi := stopped machine (machine.run early (loopD early) true 100)
def fileE : Option (List Byte) := (midE.checkpoint lz prog none .fine).2
def stacksE : Stacks := okD ⟨RegFile.empty, []⟩ (restore lz prog inst fileE).1
def resumedE : Machine wasi := stacksE.resume (restore lz prog inst fileE).2 midE.world

theorem migratesE : CleanMigratesStar lz env inst machine resumedE := by
  refine .more .none (.mk (trig := fun j => decide (1 ≤ j)) (D := loopD early) (mc := midE)
    (s := okD ⟨fun _ => [], [], fun _ => 0, [], [], [], []⟩ (midE.snapshot lz prog)) (old := none)
    (file := fileE) (io := .fine) (en := true) (n := 100) .loop (stopped_eq machine (by decide +kernel)) ?_ ?_ ?_ ?_ ?_)
  · exact ⟨by decide +kernel, by decide +kernel⟩
  · exact ok_eq _ (by decide +kernel)
  · exact fits_of _ (by decide +kernel)
  · exact unit_eq (by decide +kernel)
  · exact pair_eq _ (by decide +kernel)

theorem insideL : InsideP env.P := by
  intro f
  match f with
  | 0 => simp [Inside, Prog.body, env, prog, main, Instr.targets]
  | 1 => simp [Inside, Prog.body, env, prog, five, Instr.targets]
  | f + 2 => simp [Inside, Prog.body, env, prog]

/-- So moving it then changes nothing: it aborts at the null entry, moved or not. -/
example (o : Res (List Val × Inst × wasi.W)) :
    Runs env.quiet (loopD env.quiet) true machine o ↔ Runs env.quiet (tcoD env.quiet) false resumedE o :=
  clean_checkpoint_restore_transparent keepsSize lz insideL inst () 0 [] (ok_eq _ (by decide +kernel)) migratesE .loop .tco _ _ o

example : panicked (resumedE.run env.quiet (loopD env.quiet) true 100) = true := by decide +kernel

end Lost
end Verif.Props
