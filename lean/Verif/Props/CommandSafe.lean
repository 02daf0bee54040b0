import Verif.Props.Sound
import Verif.Model.Command
/-
C47 and C71 for the whole command.
-/
namespace Verif.Props
open Verif.Model Verif.Spec

theorem indices_defined (P : Prog) : ∀ fs : List Frame, indices P fs ≠ .ub
  | [] => nofun
  | f :: fs => by
    have ih := indices_defined P fs
    simp only [indices, bind, Res.bind, pure]
    have hf : f.index P ≠ .ub := by unfold Frame.index; split <;> nofun
    cases h1 : f.index P with
    | ub => exact absurd h1 hf
    | ok i =>
      cases h2 : indices P fs with
      | ub => exact absurd h2 ih
      | _ => simp
    | _ => simp

/-- writing a checkpoint is defined -/
theorem checkpoint_defined {S : Wasi} (lz : Lz) (P : Prog) (m : Machine S) (old : Option (List Byte)) (io : Io) :
    (m.checkpoint lz P old io).1 ≠ .ub := by
  have hs : m.snapshot lz P ≠ .ub := by
    unfold Machine.snapshot
    simp only [bind, Res.bind, pure]
    cases h1 : indices P m.frames.reverse with
    | ub => exact absurd h1 (indices_defined _ _)
    | _ => simp
  unfold Machine.checkpoint
  cases h : m.snapshot lz P with
  | ub => exact absurd h hs
  | ok s =>
    simp only [saveFile]
    split
    · nofun
    · split <;> nofun
  | _ => nofun

theorem process_ub {S : Wasi} {lz : Lz} {E : Env} {D : Dispatcher} {en : Bool} {fuel : Nat} {old : Option (List Byte)} {io : Io}
    {m : Machine S} (h : m.process lz E D en fuel old io = some .ub) : m.run E D en fuel = some .ub := by
  unfold Machine.process at h
  cases hr : m.run E D en fuel with
  | none => rw [hr] at h; cases h
  | some r =>
    rw [hr] at h
    match r, hr, h with
    | .ok (.done vs m'), _, h => cases h
    | .ok (.ckpt m'), _, h =>
      simp only at h
      have := checkpoint_defined lz E.P m' old io
      split at h <;> first | (rename_i k; rw [k] at this; exact absurd rfl this) | cases h
    | .trap e, _, h => cases h
    | .panic, _, h => cases h
    | .ub, _, _ => rfl

/-- the machines a process of this file may start with -/
inductive Started {S : Wasi} (T : FloatText) (lz : Lz) (L : Loaded) (o : Options) (w : S.W) : Machine S → Prop
  | fresh {f : Nat} {ps : List Val} {m : Machine S} (hr : o.restore = none) (hf : L.exportFunc o.invoke = .ok f)
      (hp : parseParams T o.params = .ok ps) (hm : Machine.new L.prog L.inst w f ps = .ok m) : Started T lz L o w m
  | restored {saved : Option (List Byte)} {st : Stacks} {i : Inst} (hr : o.restore = some saved)
      (hk : restore lz L.prog L.inst saved = (.ok st, i)) : Started T lz L o w (st.resume i w)

/-- undefined behaviour of the command is undefined behaviour of a run: loading, finding the function, reading the arguments, starting,
reading and writing checkpoints are defined for every file, every checkpoint and every option -/
theorem command_ub {S : Wasi} {T : FloatText} {lz : Lz} {E : Prog → Bool → Env} {D : Env → Dispatcher} {fuel : Nat} {file : WFile}
    {o : Options} {w : S.W} {old : Option (List Byte)} {io : Io} (h : command T lz E D fuel file o w old io = some .ub) :
    ∃ L m, loadFile file = .ok L ∧ Started T lz L o w m ∧ m.run (E L.prog L.hasWasi) (D (E L.prog L.hasWasi)) o.cr fuel = some .ub := by
  unfold command at h
  cases hl : loadFile file with
  | ok L =>
    rw [hl] at h
    simp only at h
    cases hr : o.restore with
    | some saved =>
      rw [hr] at h
      simp only at h
      have hd := restore_defined lz L.prog L.inst saved
      split at h
      · rename_i st i k
        exact ⟨L, _, rfl, .restored hr k, process_ub h⟩
      · cases h
      · cases h
      · rename_i k
        rw [k] at hd
        exact absurd rfl hd
    | none =>
      rw [hr] at h
      simp only at h
      cases he : L.exportFunc o.invoke with
      | ok f =>
        rw [he] at h
        simp only at h
        cases hp : parseParams T o.params with
        | ok ps =>
          rw [hp] at h
          simp only at h
          cases hm : Machine.new (S := S) L.prog L.inst w f ps with
          | ok m => rw [hm] at h; exact ⟨L, m, rfl, .fresh hr he hp hm, process_ub h⟩
          | trap e => rw [hm] at h; cases h
          | panic => rw [hm] at h; cases h
          | ub =>
            exfalso
            unfold Machine.new at hm
            split at hm
            · split at hm <;> cases hm
            · cases hm
        | _ => rw [hp] at h; cases h
      | trap e => rw [he] at h; cases h
      | panic => rw [he] at h; cases h
      | ub =>
        exfalso
        unfold Loaded.exportFunc at he
        split at he <;> cases he
  | _ => rw [hl] at h; cases h

/-- **C47**, **C71** for the whole command (partial: validated modules, and checkpoint files that make sense for the module, as in
`untrusted_checkpoint_partial`).  Whatever the options, the arguments, the world, the old checkpoint file and the file system do: the
command has undefined behaviour only if the program itself leaves linear memory or calls a host function that is undefined. -/
theorem command_undefined_partial {S : Wasi} {T : FloatText} {lz : Lz} {E : Prog → Bool → Env} (hE : ∀ P b, (E P b).P = P)
    {D : Env → Dispatcher} (hD : ∀ e, IsD e (D e)) {fuel : Nat} {file : WFile} {o : Options} {w : S.W} {old : Option (List Byte)} {io : Io}
    {L : Loaded} (hl : loadFile file = .ok L) {Q : SProg} {globals : List Cls} (hv : Validated Q globals) (hc : Q.compile globals = some L.prog)
    (hs : ∀ b s rest, o.restore = some (some b) → decode b = some (s, rest) → Sound L.prog s)
    (h : command T lz E D fuel file o w old io = some .ub) :
    ∃ m m' f fs, Started T lz L o w m ∧
      Reach (E L.prog L.hasWasi) (D (E L.prog L.hasWasi)) o.cr { m with frames := setFirstEnable o.cr m.frames } m' ∧ m'.frames = f :: fs ∧
      (MemoryWrong (E L.prog L.hasWasi) m' f ∨ HostWrong (E L.prog L.hasWasi) (D (E L.prog L.hasWasi)) m' f) := by
  obtain ⟨L', m, h1, h2, h3⟩ := command_ub h
  rw [hl] at h1
  cases h1
  have hP := hE L.prog L.hasWasi
  have hc' : Q.compile globals = some (E L.prog L.hasWasi).P := by rw [hP]; exact hc
  cases h2 with
  | fresh hr hf hp hm =>
    have hm' := hm
    have hlive : Lives (E L.prog L.hasWasi).P m := by rw [hP]; exact .start hm'
    obtain ⟨m', f, fs, k⟩ := undefined_only_outside_memory hv hc' (hD _) hlive h3
    exact ⟨m, m', f, fs, .fresh hr hf hp hm, k⟩
  | @restored saved st i hr hk =>
    have hk' : restore lz (E L.prog L.hasWasi).P L.inst saved = (.ok st, i) := by rw [hP]; exact hk
    obtain ⟨m', f, fs, k⟩ := untrusted_checkpoint_partial hv hc' (hD _) hk'
      (fun b s rest hb hd => by rw [hP]; exact hs b s rest (by rw [hr, hb]) hd) h3
    exact ⟨_, m', f, fs, .restored hr hk, k⟩

end Verif.Props
