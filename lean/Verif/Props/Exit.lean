import Verif.Props.PassRun
import Verif.Props.SessionMain
/-
C50: `proc_exit` in a run.
-/
namespace Verif.Props
open Verif.Model Verif.Spec Verif.Lemmas

/-- this outcome is not an exit -/
def NoExit {N : Native} (x : PRes N) : Prop := ∀ c m w, x ≠ .ok (.error (.processExit c), m, w)

theorem NoExit.bind {N : Native} {α : Type} {r : Res α} {f : α → PRes N} (h : ∀ a, r = .ok a → NoExit (f a)) : NoExit (r >>= f) := by
  intro c m w e
  obtain ⟨a, h1, h2⟩ := bind_ok_inv e
  exact h a h1 c m w h2

theorem NoExit.ok {N : Native} {e : BitVec 32} {m : Mem} {w : N.W} : NoExit (N := N) (.ok (.ok e, m, w)) := nofun

theorem NoExit.ite {N : Native} {c : Prop} [Decidable c] {r s : PRes N} (h1 : NoExit r) (h2 : NoExit s) : NoExit (if c then r else s) := by
  split <;> assumption

theorem NoExit.panic {N : Native} : NoExit (N := N) .panic := nofun

theorem nativeCall_noExit {N : Native} {m : Mem} {w : N.W} {fn : WasiFn} {as : List NArg} {vs : List IoVec} : NoExit (nativeCall N m w fn as vs) :=
  .bind fun _ _ => nofun

theorem nativeCallLocal_noExit {N : Native} {m : Mem} {w : N.W} {fn : WasiFn} {as : List NArg} {vs : List IoVec} {k : Nat} {p : BitVec 32} :
    NoExit (nativeCallLocal N m w fn as vs k p) :=
  .bind fun _ _ => .bind fun _ _ => nofun

theorem gather_noExit {d : List Byte} {p : BitVec 32} {c : BitVec 32} : ∀ (is : List Nat) (acc : List IoVec), gather d p is acc ≠ .ok (.error (.processExit c))
  | [], _ => by simp [gather]
  | i :: is, acc => by
    have ih := gather_noExit (d := d) (p := p) (c := c) is
    rw [gather]
    dsimp only
    split
    · nofun
    · split
      · nofun
      · split
        · exact ih _
        · split
          · nofun
          · exact ih _

theorem arm_noExit {N : Native} {argv : List (List Byte)} {fn : WasiFn} (hfn : fn ≠ .procExit) (ps : List Val) (m : Mem) (w : N.W) :
    NoExit (passArm N argv fn ps m w) := by
  cases fn with
  | procExit => exact absurd rfl hfn
  | fdWrite =>
    refine .bind fun o ho => ?_
    unfold fdWrite at ho
    split at ho
    · cases ho
    · obtain ⟨v, h1, h2⟩ := bind_ok_inv ho
      cases v with
      | error e =>
        cases h2
        intro c m w h
        cases h
        exact gather_noExit _ _ h1
      | ok vs =>
        obtain ⟨bs, h3, h4⟩ := bind_ok_inv h2
        dsimp only at h4
        split at h4
        · obtain ⟨m', h5, h6⟩ := bind_ok_inv h4
          cases h6; exact nofun
        · cases h4; exact nofun
  | environGet =>
    simp only [passArm, pEnvironGet]
    split
    · exact .ok
    · split
      · exact .ok
      · exact .bind fun _ _ => .bind fun _ _ => .ok
  | environSizesGet =>
    simp only [passArm, pEnvironSizesGet]
    split
    · exact .ok
    · exact .bind fun _ _ => .bind fun _ _ => .ok
  | randomGet =>
    simp only [passArm, pRandomGet]
    split
    · exact nofun
    · exact nativeCall_noExit
  | fdRead =>
    simp only [passArm, pFdRead]
    split
    · exact .panic
    · exact .bind fun _ _ => nativeCallLocal_noExit
  | fdPread =>
    simp only [passArm, pFdPread]
    split
    · exact .panic
    · exact .bind fun _ _ => nativeCallLocal_noExit
  | fdPwrite =>
    simp only [passArm, pFdPwrite]
    split
    · exact .panic
    · exact .bind fun _ _ => .bind fun _ _ => nativeCallLocal_noExit
  | argsGet => exact .bind fun _ _ => .ok
  | argsSizesGet => exact .bind fun _ _ => .ok
  | procRaise => exact nofun
  | _ =>
    first
      | exact nativeCall_noExit
      | exact nativeCallLocal_noExit
      | exact .bind fun _ _ => nativeCall_noExit
      | exact .bind fun _ _ => nativeCallLocal_noExit
      | exact .bind fun _ _ => .bind fun _ _ => nativeCall_noExit

/-- C50: no other function ends the process: an exit with code `c` comes from `proc_exit(c)`, and nothing else has happened. -/
theorem only_proc_exit_exits {N : Native} {argv : List (List Byte)} {fn : WasiFn} {ps : List Val} {m m' : Mem} {w w' : N.W} {c : BitVec 32}
    (h : passCall N argv fn ps m w = .ok (.error (.processExit c), m', w')) : fn = .procExit ∧ ps = [⟨.i32, c⟩] ∧ m' = m ∧ w' = w := by
  by_cases hfn : fn = .procExit
  · subst hfn
    refine ⟨rfl, ?_⟩
    by_cases hc : ps.map (·.cls) = [.i32]
    · obtain ⟨v, rfl⟩ : ∃ v : BitVec 32, ps = [⟨.i32, v⟩] := by
        match ps, hc with
        | [⟨.i32, v⟩], _ => exact ⟨v, rfl⟩
      rw [proc_exit_code] at h
      cases h
      exact ⟨rfl, rfl, rfl⟩
    · simp only [passCall, WasiFn.wants, if_neg hc] at h
      cases h
  · exfalso
    unfold passCall at h
    split at h
    · cases h
    · split at h
      · exact arm_noExit hfn ps m w c m' w' h
      · cases h

/-- C50: in a run, a call of `proc_exit(c)` ends the process there and then, with exit code `c`: `main` does not get control back,
nothing is printed, no checkpoint is written. -/
theorem proc_exit_ends_run {N : Native} {argv : List (List Byte)} {E : Env} {D : Dispatcher} {en : Bool} {n : Nat} {lz : Lz}
    {old : Option (List Byte)} {io : Io} {m : Machine (passthrough N argv)} {f : Frame} {fs : List Frame} (hf : (setFirstEnable en m.frames) = f :: fs)
    (hw : E.hasWasi = true) {c : BitVec 32} {r : Option Reg} {d : DState} {mem : Mem} (hmem : d.vm.inst.mem = some mem)
    (h : D n (E.P.body f.func) (({ m with frames := setFirstEnable en m.frames } : Machine (passthrough N argv)).enter f) =
      some (.ok (.yield (.wasi WasiFn.procExit.id [⟨.i32, c⟩] r) d))) (hn : 0 < n) :
    m.process lz E D en n old io = some (.ok ⟨c.toNat, .exited c, old, none⟩) := by
  have hr : m.run E D en n = some (.trap (.processExit c)) := by
    obtain ⟨k, rfl⟩ : ∃ k, n = k + 1 := ⟨n - 1, by omega⟩
    rw [Machine.run, Machine.runLoop]
    have : Machine.round E D en (k + 1) { m with frames := setFirstEnable en m.frames } = some (.trap (.processExit c)) := by
      unfold Machine.round
      simp only [hf]
      rw [show (Machine.mk m.rf (f :: fs) m.inst m.world m.looks : Machine (passthrough N argv)) = { m with frames := setFirstEnable en m.frames } by rw [hf]]
      rw [h]
      simp only [Res.bind_ok, Machine.react, Machine.doWasi, hw, Machine.leave, hmem]
      have hcall : ∀ w : (passthrough N argv).W, (passthrough N argv).call WasiFn.procExit.id [⟨.i32, c⟩] mem w = .trap (.processExit c) := by
        intro w
        show (match WasiFn.all[WasiFn.procExit.id]? with
          | some fn => passCall N argv fn _ mem w >>= passResult N
          | none => .ok (none, mem, w)) = .trap (.processExit c)
        have : WasiFn.all[WasiFn.procExit.id]? = some .procExit := by decide
        rw [this]
        exact congrArg (fun x : PRes N => x >>= passResult N) (proc_exit_code N argv c mem w)
      rw [hcall]
      rfl
    rw [this]
  unfold Machine.process
  rw [hr]
  rfl

namespace ExitEx

/-- a function that calls `proc_exit(7)` and would then return -/
def prog : Prog := ⟨[⟨[], []⟩], [.runtime ⟨[], []⟩ ⟨[], [.callWasi WasiFn.procExit.id [⟨.i32, 0⟩] none, .ret [], .fin [] []], none⟩]⟩

/-- the machine about to run it -/
def start : Machine (passthrough eager []) where
  rf := ⟨fun | .i32 => [7] | _ => [], [], fun _ => 0⟩
  frames := [⟨0, [], 0, [⟨false, 2, 0⟩], false, [], [], none⟩]
  inst := ⟨some ⟨[], none⟩, 0, [], [], []⟩
  world := []
  looks := 0

example (lz : Lz) (old : Option (List Byte)) (io : Io) :
    start.process lz ⟨Sample.host, prog, false, true, fun _ => false⟩ (loopD ⟨Sample.host, prog, false, true, fun _ => false⟩) true 5 old io =
      some (.ok ⟨7, .exited 7, old, none⟩) :=
  proc_exit_ends_run (c := 7) (r := none) (f := ⟨0, [], 0, [⟨false, 2, 0⟩], true, [], [], none⟩) rfl rfl rfl rfl (by decide)

end ExitEx

end Verif.Props
