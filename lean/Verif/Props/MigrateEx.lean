import Verif.Props.Resume
/-
Concrete cases for C26-C30: the sample program checkpointed inside a nested call, and what checkpoints lose.
-/
namespace Verif.Props
open Verif.Model Sample

/-- "compression" that changes nothing -/
def Sample.lz : Lz := { compress := id, decompress := some, inv := fun _ => rfl }

/-- executable version of `Snapshot.Fits` -/
def fitsB (s : Snapshot) : Bool :=
  let off (o : Offsets) : Bool := o .i32 < 2 ^ 32 && o .i64 < 2 ^ 32 && o .f32 < 2 ^ 32 && o .f64 < 2 ^ 32 &&
    o .ref < 2 ^ 32 && o .v128 < 2 ^ 32
  let reg (r : Reg) : Bool := r.idx < 2 ^ 16
  let lab (l : Label) : Bool := l.returnIp < 2 ^ 32 && l.ip < 2 ^ 32
  let fr (f : FrameData) : Bool := f.locals.length < 2 ^ 32 && f.n < 2 ^ 32 && f.labels.length < 2 ^ 32 && f.labels.all lab &&
    f.resultRegs.length ≤ 8 && f.resultRegs.all reg && f.retRegs.length ≤ 8 && f.retRegs.all reg
  (s.regs .i32).length < 2 ^ 32 && (s.regs .i64).length < 2 ^ 32 && (s.regs .f32).length < 2 ^ 32 &&
    (s.regs .f64).length < 2 ^ 32 && (s.regs .ref).length < 2 ^ 32 && (s.regs .v128).length < 2 ^ 32 &&
    s.offsets.length < 2 ^ 32 && s.offsets.all off && off s.cached && s.frames.length < 2 ^ 32 && s.frames.all fr &&
    s.memory.length < 2 ^ 32 && s.globals.length < 2 ^ 32 && s.funcs.length < 2 ^ 32 && s.funcs.all (· < 2 ^ 32)

theorem fits_of (s : Snapshot) (h : fitsB s = true) : s.Fits := by
  simp only [fitsB, Bool.and_eq_true, decide_eq_true_eq, List.all_eq_true] at h
  obtain ⟨⟨⟨⟨⟨⟨⟨⟨⟨⟨⟨⟨⟨⟨h1, h2⟩, h3⟩, h4⟩, h5⟩, h6⟩, h7⟩, h8⟩, h9⟩, h10⟩, h11⟩, h12⟩, h13⟩, h14⟩, h15⟩ := h
  have off : ∀ o : Offsets, (((((o .i32 < 2 ^ 32 ∧ o .i64 < 2 ^ 32) ∧ o .f32 < 2 ^ 32) ∧ o .f64 < 2 ^ 32) ∧
      o .ref < 2 ^ 32) ∧ o .v128 < 2 ^ 32) → offsetsFit o := by
    rintro o ⟨⟨⟨⟨⟨a, b⟩, c⟩, d⟩, e⟩, f⟩ x
    cases x <;> assumption
  refine ⟨?_, h7, fun o ho => off o (h8 o ho), off _ h9, h10, ?_, h12, h13, h14, h15⟩
  · intro c; cases c <;> assumption
  · intro f hf
    obtain ⟨⟨⟨⟨⟨⟨⟨a, b⟩, c⟩, d⟩, e⟩, g⟩, i⟩, j⟩ := h11 f hf
    exact ⟨a, b, c, fun l hl => ⟨(d l hl).1, (d l hl).2⟩, e, g, i, j⟩

/-- the machine a run stopped at -/
def stopped {S : Wasi} (dflt : Machine S) : Option (Res (End S)) → Machine S
  | some (.ok (.ckpt m)) => m
  | _ => dflt

/-- the run stopped for a checkpoint -/
def isStopped {S : Wasi} : Option (Res (End S)) → Bool
  | some (.ok (.ckpt _)) => true
  | _ => false

theorem stopped_eq {S : Wasi} (dflt : Machine S) {x : Option (Res (End S))} (h : isStopped x = true) :
    x = some (.ok (.ckpt (stopped dflt x))) := by
  match x, h with
  | some (.ok (.ckpt m)), _ => rfl

/-- value of a successful result -/
def okD {α : Type} (dflt : α) : Res α → α
  | .ok a => a
  | _ => dflt

/-- success -/
def isOk {α : Type} : Res α → Bool
  | .ok _ => true
  | _ => false

theorem ok_eq {α : Type} (dflt : α) {x : Res α} (h : isOk x = true) : x = .ok (okD dflt x) := by
  match x, h with
  | .ok a, _ => rfl

theorem pair_eq {α β : Type} (dflt : α) {x : Res α × β} (h : isOk x.1 = true) : x = (.ok (okD dflt x.1), x.2) := by
  obtain ⟨a, b⟩ := x
  exact Prod.ext (ok_eq dflt h) rfl

theorem unit_eq {β : Type} {x : Res Unit × β} (h : isOk x.1 = true) : x = (.ok (), x.2) := pair_eq () h

namespace Sample

/-- stopped at the sixth look at the trigger: inside the loop of the called function -/
def mid : Machine wasi := stopped machine (machine.run (envTrig true 5) (loopD (envTrig true 5)) true 100)

/-- its checkpoint -/
def snap : Snapshot := okD ⟨fun _ => [], [], fun _ => 0, [], [], [], []⟩ (mid.snapshot lz prog)

/-- the checkpoint file -/
def file : Option (List Byte) := (mid.checkpoint lz prog none .fine).2

/-- what `restore` returns -/
def stacks : Stacks := okD ⟨RegFile.empty, []⟩ (restore lz prog inst file).1

/-- the resumed machine -/
def resumed : Machine wasi := stacks.resume (restore lz prog inst file).2 mid.world

theorem mid_run : machine.run (envTrig true 5) (loopD (envTrig true 5)) true 100 = some (.ok (.ckpt mid)) :=
  stopped_eq machine (by decide +kernel)

theorem snap_ok : mid.snapshot lz prog = .ok snap := ok_eq _ (by decide +kernel)

theorem snap_fits : snap.Fits := fits_of snap (by decide +kernel)

theorem ckpt_ok : mid.checkpoint lz prog none .fine = (.ok (), file) :=
  unit_eq (by decide +kernel)

theorem restore_ok : restore lz prog inst file = (.ok stacks, (restore lz prog inst file).2) :=
  pair_eq _ (by decide +kernel)

theorem keepsSegments : KeepsSegments prog := by
  intro f
  match f with
  | 0 => simp [Prog.body, prog, main, Instr.unsaved]
  | 1 => simp [Prog.body, prog, sum, Instr.unsaved]
  | f + 2 => simp [Prog.body, prog]

theorem keepsSize : WasiKeepsSize wasi := by
  intro id ps mem w res mem' w' h
  simp only [wasi, Res.ok_inj, Prod.mk.injEq] at h
  cases h.2; exact ⟨rfl, rfl⟩

/-- the environment of the sample with the WASI flag and build of `envTrig` -/
def envM : Env := envTrig true 5

theorem migrates : MigratesStar lz envM inst machine resumed :=
  .more .none (.mk (trig := fun j => decide (5 ≤ j)) (D := loopD (envTrig true 5)) .loop mid_run snap_ok snap_fits ckpt_ok restore_ok)

end Sample

/-- the checkpoint was taken with two frames, inside the callee's loop -/
example : mid.frames.map (fun f => (f.func, f.labels.length)) = [(1, 2), (0, 1)] := by decide +kernel

/-- C26 on that state -/
example (b rest : List Byte) (h : encode snap = some b) : decode (b ++ rest) = some (snap, rest) :=
  decode_encode snap snap_fits b rest h

example : ((encode snap).map List.length).isSome = true := by decide +kernel

/-- C27 on that state, for every crash point -/
example (k : Nat) (b : List Byte) (hb : encode snap = some b) (hk : k < b.length) :
    restore lz prog inst (mid.checkpoint lz prog none (.stopsAfter k)).2 = (.trap .deserializationError, inst) :=
  truncated_checkpoint_rejected lz prog mid none snap b snap_ok snap_fits hb k hk inst

/-- C29 on that state -/
example : SameShape inst mid.inst := ⟨by decide +kernel, by decide +kernel⟩

/-- C30 on that state -/
example (o : Res (List Val × Inst × wasi.W)) :
    Runs envM.quiet (loopD envM.quiet) true machine o ↔ Runs envM.quiet (tcoD envM.quiet) false resumed o :=
  checkpoint_restore_transparent_partial keepsSize lz inside keepsSegments inst () 0 [] machine_new migrates .loop .tco _ _ o

example : shown (resumed.run envM.quiet (loopD envM.quiet) true 100) = some ([⟨.i32, (10 : BitVec 32)⟩], 65536) := by
  decide +kernel

/-! ### what a checkpoint loses -/

namespace Lost

/-- function 0: `i32.const 0; ref.null; table.set 0; i32.const 0; call_indirect`; function 1: `i32.const 5` -/
def main : Code :=
  { locals := [], alloc := some (fun c => if c = .i32 then 1 else if c = .ref then 1 else 0)
    body := [.op1 (.mov .i32) (.reg 0) (.const (0 : BitVec 32)), .refNull 0, .tableSet 0 0 0,
             .op1 (.mov .i32) (.reg 0) (.const (0 : BitVec 32)), .callIndirect 0 0 0 [] [⟨.i32, 0⟩],
             .fin [⟨.i32, 0⟩] []] }

def five : Code :=
  { locals := [], alloc := some (fun c => if c = .i32 then 1 else 0)
    body := [.op1 (.mov .i32) (.reg 0) (.const (5 : BitVec 32)), .fin [⟨.i32, 0⟩] []] }

def prog : Prog :=
  { types := [⟨[], [.i32]⟩], funcs := [.runtime ⟨[], [.i32]⟩ main, .runtime ⟨[], [.i32]⟩ five] }

/-- instance after instantiation: table entry 0 is function 1 -/
def inst : Inst := { mem := none, memGen := 0, globals := [], tables := [[.func 1]], datas := [] }

/-- flag raised at the fourth look, after `table.set` -/
def env : Env := { H := host, P := prog, atomics := true, hasWasi := true, trig := fun j => decide (4 ≤ j) }

def machine : Machine wasi := okD ⟨RegFile.empty, [], inst, (), 0⟩ (Machine.new prog inst (() : wasi.W) 0 [])
def mid : Machine wasi := stopped machine (machine.run env (loopD env) true 100)
def file : Option (List Byte) := (mid.checkpoint lz prog none .fine).2
def stacks : Stacks := okD ⟨RegFile.empty, []⟩ (restore lz prog inst file).1
def resumed : Machine wasi := stacks.resume (restore lz prog inst file).2 mid.world

/-- a machine stopped while a function reference is in a register (`table.get` before the checkpoint) -/
def holding : Machine wasi :=
  { machine with rf := { RegFile.empty with regs := fun | .ref => [Ref.func 1] | .i32 => [] | .i64 => [] | .f32 => [] | .f64 => [] | .v128 => [] } }

def snapH : Snapshot := okD ⟨fun _ => [], [], fun _ => 0, [], [], [], []⟩ (holding.snapshot lz prog)

end Lost

/-- the run ended with a value -/
def finished {S : Wasi} : Option (Res (End S)) → Option (List Val)
  | some (.ok (.done vs _)) => some vs
  | _ => none

/-- the run ended in a panic -/
def panicked {S : Wasi} : Option (Res (End S)) → Bool
  | some .panic => true
  | _ => false

/-- C30 does not hold for programs that write tables: after `table.set` the uninterrupted run aborts at the null entry,
the migrated one calls the function that used to be there. -/
theorem table_write_lost_violated :
    Machine.new Lost.prog Lost.inst (() : wasi.W) 0 [] = .ok Lost.machine ∧
    MigratesStar lz Lost.env Lost.inst Lost.machine Lost.resumed ∧
    panicked (Lost.machine.run Lost.env.quiet (loopD Lost.env.quiet) true 100) = true ∧
    finished (Lost.resumed.run Lost.env.quiet (loopD Lost.env.quiet) true 100) = some [⟨.i32, (5 : BitVec 32)⟩] := by
  refine ⟨ok_eq _ (by decide +kernel), ?_, by decide +kernel, by decide +kernel⟩
  refine .more .none (.mk (trig := fun j => decide (4 ≤ j)) (D := loopD Lost.env) (mc := Lost.mid)
    (s := okD ⟨fun _ => [], [], fun _ => 0, [], [], [], []⟩ (Lost.mid.snapshot lz Lost.prog)) (old := none)
    (file := Lost.file) (io := .fine) (en := true) (n := 100) .loop (stopped_eq Lost.machine (by decide +kernel)) ?_ ?_ ?_ ?_)
  · exact ok_eq _ (by decide +kernel)
  · exact fits_of _ (by decide +kernel)
  · exact unit_eq (by decide +kernel)
  · exact pair_eq _ (by decide +kernel)

/-- C28 is not vacuous: such a state exists -/
example (old : Option (List Byte)) (io : Io) :
    Lost.holding.checkpoint lz Lost.prog old io = (.trap .serializationError, old) :=
  unserialisable_checkpoint_keeps_file lz Lost.prog Lost.holding old io Lost.snapH (ok_eq _ (by decide +kernel))
    (fun h => by have := h.regs (.func 1) (by decide +kernel); cases this)

/-- What C28 does not promise and the code does not give: an interrupted write destroys the older checkpoint, because the
file is truncated before it is written. -/
theorem interrupted_write_destroys_old :
    (Sample.mid.checkpoint lz Sample.prog Sample.file (.stopsAfter 0)).2 = some [] ∧ Sample.file ≠ some [] := by
  constructor
  · decide +kernel
  · decide +kernel

end Verif.Props
