import Verif.Props.QuietRun
/-
A concrete module used by the examples: function 0 calls function 1, which sums `n + (n-1) + … + 1` in a loop.
-/
namespace Verif.Props.Sample
open Verif.Model

/-- a float host whose only NaN is the canonical one -/
def host : FloatHost :=
  { arith := fun s _ _ _ => s.ofNatF (fNanConst s.fmt), round := fun s _ _ => s.ofNatF (fNanConst s.fmt)
    demote := fun _ => BitVec.ofNat 32 (fNanConst Spec.f32), promote := fun _ => BitVec.ofNat 64 (fNanConst Spec.f64)
    arith_nan := fun s _ _ _ => by cases s <;> decide +kernel
    round_nan := fun s _ _ => by cases s <;> decide +kernel
    demote_nan := fun _ => by decide +kernel
    promote_nan := fun _ => by decide +kernel }

/-- function 0: `i32.const 4; call 1; global.set 0; i32.const 7; memory.grow; drop; global.get 0` -/
def main : Code :=
  { locals := [], alloc := some (fun c => if c = .i32 then 2 else 0)
    body := [.op1 (.mov .i32) (.reg 0) (.const (4 : BitVec 32)),
             .call 1 [⟨.i32, 0⟩] [⟨.i32, 0⟩],
             .globalSet .i32 (.reg 0) 0,
             .op1 (.mov .i32) (.reg 0) (.const (1 : BitVec 32)),
             .memGrow 0 0,
             .globalGet .i32 (.reg 0) 0,
             .fin [⟨.i32, 0⟩] []] }

/-- function 1: sums down to 0 -/
def sum : Code :=
  { locals := [(1, .i32)], alloc := some (fun c => if c = .i32 then 2 else 0)
    body := [.block true,
             .op2 (.int .s32 .add) (.loc 1) (.param 1) (.param 0),
             .op2 (.int .s32 .sub) (.loc 0) (.param 0) (.const (1 : BitVec 32)),
             .op1 (.mov .i32) (.reg 1) (.param 0),
             .brIf 0 0 1 [] [],
             .fin [] [],
             .op1 (.mov .i32) (.reg 1) (.param 1),
             .fin [⟨.i32, 1⟩] []] }

def prog : Prog :=
  { types := [⟨[], [.i32]⟩, ⟨[.i32], [.i32]⟩]
    funcs := [.runtime ⟨[], [.i32]⟩ main, .runtime ⟨[.i32], [.i32]⟩ sum] }

/-- no trigger ever -/
def env : Env := { H := host, P := prog, atomics := false, hasWasi := false, trig := fun _ => false }

/-- the environment of the atomics build with the flag raised from the `k`-th look on -/
def envTrig (atomics : Bool) (k : Nat) : Env :=
  { H := host, P := prog, atomics := atomics, hasWasi := true, trig := fun j => decide (k ≤ j) }

/-- a world with nothing in it -/
def wasi : Wasi := { W := Unit, call := fun _ _ m _ => .ok (some none, m, ()) }

def inst : Inst :=
  { mem := some ⟨[], none⟩, memGen := 0, globals := [⟨true, ⟨.i32, (0 : BitVec 32)⟩⟩], tables := [], datas := [] }

def machine : Machine wasi :=
  match Machine.new prog inst () 0 [] with
  | .ok m => m
  | _ => { rf := RegFile.empty, frames := [], inst := inst, world := (), looks := 0 }

theorem machine_new : Machine.new prog inst (() : wasi.W) 0 [] = .ok machine := rfl

theorem quiet : Quiet env := fun _ => rfl

theorem insideMain : Inside main.body := by
  intro i hi; simp [main] at hi
  rcases hi with rfl | rfl | rfl | rfl | rfl | rfl | rfl <;> simp [Instr.targets, main]

theorem insideSum : Inside sum.body := by
  intro i hi; simp [sum] at hi
  rcases hi with rfl | rfl | rfl | rfl | rfl | rfl | rfl | rfl <;> simp [Instr.targets, sum]

theorem inside : InsideP prog := by
  intro f
  match f with
  | 0 => exact insideMain
  | 1 => exact insideSum
  | f + 2 => intro i hi; simp [Prog.body, prog] at hi

/-- values and memory size at the end -/
def shown {S : Wasi} : Option (Res (End S)) → Option (List Val × Nat)
  | some (.ok (.done vs m)) => some (vs, (m.inst.mem.map (·.data.length)).getD 0)
  | _ => none

end Verif.Props.Sample

namespace Verif.Props
open Verif.Model Sample

/-- C31 is not vacuous: a run with calls, a loop, a global and a growing memory meets its assumptions -/
example (o : Res (List Val × Inst × wasi.W)) :
    Runs env (loopD env) true machine o ↔ Runs env (loopD env) false machine o :=
  (checkpoint_option_invisible quiet inside machine true false o).1

example : shown (machine.run env (loopD env) true 100) = some ([⟨.i32, (10 : BitVec 32)⟩], 65536) := by decide +kernel
example : shown (machine.run env (tcoD env) false 100) = some ([⟨.i32, (10 : BitVec 32)⟩], 65536) := by decide +kernel

/-- the assumption `Quiet` matters: with a raised flag the enabled run stops at the first look -/
example : (match machine.run (envTrig true 0) (loopD (envTrig true 0)) true 100 with
    | some (.ok (.ckpt _)) => true | _ => false) = true := by decide +kernel

end Verif.Props
