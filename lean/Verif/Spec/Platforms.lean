import Verif.Spec.Session
import Verif.Spec.Neutral
import Verif.Spec.Asks
/-
C76: sessions whose processes run on different machines.
-/
namespace Verif.Spec
open Verif.Model Verif.Props

/-- A session as in `Session`, except that every process runs on a machine of its own: the `FloatHost` (which NaN a float
operation produces when it produces one) may be another one each time. -/
inductive MixedSession {S : Wasi} (T : FloatText) (lz : Lz) (file : WFile) : Options → S.W → Res (Left S) → Prop
  | last {o : Options} {world : S.W} {r : Res (Left S)} (H : FloatHost) (p : Process) (h : p.run T lz H file o world = some r)
      (hr : Finished r) : MixedSession T lz file o world r
  | move {o : Options} {world : S.W} {r : Res (Left S)} (H : FloatHost) (p : Process) {l : Left S} {b : List Byte} {i : Inst} {w : S.W}
      (h : p.run T lz H file o world = some (.ok l)) (hl : l.report = .checkpointed) (hb : l.ckpt = some b)
      (hs : l.state = some (i, w)) (hlen : b.length < 2 ^ 32)
      (next : MixedSession T lz file { o with restore := some (some b) } w r) : MixedSession T lz file o world r

/-- No function of the module contains a float operator whose NaN the machine chooses.  (Float constants, comparisons, `abs`,
`neg`, `copysign`, `min`, `max`, conversions to and from integers, reinterpretations, loads and stores are all allowed.) -/
def Neutral (A : SMod) : Prop := ∀ d ∈ A.funcs, ∀ o ∈ d.body.body, o.choosy = false

/-! ### NaNs -/

/-- the value is a NaN -/
def IsNaN : (c : Cls) → c.Carrier → Prop
  | .f32, v => f32.val (Cls.num .f32 v) = .nan
  | .f64, v => f64.val (Cls.num .f64 v) = .nan
  | _, _ => False

/-- executed in this state, the instruction delivers a NaN of the machine's choice -/
def MakesNaN (H : FloatHost) (s : VM) : Instr → Prop
  | .op1 op _ x => op.choosy = true ∧ ∃ a r, s.read op.src x = .ok a ∧ op.eval H a = .ok r ∧ IsNaN op.dst r
  | .op2 op _ x y => op.choosy = true ∧ ∃ a b r, s.read op.src x = .ok a ∧ s.read op.src y = .ok b ∧ op.eval H a b = .ok r ∧ IsNaN op.dst r
  | _ => False

/-- executing a body from one state on, one comes to the other (calls, returns and host calls end the path) -/
inductive PassesTo (H : FloatHost) (P : Prog) (code : List Instr) : VM → VM → Prop
  | here {s} : PassesTo H P code s s
  | step {s u t i} (hi : code[s.pc]? = some i) (hs : Model.step H P code.length s i = .ok (.cont u)) (h : PassesTo H P code u t) :
      PassesTo H P code s t
  /-- past the end of the code a label is taken off -/
  | leave {s l ls u t} (hi : code[s.pc]? = none) (hl : s.labels = l :: ls)
      (hu : u = { s with labels := ls, pc := if l.isLoop then s.pc + 1 else l.returnIp }) (h : PassesTo H P code u t) : PassesTo H P code s t

/-- for so many rounds (from one call, return or host call to the next) the run makes no NaN -/
def _root_.Verif.Model.Machine.NaNFreeIn {S : Wasi} (E : Env) (D : Dispatcher) (en : Bool) (fuel : Nat) : Nat → Machine S → Prop
  | 0, _ => True
  | k + 1, m =>
    (∀ f fs t i, m.frames = f :: fs → PassesTo E.H E.P (E.P.body f.func) (m.enter f).vm t → (E.P.body f.func)[t.pc]? = some i →
      ¬ MakesNaN E.H t i) ∧
    ∀ m', m.round E D en fuel = some (.ok (.running m')) → m'.NaNFreeIn E D en fuel k

/-- the process makes no NaN, as long as we watch it -/
def Process.NaNFree {S : Wasi} (T : FloatText) (lz : Lz) (H : FloatHost) (p : Process) (file : WFile) (o : Options) (world : S.W) : Prop :=
  ∀ L m, Begins T lz file o world L m → ({ m with frames := setFirstEnable p.cr m.frames } : Machine S).NaNFreeIn
    (envOf H p.atomics p.trig L.prog L.hasWasi) (p.D (envOf H p.atomics p.trig L.prog L.hasWasi)) p.cr p.fuel p.fuel

/-- A session as in `MixedSession` in which no process makes a NaN. -/
inductive NaNFreeSession {S : Wasi} (T : FloatText) (lz : Lz) (file : WFile) : Options → S.W → Res (Left S) → Prop
  | last {o : Options} {world : S.W} {r : Res (Left S)} (H : FloatHost) (p : Process) (h : p.run T lz H file o world = some r)
      (hn : p.NaNFree T lz H file o world) (hr : Finished r) : NaNFreeSession T lz file o world r
  | move {o : Options} {world : S.W} {r : Res (Left S)} (H : FloatHost) (p : Process) {l : Left S} {b : List Byte} {i : Inst} {w : S.W}
      (h : p.run T lz H file o world = some (.ok l)) (hn : p.NaNFree T lz H file o world) (hl : l.report = .checkpointed)
      (hb : l.ckpt = some b) (hs : l.state = some (i, w)) (hlen : b.length < 2 ^ 32)
      (next : NaNFreeSession T lz file { o with restore := some (some b) } w r) : NaNFreeSession T lz file o world r

end Verif.Spec
