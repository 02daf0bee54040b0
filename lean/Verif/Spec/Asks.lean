import Verif.Spec.WebAssembly
import Verif.Spec.Session
/-
What a program asks of its host, whether or not it ever ends: according to the WebAssembly rules, and as the command does it.
-/
namespace Verif.Spec
open Verif.Model Verif.Props

/-- A call of a host function: which one, with which arguments, with which memory, in which outside world (whatever earlier
calls have left behind there, so that order and number of the calls matter). -/
structure Ask (W : Type) where
  id : Nat
  args : List Val
  mem : Mem
  world : W

mutual
/-- According to the rules, executing `w` with operand stack `stk` in state `s` at some moment asks `q`. -/
inductive Asks (S : Wasi) (Q : SProg) (M : MInfo) : WSeq → List Val → SSt S.W → Ask S.W → Prop
  | next {o k stk s stk' s' q} (h : Op Q.H o stk s (.next stk' s')) (hk : Asks S Q M k stk' s' q) : Asks S Q M (.op o k) stk s q
  | brIf0 {d k stk s q} (hk : Asks S Q M k stk s q) : Asks S Q M (.op (.brIf d) k) (i32 0 :: stk) s q
  | inCall {f F k stk s q} {args : List Val} (hf : Q.funcs[f]? = some F) (ha : args.map (·.cls) = F.type.params)
      (hc : CallAsks S Q M F args s.st s.world q) : Asks S Q M (.op (.call f) k) (args.reverse ++ stk) s q
  | afterCall {f F k stk s c stk' s' q} {args : List Val} (hf : Q.funcs[f]? = some F) (ha : args.map (·.cls) = F.type.params)
      (hc : Call S Q M F args s.st s.world c) (hr : Returns s.locals stk c (.inr (stk', s'))) (hk : Asks S Q M k stk' s' q) :
      Asks S Q M (.op (.call f) k) (args.reverse ++ stk) s q
  | inIndirect {ty t k i tb f F stk s q} {args : List Val} (ht : s.st.tables[t]? = some tb) (he : tb[i.toNat]? = some (.func f))
      (hf : Q.funcs[f]? = some F) (hty : Q.types[ty]? = some F.type) (ha : args.map (·.cls) = F.type.params)
      (hc : CallAsks S Q M F args s.st s.world q) : Asks S Q M (.op (.callIndirect ty t) k) (i32 i :: (args.reverse ++ stk)) s q
  | afterIndirect {ty t k i tb f F stk s c stk' s' q} {args : List Val} (ht : s.st.tables[t]? = some tb)
      (he : tb[i.toNat]? = some (.func f)) (hf : Q.funcs[f]? = some F) (hty : Q.types[ty]? = some F.type)
      (ha : args.map (·.cls) = F.type.params) (hc : Call S Q M F args s.st s.world c)
      (hr : Returns s.locals stk c (.inr (stk', s'))) (hk : Asks S Q M k stk' s' q) :
      Asks S Q M (.op (.callIndirect ty t) k) (i32 i :: (args.reverse ++ stk)) s q
  | inBlock {bt b k stk s q} {ps : List Val} (hp : ps.map (·.cls) = M.blockParams bt) (hb : Asks S Q M b ps.reverse s q) :
      Asks S Q M (.block bt b k) (ps.reverse ++ stk) s q
  | afterBlock {bt b k stk s o stk' s' q} {ps : List Val} (hp : ps.map (·.cls) = M.blockParams bt) (hb : Ev S Q M b ps.reverse s o)
      (hl : Leaves (M.blockResults bt).length stk o (.inr (stk', s'))) (hk : Asks S Q M k stk' s' q) :
      Asks S Q M (.block bt b k) (ps.reverse ++ stk) s q
  | inLoop {bt b k stk s q} {ps : List Val} (hp : ps.map (·.cls) = M.blockParams bt) (hb : Asks S Q M b ps.reverse s q) :
      Asks S Q M (.loop bt b k) (ps.reverse ++ stk) s q
  | afterLoop {bt b k stk s o stk' s' q} {ps : List Val} (hp : ps.map (·.cls) = M.blockParams bt) (hb : Ev S Q M b ps.reverse s o)
      (h0 : ∀ vs s', o ≠ .br 0 vs s') (hl : Leaves (M.blockParams bt).length stk o (.inr (stk', s'))) (hk : Asks S Q M k stk' s' q) :
      Asks S Q M (.loop bt b k) (ps.reverse ++ stk) s q
  | again {bt b k stk s vs s' q} {ps : List Val} (hp : ps.map (·.cls) = M.blockParams bt) (hb : Ev S Q M b ps.reverse s (.br 0 vs s'))
      (hx : Asks S Q M (.loop bt b k) (vs.take (M.blockParams bt).length ++ stk) s' q) :
      Asks S Q M (.loop bt b k) (ps.reverse ++ stk) s q
  | inIte {bt t k c stk s q} {ps : List Val} (hc : c.toNat ≠ 0) (hp : ps.map (·.cls) = M.blockParams bt)
      (hb : Asks S Q M t ps.reverse s q) : Asks S Q M (.ite bt t k) (i32 c :: (ps.reverse ++ stk)) s q
  | afterIte {bt t k c stk s o stk' s' q} {ps : List Val} (hc : c.toNat ≠ 0) (hp : ps.map (·.cls) = M.blockParams bt)
      (hb : Ev S Q M t ps.reverse s o) (hl : Leaves (M.blockResults bt).length stk o (.inr (stk', s'))) (hk : Asks S Q M k stk' s' q) :
      Asks S Q M (.ite bt t k) (i32 c :: (ps.reverse ++ stk)) s q
  | ite0 {bt t k stk s q} {ps : List Val} (hp : ps.map (·.cls) = M.blockParams bt) (hx : Asks S Q M k (ps.reverse ++ stk) s q) :
      Asks S Q M (.ite bt t k) (i32 0 :: (ps.reverse ++ stk)) s q
  | inThen {bt t e k c stk s q} {ps : List Val} (hc : c.toNat ≠ 0) (hp : ps.map (·.cls) = M.blockParams bt)
      (hb : Asks S Q M t ps.reverse s q) : Asks S Q M (.itee bt t e k) (i32 c :: (ps.reverse ++ stk)) s q
  | afterThen {bt t e k c stk s o stk' s' q} {ps : List Val} (hc : c.toNat ≠ 0) (hp : ps.map (·.cls) = M.blockParams bt)
      (hb : Ev S Q M t ps.reverse s o) (hl : Leaves (M.blockResults bt).length stk o (.inr (stk', s'))) (hk : Asks S Q M k stk' s' q) :
      Asks S Q M (.itee bt t e k) (i32 c :: (ps.reverse ++ stk)) s q
  | inElse {bt t e k stk s q} {ps : List Val} (hp : ps.map (·.cls) = M.blockParams bt)
      (hb : Asks S Q M e ps.reverse s q) : Asks S Q M (.itee bt t e k) (i32 0 :: (ps.reverse ++ stk)) s q
  | afterElse {bt t e k stk s o stk' s' q} {ps : List Val} (hp : ps.map (·.cls) = M.blockParams bt)
      (hb : Ev S Q M e ps.reverse s o) (hl : Leaves (M.blockResults bt).length stk o (.inr (stk', s'))) (hk : Asks S Q M k stk' s' q) :
      Asks S Q M (.itee bt t e k) (i32 0 :: (ps.reverse ++ stk)) s q

/-- the same of a call -/
inductive CallAsks (S : Wasi) (Q : SProg) (M : MInfo) : SFunc → List Val → Store → S.W → Ask S.W → Prop
  | body {t ls b st w q} {args : List Val} (h : Asks S Q M b [] ⟨initialLocals args ls, st, w⟩ q) :
      CallAsks S Q M (.wasm t ls b) args st w q
  | host {t id st w m} {args : List Val} (hm : st.mem = some m) : CallAsks S Q M (.wasi t id) args st w ⟨id, args, m, w⟩
end

/-! ### The command -/

/-- the machine is about to ask `q`: its next round executes instructions up to a call of a host function -/
def _root_.Verif.Model.Machine.AsksNow {S : Wasi} (E : Env) (D : Dispatcher) (fuel : Nat) (m : Machine S) (q : Ask S.W) : Prop :=
  ∃ f fs r d, m.frames = f :: fs ∧ D fuel (E.P.body f.func) (m.enter f) = some (.ok (.yield (.wasi q.id q.args r) d)) ∧
    E.hasWasi = true ∧ d.vm.inst.mem = some q.mem ∧ m.world = q.world

/-- within so many rounds the machine asks `q` -/
def _root_.Verif.Model.Machine.AsksIn {S : Wasi} (E : Env) (D : Dispatcher) (en : Bool) (fuel : Nat) : Nat → Machine S → Ask S.W → Prop
  | 0, _, _ => False
  | k + 1, m, q => m.AsksNow E D fuel q ∨ ∃ m', m.round E D en fuel = some (.ok (.running m')) ∧ m'.AsksIn E D en fuel k q

/-- the run asks `q` -/
def _root_.Verif.Model.Machine.Asks {S : Wasi} (E : Env) (D : Dispatcher) (en : Bool) (fuel : Nat) (m : Machine S) (q : Ask S.W) : Prop :=
  ({ m with frames := setFirstEnable en m.frames } : Machine S).AsksIn E D en fuel fuel q

/-- the machine the command starts to run, if it gets that far -/
inductive Begins {S : Wasi} (T : FloatText) (lz : Lz) (file : WFile) (o : Options) (world : S.W) : Loaded → Machine S → Prop
  | fresh {L f ps m} (hL : loadFile file = .ok L) (ho : o.restore = none) (hf : L.exportFunc o.invoke = .ok f)
      (hp : parseParams T o.params = .ok ps) (hm : Machine.new (S := S) L.prog L.inst world f ps = .ok m) : Begins T lz file o world L m
  | resumed {L saved st i} (hL : loadFile file = .ok L) (ho : o.restore = some saved) (hr : restore lz L.prog L.inst saved = (.ok st, i)) :
      Begins T lz file o world L (st.resume i world)

/-- the process asks `q`, as long as we watch it -/
def Process.Asks {S : Wasi} (T : FloatText) (lz : Lz) (H : FloatHost) (p : Process) (file : WFile) (o : Options) (world : S.W) (q : Ask S.W) :
    Prop :=
  ∃ L m, Begins T lz file o world L m ∧
    m.Asks (envOf H p.atomics p.trig L.prog L.hasWasi) (p.D (envOf H p.atomics p.trig L.prog L.hasWasi)) p.cr p.fuel q

/-- A session so far: processes started one after the other, each but the first restoring the checkpoint file (below 4 GiB) the one
before left, with the outside world as it was left.  The session was begun with options `o` in the outside world `world`; the next
process will be started with options `o'` in the outside world `w'`; `A` is what the host has been asked up to now. -/
inductive SoFar {S : Wasi} (T : FloatText) (lz : Lz) (H : FloatHost) (file : WFile) (o : Options) (world : S.W) :
    Options → S.W → (Ask S.W → Prop) → Prop
  | start : SoFar T lz H file o world o world (fun _ => False)
  | move {o' : Options} {w' : S.W} {A : Ask S.W → Prop} (before : SoFar T lz H file o world o' w' A) (p : Process) {l : Left S}
      {b : List Byte} {i : Inst} {w : S.W} (h : p.run T lz H file o' w' = some (.ok l)) (hl : l.report = .checkpointed)
      (hb : l.ckpt = some b) (hs : l.state = some (i, w)) (hlen : b.length < 2 ^ 32) :
      SoFar T lz H file o world { o' with restore := some (some b) } w (fun q => A q ∨ p.Asks T lz H file o' w' q)

end Verif.Spec
