import Verif.Model.Link
import Verif.Model.Runtime
/-
Several instances.  A runtime belongs to one module instance and runs every frame, also those of imported functions, with that
instance's globals, tables, functions, data segments and memory 0 (runtime.rs:135, 167) — except that loads and stores go through a
raw pointer into the memory of the function's own instance (runtime.rs:329-332, state.rs:179-180).  `Model/Runtime.lean` is the case
in which all functions belong to the runtime's instance.
-/
namespace Verif.Model

/-- Which memory the raw pointer of a frame points into (`none`: memory 0 of the runtime's instance, at `memPtr`; `some k`: memory 0
of the `k`-th other instance), and the memories of the other instances (`none`: an instance without memory, or one that is gone:
`Weak::upgrade`, runtime.rs:329-331).  No other instance's memory moves while this runtime runs. -/
structure Side where
  foreign : Option Nat
  others : List (Option Mem)

/-- handlers.rs:1281-1347: the handlers that use `mem_ptr` -/
def Instr.raw : Instr → Bool
  | .load _ _ _ _ => true
  | .store _ _ _ _ => true
  | _ => false

/-- handlers.rs:1987-2014: the handler that changes `mem_ptr` -/
def Instr.grows : Instr → Bool
  | .memGrow _ _ => true
  | _ => false

/-- the memory of the `k`-th other instance -/
def Side.mem (x : Side) (k : Nat) : Option Mem := (x.others[k]?).join

/-- the state with the memory the raw pointer points into in the place of memory 0 -/
def VM.swapIn (s : VM) (m : Option Mem) : VM :=
  { s with inst := { s.inst with mem := m, memGen := 0 }, memPtr := some 0 }

/-- and back: everything but the memory is taken over -/
def VM.swapOut (s s' : VM) : VM :=
  { s' with inst := { s'.inst with mem := s.inst.mem, memGen := s.inst.memGen }, memPtr := s.memPtr }

/-- the same for what a handler leaves -/
def Out.swapOut (s : VM) : Out → Out
  | .cont s' => .cont (s.swapOut s')
  | .yield y s' => .yield y (s.swapOut s')

/-- the state after a handler -/
def Out.after : Out → VM
  | .cont s => s
  | .yield _ s => s

/-- One handler (handlers.rs:408-2090): a load or store through a pointer into another instance's memory works on that memory,
everything else on the runtime's instance; `memory.grow` grows the runtime's memory and points the raw pointer there (2009). -/
def lstep (H : FloatHost) (P : Prog) (len : Nat) (s : VM) (x : Side) (i : Instr) : Res (Out × Side) :=
  match x.foreign, i.raw with
  | some k, true => do
    let o ← step H P len (s.swapIn (x.mem k)) i
    pure (o.swapOut s, { x with others := x.others.set k o.after.inst.mem })
  | _, _ => do
    let o ← step H P len s i
    pure (o, { x with foreign := if i.grows then none else x.foreign })

/-- dispatch_loop.rs:20-52 `execute_instructions` -/
def lloopRun (E : Env) (code : List Instr) : Nat → DState → Side → Option (Res (Final × Side))
  | 0, _, _ => none
  | fuel + 1, d, x =>
    match poll E d with
    | (true, d) => some (.ok (.ckpt d, x))
    | (false, d) =>
      match code[d.vm.pc]? with
      | none =>
        match d.vm.labels with
        | l :: rest@(_ :: _) =>
          if l.returnIp ≤ d.vm.pc ∧ l.isLoop = false then some (.ok (.halt d, x))
          else lloopRun E code fuel { d with vm := { d.vm with
                  labels := rest, pc := if l.isLoop then d.vm.pc + 1 else l.returnIp } } x
        | _ => some (.ok (.halt d, x))
      | some i =>
        match lstep E.H E.P code.length d.vm x i with
        | .ok (.cont vm, x) => lloopRun E code fuel { d with vm := vm } x
        | .ok (.yield y vm, x) => some (.ok (.yield y { d with vm := vm }, x))
        | .trap e => some (.trap e)
        | .panic => some .panic
        | .ub => some .ub

/-- handlers.rs:299-309, 344-352: the tail-call chain -/
def ltcoChain (E : Env) (code : List Instr) : Nat → DState → Side → Option (Res (Final × Side))
  | 0, _, _ => none
  | fuel + 1, d, x =>
    match code[d.vm.pc]? with
    | none => if d.vm.pc = code.length then some (.ok (.halt d, x)) else some .ub
    | some i =>
      match lstep E.H E.P code.length d.vm x i with
      | .ok (.cont vm, x) =>
        match poll E { d with vm := vm } with
        | (true, d) => some (.ok (.ckpt d, x))
        | (false, d) => ltcoChain E code fuel d x
      | .ok (.yield y vm, x) => some (.ok (.yield y { d with vm := vm }, x))
      | .trap e => some (.trap e)
      | .panic => some .panic
      | .ub => some .ub

/-- dispatch_tco.rs:22-32 `execute_instructions` -/
def ltcoRun (E : Env) (code : List Instr) (fuel : Nat) (d : DState) (x : Side) : Option (Res (Final × Side)) :=
  match poll E d with
  | (true, d) => some (.ok (.ckpt d, x))
  | (false, d) =>
    if code.length ≤ d.vm.pc then some (.ok (.halt d, x)) else ltcoChain E code fuel d x

/-- A runtime, which memory each frame's `cached_mem_ptr` points into (state.rs:221-243; running frame first), and the memories of
the other instances. -/
structure LMachine (S : Wasi) where
  m : Machine S
  foreign : List (Option Nat)
  others : List (Option Mem)

/-- what one round leads to -/
inductive LRound (S : Wasi)
  | running (m : LMachine S)
  | done (vals : List Val) (m : LMachine S)
  | ckpt (m : LMachine S)

/-- `primary_mem` of a frame is that of its function's instance: `home f` is the instance function `f` belongs to (`none`: the
runtime's own) -/
abbrev Homes := Nat → Option Nat

/-- runtime.rs:48-84, state.rs:148-212 -/
def LMachine.new {S : Wasi} (P : Prog) (home : Homes) (inst : Inst) (others : List (Option Mem)) (world : S.W) (f : Nat)
    (params : List Val) : Res (LMachine S) := do
  let m ← Machine.new P inst world f params
  pure ⟨m, [home f], others⟩

/-- runtime.rs:130-173: what the running frame is entered with -/
def LMachine.side {S : Wasi} (l : LMachine S) : Side := ⟨l.foreign.head?.join, l.others⟩

/-- runtime.rs:177-185 -/
def LMachine.leave {S : Wasi} (l : LMachine S) (f : Frame) (d : DState) (x : Side) : LMachine S :=
  ⟨l.m.leave f d, x.foreign :: l.foreign.tail, x.others⟩

/-- runtime.rs:263-424: the outcome of a reaction with the pointers `fs` of the frames it leaves -/
def Round.linked {S : Wasi} (fs : List (Option Nat)) (others : List (Option Mem)) : Round S → LRound S
  | .running m => .running ⟨m, fs, others⟩
  | .done vs m => .done vs ⟨m, fs, others⟩
  | .ckpt m => .ckpt ⟨m, fs, others⟩

/-- runtime.rs:377-421: the caller's pointer is taken again from its `primary_mem` (409-411) -/
def LMachine.doReturn {S : Wasi} (home : Homes) (l : LMachine S) : Res (LRound S) := do
  let r ← l.m.doReturn
  pure (r.linked (match l.m.frames with | _ :: c :: _ => home c.func :: l.foreign.tail.tail | _ => []) l.others)

/-- runtime.rs:298-356: the new frame's pointer is that of the called function's instance (329-332) -/
def LMachine.doInvoke {S : Wasi} (P : Prog) (home : Homes) (enable : Bool) (l : LMachine S) (f : Nat) (params : List Val)
    (results : List Reg) : Res (LRound S) := do
  let r ← l.m.doInvoke P enable f params results
  pure (r.linked (home f :: l.foreign) l.others)

/-- runtime.rs:273-297, 430-447: WASI functions get the runtime's memory (441-446) -/
def LMachine.doWasi {S : Wasi} (hasWasi : Bool) (l : LMachine S) (id : Nat) (params : List Val) (result : Option Reg) :
    Res (LRound S) := do
  let r ← l.m.doWasi hasWasi id params result
  pure (r.linked l.foreign l.others)

/-- runtime.rs:187-203, 234-424 -/
def LMachine.react {S : Wasi} (E : Env) (home : Homes) (enable : Bool) (l : LMachine S) (f : Frame) : Final × Side → Res (LRound S)
  | (.ckpt d, x) => .ok (.ckpt (l.leave f d x))
  | (.halt d, x) => (l.leave f d x).doReturn home
  | (.yield .ret d, x) => (l.leave f d x).doReturn home
  | (.yield (.invoke g ps rs) d, x) => (l.leave f d x).doInvoke E.P home enable g ps rs
  | (.yield (.wasi id ps r) d, x) => (l.leave f d x).doWasi E.hasWasi id ps r

/-- a dispatcher -/
abbrev LDispatcher := Nat → List Instr → DState → Side → Option (Res (Final × Side))

/-- one round of the `run` loop (runtime.rs:227-426) -/
def LMachine.round {S : Wasi} (E : Env) (home : Homes) (D : LDispatcher) (enable : Bool) (fuel : Nat) (l : LMachine S) :
    Option (Res (LRound S)) :=
  match l.m.frames with
  | [] => some (.ok (.done [] l))
  | f :: _ =>
    match D fuel (E.P.body f.func) (l.m.enter f) l.side with
    | none => none
    | some r => some (r >>= l.react E home enable f)

/-- how `run` ends -/
inductive LEnd (S : Wasi)
  | done (vals : List Val) (m : LMachine S)
  | ckpt (m : LMachine S)

/-- how it ends for the runtime alone (runtime.rs:205-427) -/
def LEnd.forget {S : Wasi} : LEnd S → End S
  | .done vs l => .done vs l.m
  | .ckpt l => .ckpt l.m

/-- the memories the other instances are left with (runtime.rs:205-427) -/
def LEnd.others {S : Wasi} : LEnd S → List (Option Mem)
  | .done _ l => l.others
  | .ckpt l => l.others

/-- the loop of `Runtime::run` (runtime.rs:227-426) -/
def LMachine.runLoop {S : Wasi} (E : Env) (home : Homes) (D : LDispatcher) (enable : Bool) (fuel : Nat) :
    Nat → LMachine S → Option (Res (LEnd S))
  | 0, _ => none
  | k + 1, l =>
    match l.round E home D enable fuel with
    | none => none
    | some (.ok (.running l')) => l'.runLoop E home D enable fuel k
    | some (.ok (.done vs l')) => some (.ok (.done vs l'))
    | some (.ok (.ckpt l')) => some (.ok (.ckpt l'))
    | some (.trap e) => some (.trap e)
    | some .panic => some .panic
    | some .ub => some .ub

/-- runtime.rs:205-427 `Runtime::run` -/
def LMachine.run {S : Wasi} (E : Env) (home : Homes) (D : LDispatcher) (enable : Bool) (fuel : Nat) (l : LMachine S) :
    Option (Res (LEnd S)) :=
  { l with m := { l.m with frames := setFirstEnable enable l.m.frames } }.runLoop E home D enable fuel fuel

/-- loop dispatcher -/
def lloopD (E : Env) : LDispatcher := fun n c d x => lloopRun E c n d x
/-- tail-call dispatcher -/
def ltcoD (E : Env) : LDispatcher := fun n c d x => ltcoRun E c n d x

/-- The instances the functions of a module belong to: own functions to the module's instance (execution/module.rs:220-226, func.rs:104 give
them a weak pointer to it), imported ones to the instance the importing program took them from, which `names` numbers. -/
def homesOf (names : String → String → Option Nat) (M : Modul) : Homes := fun f =>
  match M.imports[f]? with
  | some i => names i.1 i.2.1
  | none => none

end Verif.Model
