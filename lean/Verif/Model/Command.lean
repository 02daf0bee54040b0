import Verif.Model.Cli
import Verif.Model.Module
import Verif.Model.Migrate
import Verif.Model.Passthrough
/-
The command itself, src/main.rs: `parse_params`, `main`, `handle_result`, with the checkpoint writing of
runtime.rs:234-262.  The option parser (clap) is not modelled: the options are given as the fields of `Cli`.
-/
namespace Verif.Model

/-! ## `--params` -/

/-- the greedy `.*` followed by `)` from one position on: `.` matches anything but a newline (main.rs:85) -/
def upToParen : List Char → Option (List Char)
  | [] => none
  | c :: cs =>
    if c = '\n' then none
    else match upToParen cs with
      | some r => some (c :: r)
      | none => if c = ')' then some [] else none

/-- the leftmost match of the regular expression `(?<=\().*(?=\))` (main.rs:85, 88-93) -/
def parenText : List Char → Option (List Char)
  | [] => none
  | c :: cs =>
    if c = '(' then
      match upToParen cs with
      | some r => some r
      | none => parenText cs
    else parenText cs

/-- `str::contains` -/
def hasSub (p : List Char) : List Char → Bool
  | [] => p.isEmpty
  | c :: cs => p.isPrefixOf (c :: cs) || hasSub p cs

/-- `char::to_digit(10)` on an ASCII character -/
def digitVal (c : Char) : Option Nat := if 48 ≤ c.toNat ∧ c.toNat ≤ 57 then some (c.toNat - 48) else none

/-- the digit loop of `from_str_radix` with its overflow checks (`checked_mul`, `checked_add` / `checked_sub`) -/
def accDigits (lo hi : Int) (neg : Bool) (acc : Int) : List Char → Option Int
  | [] => some acc
  | c :: cs =>
    match digitVal c with
    | none => none
    | some d =>
      if acc * 10 < lo ∨ hi < acc * 10 then none
      else
        let y := if neg then acc * 10 - d else acc * 10 + d
        if y < lo ∨ hi < y then none else accDigits lo hi neg y cs

/-- `str::parse::<i32>` / `::<i64>` (main.rs:95, 105): an optional sign, then at least one digit -/
def parseInt (lo hi : Int) : List Char → Option Int
  | [] => none
  | [c] => if c = '+' ∨ c = '-' then none else accDigits lo hi false 0 [c]
  | c :: cs =>
    if c = '-' then accDigits lo hi true 0 cs
    else if c = '+' then accDigits lo hi false 0 cs
    else accDigits lo hi false 0 (c :: cs)

/-- `str::parse::<f32>` / `::<f64>`, not modelled further -/
structure FloatText where
  f32 : List Char → Option (BitVec 32)
  f64 : List Char → Option (BitVec 64)

/-- `.expect(..)` and `.unwrap()` -/
def orPanic {α : Type} : Option α → Res α
  | some a => .ok a
  | none => .panic

/-- main.rs:86-126: one parameter; `none`: none of the type names occurs, the parameter is skipped -/
def parseParam (T : FloatText) (p : List Char) : Res (Option Val) :=
  if hasSub "I32".toList p then do
    let t ← orPanic (parenText p)
    let n ← orPanic (parseInt (-2147483648) 2147483647 t)
    pure (some ⟨.i32, BitVec.ofInt 32 n⟩)
  else if hasSub "I64".toList p then do
    let t ← orPanic (parenText p)
    let n ← orPanic (parseInt (-9223372036854775808) 9223372036854775807 t)
    pure (some ⟨.i64, BitVec.ofInt 64 n⟩)
  else if hasSub "F32".toList p then do
    let t ← orPanic (parenText p)
    let x ← orPanic (T.f32 t)
    pure (some ⟨.f32, x⟩)
  else if hasSub "F64".toList p then do
    let t ← orPanic (parenText p)
    let x ← orPanic (T.f64 t)
    pure (some ⟨.f64, x⟩)
  else .ok none

/-- main.rs:83-129 `parse_params` -/
def parseParams (T : FloatText) : List (List Char) → Res (List Val)
  | [] => .ok []
  | p :: ps => do
    let v ← parseParam T p
    let vs ← parseParams T ps
    pure (match v with | some v => v :: vs | none => vs)

/-! ## `main` -/

/-- the fields of `Cli` that matter (main.rs:17-50); `restore` carries the content of the named file (`none`: unreadable) -/
structure Options where
  wasmFile : List Char
  restore : Option (Option (List Byte))
  invoke : String
  params : List (List Char)
  appArgs : Option (List Char)
  cr : Bool

/-- a Rust string as the bytes the guest sees -/
def utf8 (s : List Char) : List Byte := (s.flatMap String.utf8EncodeChar).map (·.toBitVec)

/-- main.rs:151-155: the guest's command line -/
def Options.argv (o : Options) : List (List Byte) :=
  (o.wasmFile :: match o.appArgs with | some s => parseArgs s | none => []).map utf8

/-- main.rs:158, execution/module.rs:77 (`ModuleInst::new` gives the arguments to `PassthroughWasiImpl::new`,
wasi/passthrough.rs:150-152): the host functions the guest is run with -/
def Options.host (N : Native) (o : Options) : Wasi := passthrough N o.argv

/-- what is printed (main.rs:172-178, 213-236): `result` is the value behind `Result:` if one is printed;
`exited`: nothing is printed, the guest ended the process with `proc_exit` -/
inductive Report
  | result (v : Option Val)
  | checkpointed
  | runFailed (e : Err)
  | initFailed (e : Err)
  | restoreFailed (e : Err)
  | noFunction
  | exited (code : BitVec 32)
  deriving DecidableEq

/-- What a finished process leaves: exit status, what it printed, the content of `./checkpoint.bin`, and — when it ended
with values or for a checkpoint — instance and outside world. -/
structure Left (S : Wasi) where
  status : Nat
  report : Report
  ckpt : Option (List Byte)
  state : Option (Inst × S.W)

/-- a run that ended with an error: printed by `handle_result` (main.rs:231-233), status 0 — unless the guest ended the process
(passthrough.rs:304-309): then nothing is printed and the status is the guest's -/
def Left.failed {S : Wasi} (ckpt : Option (List Byte)) : Err → Left S
  | .processExit c => ⟨c.toNat, .exited c, ckpt, none⟩
  | e => ⟨0, .runFailed e, ckpt, none⟩

/-- runtime.rs:205-427 `Runtime::run` (with the checkpoint writing, 234-262) followed by `handle_result` (main.rs:221-236):
whatever the result, `main` returns `Ok(())` -/
def Machine.process {S : Wasi} (lz : Lz) (E : Env) (D : Dispatcher) (enable : Bool) (fuel : Nat) (old : Option (List Byte))
    (io : Io) (m : Machine S) : Option (Res (Left S)) :=
  match m.run E D enable fuel with
  | none => none
  | some (.ok (.done vs m')) => some (.ok ⟨0, .result vs.getLast?, old, some (m'.inst, m'.world)⟩)
  | some (.ok (.ckpt m')) =>
    match m'.checkpoint lz E.P old io with
    | (.ok (), file) => some (.ok ⟨0, .checkpointed, file, some (m'.inst, m'.world)⟩)
    | (.trap e, file) => some (.ok ⟨0, .runFailed e, file, none⟩)
    | (.panic, _) => some .panic
    | (.ub, _) => some .ub
  | some (.trap e) => some (.ok (Left.failed old e))
  | some .panic => some .panic
  | some .ub => some .ub

/-- main.rs:131-218 `main`.  `none`: still running.  `panic`: the process aborts.
`old` is the content of `./checkpoint.bin` before, `io` what the file system does when it is written. -/
def command {S : Wasi} (T : FloatText) (lz : Lz) (E : Prog → Bool → Env) (D : Env → Dispatcher) (fuel : Nat) (file : WFile)
    (o : Options) (world : S.W) (old : Option (List Byte)) (io : Io) : Option (Res (Left S)) :=
  match loadFile file with
  | .ok L =>
    match o.restore with
    | some saved =>
      match restore lz L.prog L.inst saved with
      | (.ok st, i) =>
        (st.resume (S := S) i world).process lz (E L.prog L.hasWasi) (D (E L.prog L.hasWasi)) o.cr fuel old io
      | (.trap e, _) => some (.ok ⟨1, .restoreFailed e, old, none⟩)
      | (.panic, _) => some .panic
      | (.ub, _) => some .ub
    | none =>
      match L.exportFunc o.invoke with
      | .ok f =>
        match parseParams T o.params with
        | .ok ps =>
          match Machine.new (S := S) L.prog L.inst world f ps with
          | .ok m => m.process lz (E L.prog L.hasWasi) (D (E L.prog L.hasWasi)) o.cr fuel old io
          | .trap e => some (.ok ⟨0, .initFailed e, old, none⟩)
          | .panic => some .panic
          | .ub => some .ub
        | _ => some .panic
      | .trap _ => some (.ok ⟨1, .noFunction, old, none⟩)
      | .panic => some .panic
      | .ub => some .ub
  | _ => some .panic

end Verif.Model
