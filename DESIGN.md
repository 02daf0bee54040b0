# Formal model of oss-fun/chiwawa in Lean 4 — design

## What is being verified
chiwawa is a WebAssembly interpreter compiled to wasm32-wasip1: it decodes a module, *preprocesses* each
function into a register-based IR, runs the IR with one of two dispatchers and can checkpoint / restore.
The model follows the source function by function; every definition cites the `file:lines` it models.

## Layout
* `lean/Verif/Spec/*`   small specifications written from the WebAssembly core spec, the WASI ABI or the English
  property, not from the code.  `Num`, `Mem`, `Float` (operators and byte-wise memory), `Source` (structured
  WebAssembly code: validation and evaluation), `Subset` (the part of WebAssembly the preprocessor translates
  faithfully), `Branch`, `Compiled` (what a correct branch layout is), `Module`, `File` (initial store, well-formed
  files), `Wasi`, `WasiAbi`, `WasiCalls` (what each WASI call hands to
  the host and where it may write), `Cli`, `Windows` (registers and locals an instruction names),
  `Safety` (which linear-memory accesses are out of range),
  `WebAssembly` (big-step inference rules for the language, independent of the model's operators), `Accepts` (the
  operators the preprocessor supports).
* `lean/Verif/Model/*`  the code:
  `Types` (values, types, errors), `Num`, `Float`, `Mem` (handlers), `Regs` (register file and allocator), `IR`
  (ProcessedInstr), `VM` (the handlers), `Dispatch` (loop and tail-call dispatcher, polling), `Runtime` (frames, calls,
  returns, the `run` loop), `Compile` (operators → IR with folding, fix-ups and the three patch phases), `Module`
  (decoding of sections to a module, instantiation, `main`), `Bincode` and `Migrate` (checkpoint files, checkpoint,
  restore), `Errno`, `Wasi`, `WasiFn` (WASI names, types, argument and write calls), `Passthrough` (every
  method of the WASI implementation, over an arbitrary host), `Cli` (`--app-args`),
  `FloatText` and `Show` (the standard library's reading and printing of floats, the texts of values and of the last line), `Command` (`--params`, `main` with `--restore`, exit status and report), `Console` (every line the interpreter prints of its own in a run), `Link` (import objects), `Linked` (a runtime among several instances, each with its memory), `Handlers` (handler indices, `select_handler`,
  which operation each handler performs, what the preprocessor's arms build), `Stats` (`--stats`, `--trace`).
* `lean/Verif/Lemmas/*` auxiliary facts.
* `lean/Verif/Props/*`  the property theorems (one file per group), each followed by `example`s showing that its
  hypotheses are met by a concrete non-trivial case, and — where the code violates the property — a theorem exhibiting
  the violation on the model (`*_violated`), next to the strongest `_partial` theorem.

## Trusted base
* Lean 4.33.0's kernel; the axioms of each theorem are at most `propext`, `Classical.choice`, `Quot.sound`
  (checked by `vcheck`).  No axioms of our own, no compiled evaluation, core library only (no Mathlib import).
* The hand translation from Rust to Lean (the citations are there to make it reviewable).
* Rust/host semantics assumed: release profile on wasm32 (usize = u32, wrapping arithmetic, panic = abort, Rust `as`
  float casts saturate, Rust's `+ - * /`, `sqrt`, `ceil`, `floor`, `trunc`, `round_ties_even` and casts to floats are the IEEE 754
  operations modelled in `Model/Ieee`, host `i32.div` traps like wasm).  A Rust panic is the outcome `panic`, an unchecked memory access
  outside the allocation the outcome `ub`, a WebAssembly trap `trap`.  `str::parse` of numbers and `{:?}` of numbers are modelled from the
  standard library's documentation and algorithm (`Model/Command`, `Model/FloatText`, `Model/Show`).
* The reading of the WebAssembly core specification and of the WASI ABI in `Spec/*`.
* Parameters (theorems hold for every instance): which NaN a float operation delivers when its result is one (`FloatHost`); LZ4 (`decompress (compress x) = some x` is the only fact
  used, a structure field); the trigger schedule; the host functions behind WASI imports (a step function on a world).

## Modelled and not modelled
Modelled: `execution/{value,regs,mem,table,global,func,module,runtime,vm,migration,errors}`, `execution/ir` (IR and all
scalar handlers), both dispatchers, the preprocessor of `parser.rs` (operator by operator, dead-code handling, operand
and destination folding, control fix-ups, patch phases), section decoding at the level of wasmparser's payloads,
instantiation, `main.rs` control flow, bincode's serde format of the checkpoint record, WASI names/types/errno, all of
`wasi/passthrough.rs` and `call_wasi_function` over an arbitrary native host, `--app-args` splitting,
`--params` parsing and the whole of `main` (restore branch, reporting, exit status).

Not modelled: wasmparser's byte-level decoding (a file is the sequence of payloads wasmparser yields, ending properly or
with an error), v128 values in host calls (the interpreter implements no SIMD operator: operators without an
arm in the preprocessor are the constructor `WOp.other`, which makes it panic), wall-clock time (in whole runs a trigger is an
arbitrary schedule of polls; the threads around it are modelled in `Model/Trigger`), the host's memory layout (behaviour after `ub`), LZ4's bytes, clap's matching of
options to the fields of `Cli` (`main` is modelled from these fields on).  The memory index of loads, stores and `memory.*` is not part of
`WOp`: the preprocessor drops it, so that a module with several memories (not WebAssembly 2.0) runs on the first.  `BlockArityCache` (parser.rs:633-793) is not modelled:
the arities it caches end in a field that is never read (parser.rs:1696-1729 take the other fields).

## Disagreements between the code and its specification found on the way
Each has a `*_violated` theorem or is recorded in the remarks of the property concerned:
1. `memory.grow` overflows at 65536 pages, shrinks memory, and traps for a delta ≥ 2³¹ (C10).
2. plain loads/stores, memory.copy/fill have no bounds check (C09); length-0 bulk operations out of range succeed.
3. `i32.trunc_f32_s(2^31)` and `i32.trunc_f32_u(2^32)` do not trap (C04).
4. the checkpoint poll counter restarts with every frame entry: a program that calls often is never checkpointed (C32);
   the default build never looks for the trigger when the module imports no WASI function; a restored process does not look
   for it while any restored frame but the oldest is running, so that it may never stop again (C32); on the atomics build a
   process may exit between its monitor's store and
   `remove_file`, so that the same request stops the restored process again, and a request may be swallowed by a process that is
   about to end (C61).
5. tables and dropped data segments are not in the checkpoint; function references cannot be serialised (C26, C30);
   descriptors opened before a checkpoint are closed after the restore (C62).
6. operand folding miscompiles `const; x; unary; binary` (C22).
7. a branch to the function's label loses results; `br_table` to it restarts the function (C19).
8. branches with mixed-type results are miscompiled, branches to loops do not move the loop parameters (C23).
9. the start function is never run (C37).  10. parse errors are ignored by `main` (C43).
11. typed `select` on references moves the wrong bank, local indices are cut to 16 bits (C22); `call_indirect` to a host import traps (C23).
12. more than eight results panic, v128 results are dropped, reference locals of a callee panic (C20).
13. `table.fill` wraps (C36); `global.set` ignores mutability (C35); element expressions are ignored (C33).
14. `fd_write` bounds check wraps (C39); `args_get` clears a word behind the array (C38); `proc_raise` is not callable,
    import types are not checked (C45); `--app-args` drops empty arguments (C40).
15. `sock_recv`/`sock_send` hand guest addresses to the host untranslated; buffers outside guest memory are undefined or
    abort instead of failing with EFAULT; paths are cut at a NUL byte (C48).
16. a checkpoint interrupted while writing destroys the older file (C28, C70); one that cannot be written ends the program (C54).
17. `--stats` and `--trace` record nothing (their recording functions have no callers); `local.tee` of an i32 is shown as
    `local.set`, `data.drop` as a reserved instruction; unknown event and resource names are dropped (C59, C60).
18. failed executions and bad arguments exit with status 0, only the last of several results is printed, argument types are not
    checked (C55); a checkpoint of another module is accepted, globals are dropped, with only a warning on stderr, if their number differs (C56).
19. an imported function runs against the globals, functions, tables and memory size of the calling module (C57).
20. traps that are panics (`unreachable`, division by zero, table accesses out of range) end the embedder's process (C66).
21. function bodies that are not valid WebAssembly are accepted, and can run into undefined behaviour (C67).
22. extended constant expressions in data or element segments stop the decoder after the exports are known: what is already decoded
    is run (C68).
23. a made-up checkpoint file can make the interpreter access registers, locals or code out of bounds (C71).
24. the printed result is refused as a parameter as it stands; NaNs are printed alike (C72).

## Properties: what is modelled, how it is proved, status
(generated together with MANIFEST.json)

| id | property | status | model | method | missing / remarks |
|----|----------|--------|-------|--------|-------------------|
| C01 | i32/i64 arithmetic conforms to WebAssembly | proved | `Model/Num` (handler bodies on `BitVec`), against `Spec/Num` (spec functions on `Int`/`Nat`) | one refinement lemma per operator, all operands, both widths |  |
| C02 | i32/i64 comparisons, tests and bit counting conform to WebAssembly | proved | same | same |  |
| C03 | integer width conversions and reinterpretations are exact | proved | same | same |  |
| C04 | trapping float-to-int truncation traps exactly on unrepresentable inputs | partial | `Model/Float`: exact dyadic decoding of bit patterns, the bound comparisons as coded | case analysis on the decoded value; the inputs on which the code is wrong are exactly characterised (`trunc_trap_exact`) | False of the code for i32.trunc_f32_s(2^31) and i32.trunc_f32_u(2^32); exact behaviour proved for every input. |
| C05 | saturating float-to-int truncation never traps and clamps | proved | same | same |  |
| C06 | float min/max/abs/neg/copysign and comparisons handle NaN and signed zero as WebAssembly requires | proved | bit-level model of the explicit NaN / signed-zero code | refinement to the order on decoded values |  |
| C07 | a load returns what the last store wrote | proved | `Model/Mem`: byte list and the load/store handlers | byte-list lemmas against `Spec/Mem` |  |
| C08 | a store changes only the addressed bytes | proved | same | same |  |
| C09 | memory accesses outside linear memory trap and never touch host state | partial | same, an unchecked access outside memory is the outcome `ub` | checked operations trap; witnesses for the unchecked ones | The unrestricted claim is false of the code: plain loads/stores have no bounds check. |
| C10 | memory.grow returns the old size or -1, zero-fills, preserves contents and respects the maximum | partial | `mem_grow` with its 32-bit wrap-arounds | refinement below the overflow boundary; witnesses at it | False of the code at the overflow boundary; proved outside it. |
| C11 | memory.copy, memory.fill and memory.init have specified bulk semantics | proved | memory.copy/fill/init handlers | byte-list lemmas |  |
| C12 | linear memory stays page-aligned and within its limits for the whole execution | partial | whole machine (`Model/VM`, `Model/Dispatch`, `Model/Runtime`) | invariant over runs | Holds for every run in which no memory.grow reaches the 65536-page boundary, where the code shrinks the memory (see C10 for the witnesses). |
| C13 | a callee never disturbs its caller's registers | proved | `Model/Regs` `RegFile`, `Model/Runtime` | induction over nested call histories |  |
| C14 | register windows always cover every register the code can name | partial | `Model/Regs` `RegAllocator`, `Model/Compile` | invariant over allocation histories, preprocessor induction and run invariant | For every module that passes validation and has no typed select on references (for that instruction the claim is false of the code, witness): every register and local named by every executed instruction, at any depth, in any run, also after restores. |
| C15 | distinct live operand-stack slots live in distinct registers | partial | same | invariant over allocation histories | Holds for every allocation history as long as no bank gets deeper than 65536; beyond that the 16-bit register index wraps (witness). |
| C16 | block-result and branch register moves behave as a parallel move | proved | `copyRegs` and the block-end moves of the VM | list induction |  |
| C17 | loop and tail-call dispatchers are observationally equivalent | proved | `Model/Dispatch`: both dispatchers | simulation, induction on steps; structure of compiled code from `Model/Compile` | For every program the preprocessor makes from any operators, any trigger schedule, fresh, running or restored machines: same result and same final machine. (Hand-made ill-nested code arrays, which the preprocessor never produces, are excluded: Lemmas.compile_shaped.) |
| C18 | branches reach exactly the label WebAssembly designates | partial | `Model/Compile` (three fix-up phases), `Model/VM` labels | bracket structure of compiled code by induction on the source, label-stack invariant over runs, against `Spec/Branch` | For every body the preprocessor accepts (from any operators): br, br_if, if/else and br_table targets are the designated ones and unique; the label stack is exactly that of the enclosing brackets at every instruction of every run.  Exception, false of the code: a br_table entry naming the function label (witness). |
| C19 | branches to the function's outermost label return its results | partial | same | see C22; witnesses | False of the code when the function has results or for br_table (witnesses); br and br_if to the label of a function without results are covered by program_correct_partial. |
| C20 | function calls pass arguments, zero locals and deliver results in order | partial | `Model/Runtime` | step lemmas | False of the code for v128 results, reference-typed locals of a callee and more than eight results; proved otherwise. |
| C21 | call_indirect only ever runs a function of the expected type | proved | `Model/VM` | step lemma |  |
| C22 | preprocessed straight-line code computes what the stack code specifies | partial | `Model/Compile` against the structured semantics of `Spec/Source` | forward simulation through symbolic execution of the emitted code, then both directions by determinism | Whole-program correctness (both directions) for every module in the faithfully translated part of WebAssembly (Spec/Subset.lean); false of the code outside it (witnesses). |
| C23 | preprocessed structured control flow computes what WebAssembly specifies | partial | same | same | Whole-program correctness (results, store, world, failures, divergence; both directions) for every module in the faithfully translated part of WebAssembly (Spec/Subset.lean); false of the code outside it (witnesses). |
| C24 | unreachable code has no effect | proved | `Model/Compile` + whole machine | two-program simulation between bodies that differ in dead code | full: two programs that differ only in the code behind a br/br_table/return/unreachable up to the matching end or else (any properly bracketed sequences, any length, not even type-checked) show the same outcome after the same number of steps, for every call, dispatcher, instance, world and checkpoint schedule; compile-level: the unreachable part only contributes nops and shifts later targets; control never stands on one of these nops. |
| C25 | local variable types are resolved by WebAssembly index space | proved | `Model/Compile` | list induction |  |
| C26 | checkpoint files decode to the state that was encoded | proved | `Model/Bincode`, `Model/Migrate` | encode/decode round trip by structural induction | For every state whose components are values of their Rust types and that holds no function/extern reference (exactly the states that can be serialised); the bincode format is modelled. |
| C27 | a truncated checkpoint file is rejected, never silently accepted | proved | same | prefix-freeness of the decoder |  |
| C28 | a state that cannot be serialised does not damage an earlier checkpoint file | proved | `Model/Migrate`: order of effects of `checkpoint` | case analysis | Proved for serialisation failures; an interrupted write does destroy the older file (witness theorem). |
| C29 | restoring a checkpoint reproduces the machine state | proved | same | round trip + component equalities | Memory, globals, frames and registers, as the property says; tables and data segments are those of the fresh instance (see C30). |
| C30 | checkpoint/restore is transparent to the program | partial | same + whole machine | bisimulation between the restored and the continued machine | Any number of migrations, for every program, as long as tables and data segments are as in the fresh instance whenever it is stopped (always so for programs without table.set/table.fill/data.drop: migrates_clean); false otherwise (witness). |
| C31 | enabling checkpointing without a trigger does not change execution | proved | `Model/Dispatch` polling | simulation | For every program the preprocessor makes. |
| C32 | a raised checkpoint trigger is honoured within a bounded number of instructions | partial | `Model/Dispatch` poll counter | induction on instructions; starvation witness family | Atomics build: no instruction is executed once the flag has been found up, counted in executed instructions (executed_before_request_partial), and bounded for whole processes that are not restored (trigger_bound_atomics). File-polling build: bounded within one stay in a frame; false across calls because the poll counter restarts with every frame, and false for modules without WASI imports, which are never checkpointed. Restored processes ignore the trigger inside restored called functions, in every build (witness). |
| C33 | active data and element segments initialise memory and tables as declared | partial | `Model/Module` instantiation | fold induction | Data segments, globals and element segments of function indices: proved, in both directions. False of the code: element segments of expressions are ignored, an empty segment at an offset outside the table is accepted, active data segments are not dropped, ref.func initialisers fail. |
| C34 | exports resolve by name to the declared function | proved | same | list lemmas |  |
| C35 | global variables behave as typed mutable cells | partial | `Model/VM` globals, `Spec/ValueType` | step lemmas and run invariant; the type check against the WebAssembly value types | Everything holds except that global.set does not reject immutable globals and that the null reference always counts as a funcref, so an externref global holding a reference cannot be set to null, nor one holding null to a reference. |
| C36 | table.get/set/fill are bounds-checked typed array operations | partial | `Model/VM` tables | step lemmas and run invariant | table.fill with a start+count beyond 32 bits silently does nothing (table_fill_all says so for every table and state); all else holds. |
| C37 | the start function runs at instantiation | partial | `Model/Module` `main` | witness (false of the code) | False of the code: the start function is never run. What is left: modules without a start section or whose start function changes nothing behave as WebAssembly says. |
| C38 | a guest sees its command line exactly through args_sizes_get/args_get | proved | `Model/Wasi` args functions | layout lemmas | args_get also zeroes one word after the argc pointers (witness theorem). |
| C39 | fd_write hands the host exactly the guest's bytes or reports a fault | partial | `Model/Wasi` fd_write | layout lemmas | False when buf_ptr+buf_len wraps 32 bits; proved otherwise. |
| C40 | --app-args is split like a shell word list | proved | `Model/Cli` | induction on strings | Empty quoted arguments are dropped (witness theorem). |
| C41 | WASI errno conversion is a bijection on the defined codes | proved | `Model/Errno` | case analysis over all codes |  |
| C42 | type confusion between register classes never corrupts another class | proved | `Model/Regs` | case analysis |  |
| C43 | a malformed module is rejected rather than partially executed | partial | `Model/Module` `loadFile` | induction over the section sequence | Holds when decoding fails before any export has been decoded; false of the code otherwise (witnesses, one of them running into undefined behaviour). |
| C44 | compiled loads and stores always address the live memory | proved | whole machine | invariant over runs |  |
| C45 | every WASI preview 1 import is recognised with the type of its definition | partial | `Model/WasiFn` | case analysis against `Spec/WasiAbi` | Names and types of all functions, against an independent table of the interface. False of the code: proc_raise cannot be called, and the declared type of an import is not checked. |
| C46 | running a file shows what WebAssembly says its exported function computes | partial | `Model/Module` + everything above | composition of C22/C23, C33, C34 | For well-formed modules in the faithfully translated part of WebAssembly, both directions; see C22/C23 for what lies outside, C37 for the start function. |
| C47 | undefined behaviour comes only from out-of-range linear-memory accesses | proved | whole machine, `Model/Compile` | register-window invariant over preprocessing and runs, against `Spec/Safety`, `Spec/Windows` | For every validated module without typed select on references (C14 shows what goes wrong there). |
| C48 | a WASI call hands the host exactly what the guest named and changes only the places it named | partial | `Model/Passthrough` | case analysis over the functions against `Spec/WasiCalls` (roles of parameters), induction over descriptor arrays | Well-formed requests: all functions except sock_recv/sock_send (their buffers are not translated, witnesses) and proc_raise (C45), against an independent table of parameter roles. Ill-formed requests are not answered with an error (witnesses). |
| C49 | environ_get and environ_sizes_get lay out the host's environment as WASI specifies | proved | `Model/Passthrough` | reduction to C38 | As for args_get (C38), one extra zero word is written behind the pointers; it is counted as part of the pointer area. |
| C50 | proc_exit ends the process with the guest's exit code and has no other effect | proved | `Model/Passthrough` | computation | only proc_exit ends the process; it does so at once, with the code given (the operating system may truncate it further); main_is_webassembly and session_is_webassembly_partial carry the code through whole runs and sessions |
| C51 | in the supported part of WebAssembly, running a file agrees with the WebAssembly rules unless the execution reaches a listed deviation | proved | whole machine | big-step inference rules in `Spec/WebAssembly`; soundness by induction on fuel and bodies, completeness by induction on derivations, joined with C46 | Against inference rules written without the interpreter's own operator functions (Spec/WebAssembly.lean). Full for the restricted claim; C46 has the unrestricted one. |
| C52 | the loader accepts a valid function body exactly when its reachable operators are supported | proved | `Model/Compile` | structural induction over bodies (the allocator follows the types), progress of the phase-1 loop, existence of all branch targets; bracket balance invariant of phase 1 (a bracketed body panics, never errs); `Spec/Accepts` | For modules whose host functions have at most one result; exact characterisation in both directions. |
| C53 | Command-line parameters reach the function as written | proved | `Model/Command`, `Model/FloatText` | induction over the text; `Spec/Params` and `Spec/FloatText` say what a numeral denotes, rounding as in C63 | Float texts: exactly the grammar documented for str::parse, correctly rounded (Spec/FloatText); the library is modelled by its documentation (unbounded exponents). |
| C54 | a session of checkpoints and restores ends like one uninterrupted process | partial | `Model/Command`, `Spec/Session`; `Spec/Untouched` for programs that write tables | induction over the session; a size invariant of reachable machines shows that every checkpoint can be written and read back; joined with C30, C51. Tables and data segments, which a checkpoint leaves out, need only be as loaded at each checkpoint | Any number of processes, builds, moments and options; any module. Excluded: sessions with a checkpoint at which tables or data segments differ from what the module file describes (false of the code: those writes are lost, witness; modules without table.set/table.fill/data.drop have no such sessions, movable_clean), sessions in which a checkpoint could not be written (false of the code: the program is ended with an error, witness), checkpoint files of 4 GiB or more. |
| C55 | the command's output and exit status tell what happened | partial | `Model/Command` | case analysis, reduction to C46; witnesses by kernel evaluation | The exit status is the guest's code after proc_exit, 1 for a missing function or a failed restore, else 0; the report tells the outcome and the last result; false of the code: failed executions and bad arguments exit with status 0, only the last of several results is printed, argument types are not checked (witnesses). |
| C56 | only a checkpoint of the same module can be restored | partial | `Model/Migrate`, `Model/Command` | exact characterisation of the accepted files; witnesses by kernel evaluation | Exactly which files are accepted, and how the others are reported. False of the code: nothing ties a checkpoint to its module; one of another module is accepted, and saved globals are dropped, with only a warning, if their number differs (witnesses). |
| C57 | imports are linked by name and type, and an imported function behaves as in the instance it comes from | partial | `Model/Link`, `Model/Linked` | induction over the import list; the translation and the meaning of self-contained functions do not depend on the module (induction over operators and bodies); reduction to C23; runs with several instances simulated by runs with one (no loads and stores) or by a run of the function in its own instance (loads and stores only), handler by handler; witnesses by kernel evaluation of linked modules | Resolution by name and exact type is proved in full, and calls of imported functions that use nothing of their own instance behave as WebAssembly says of the linked program. False of the code otherwise: an imported function runs against the globals, functions, tables, data segments and memory size of the calling module (witnesses); only its loads and stores use its own instance's memory, and for functions that use nothing else the call is proved to do what WebAssembly says (foreign_memory_partial). |
| C58 | every instruction runs the handler written for its operator | proved | `Model/Handlers` (generated from the constants, `select_handler`, the handler bodies and the preprocessor arms) | case analysis over all operators and operand shapes; induction over the preprocessing loop for compiled functions | Over the generated tables of handler indices, select_handler and the arms of the preprocessor. |
| C59 | --stats reports what was executed | partial | `Model/Stats`, `Model/StatsText` | error analysis of the four roundings behind a percentage; induction over the executed instructions; sortedness and permutation facts of the report; case analysis over the name tables | Proved of the collector: if every instruction is recorded, counts and report are right for every iteration order. False of the code: no dispatcher records anything, so every report is empty (witness), and i32 local.tee and data.drop are shown under other names (witness). The printed lines are modelled with their percentages: each is the share to one decimal (nearest, up to 2^39 instructions), floating point roundings included. |
| C60 | --trace writes exactly the selected events and resources | partial | `Model/Stats` | case analysis over all operators | Proved of the filter and of each line. False of the code: no dispatcher calls the tracer, unknown names are dropped silently, the memory resource prints nothing, WASI calls are not calls (witness). |
| C61 | Checkpoint requests are answered exactly once | partial | `Model/Trigger`: a transition system of directory, monitor thread and interpreter, every shared access a step | invariants and potential functions over all event lists; witnesses by induction on the number of processes | No spurious checkpoints, in both builds. File-polling build: proved that requests are answered at most once and are not lost. Atomics build: the running process is reached, but one request may stop any number of processes (the process may exit before its monitor removes the file) and a request may be consumed by a process that ends on its own (witnesses). |
| C62 | A migrated program keeps its open files | partial | `Model/Command`, `Model/Passthrough`, `Spec/Moved` | a simulation between worlds through rounds, runs, processes and sessions, joined with C54; case analysis over the WASI functions; witness by kernel evaluation | Proved for hosts whose answers do not depend on what a process leaves behind (for programs that write tables or drop data segments: as long as these are as loaded at each move, as in C54), and lifted from the native host to the interpreter's own WASI functions. False of the code for hosts with descriptors: a file opened before the checkpoint is closed after the restore (witness). |
| C63 | float arithmetic, rounding and conversions to floats deliver the IEEE 754 result | proved | the rounding float operators in integers (Model/Ieee: round a fraction or a root at the significand, carry into the exponent) | correct rounding by comparing against the ordered sequence of all magnitudes; uniqueness from the specification alone; instruction-level statements (Lemmas/Ieee, Lemmas/IeeeOps, Props/Ieee) | Spec.Ieee states correct rounding as: no float (and no limit standing for an infinity) is closer to the exact result, ties have an even mantissa, and the sign rules; finite values are integers times the smallest subnormal, so the exact result of / is a fraction and of sqrt is characterised by squares. The model computes by integer rounding; Rust's float primitives are assumed to be the IEEE 754 operations, which is what the model writes out. Only the NaN delivered is a parameter. |
| C64 | a checkpoint file is a function of the saved state and identifies it | proved | snapshot, encode and restore (Model/Migrate, Model/Bincode) | injectivity of the encoding and C29 (Props/Canonical) | The compressor is any deterministic function with a left inverse; sizes must fit their 64-bit length fields (Fits). |
| C65 | the host is asked exactly what the program says, finished or not, interrupted or not | proved | Spec/Asks: rules for the host calls an execution makes; the calls of a process and of a session so far | an alarm host that exits with a chosen code when asked the call in question: C51 and C54 over that host, for two codes; modules without deviations by a static criterion (Lemmas/Alarm, AlarmRun, AskRun, Steady) | Spec/Asks.lean says by rules which calls an execution makes, finished or not, and which calls a process and a session make. Proved by replacing the host by one that ends the process when asked the call in question, and C51/C54 for that host. Sessions as in C54: tables and data segments as loaded at each checkpoint. |
| C66 | calls on one instance follow each other, whatever happened before | partial | Model/Left: the interpreter with the instance and world it leaves, also on errors; Model/Embed: calls on one instance; Spec/History: the same by the WebAssembly rules | C51 extended to what failing calls leave; induction over the calls with an invariant on the instance (types of globals, sizes, what is declared exists) | Both directions, for every sequence of calls whose own-module targets get arguments of the right types, in modules as in C51 (steady modules need no assumption on the executions). False of the code: traps that are panics (unreachable, division by zero, out-of-bounds table access, ...) end the process, so that the calls after them do not happen (witness). Exported imports are not called (the interpreter refuses them: C55). |
| C67 | a function body that is not valid WebAssembly is refused | partial | the decoder of files (Model/Module) and the preprocessor (Model/Compile) on arbitrary operator lists; Spec/Untyped counts brackets | induction over the turns of phase 1 with the number of open blocks, live and skipped, as invariant; the negative part by induction over bracketed bodies | Proved for every file: nothing follows the end of a function, and (in bodies without br, br_table, return, unreachable) every block is closed. False of the code beyond that: there is no validation, every properly bracketed body of known operators is translated whatever its types and indices, runs, and may access registers outside the register file (witnesses). |
| C68 | Initialisers the interpreter cannot evaluate stop the run | partial | the decoder of files (Model/Module), constant expressions with an operator outside the supported ones | each decoder before the exports leaves the exports empty, also when it fails; then C43 | Proved for globals: whatever the rest of the file, nothing is executed. False of the code for segments: the error is dropped after the exports have been decoded, and the module runs without its data, or without its code (witnesses). |
| C69 | The storage for running code is that of the calls in progress | proved | Model/Regs, Model/Runtime, checkpoints and restores; Spec/Storage says what each call may keep | invariant over all runs: offsets and register vectors are the partial sums of the windows of the active calls; labels by C18 | For every program the preprocessor makes from any operators; capacity kept by vectors for reuse is not modelled. |
| C70 | After a crash, restoring continues from a saved state or is refused | partial | Model/Command, Model/Migrate (file system that stops after any number of bytes); Spec/Crash: lives of a directory | induction over the life: the file is a prefix of a checkpoint from which the program goes on as it would have (C29, C30, C54), and proper prefixes are refused (C27) | Any number of processes and crashes, every crash point; a torn file is always refused, a checkpoint reported as written always resumes. False of the code: an earlier completed checkpoint is destroyed when the next write is cut short, so a process can be refused although a checkpoint had been completed (witness); tables and data segments as for C54. Completed files are taken to be below 4 GiB. |
| C71 | A checkpoint file of unknown origin is harmless | partial | Model/Migrate, Model/Bincode; Spec/Sound: what a snapshot must satisfy, said of the snapshot alone | sound snapshots restore to machines satisfying the window invariant of C14/C47; checkpoints of live machines are sound; a crafted file as counterexample | Proved: restore itself is defined for all bytes; and for every file whose snapshot makes sense for the module (Spec.Sound: lengths of register vectors and locals, positions, labels and offsets, no condition on values or memory), running on is undefined only as the program itself would be; every checkpoint a program takes is such a file. False of the code for other files: restore checks none of this, and a made-up file runs into an unchecked access (witness). |
| C72 | The printed result is the result, and can be passed on | partial | Model/Show: handle_result, derive(Debug) of values, std shortest float printing; Model/FloatText for reading | digit search always finds digits that read back; notation lemmas against the decimal grammar of Spec/FloatText; C54 for the run | For integers and floats that are not NaNs: the line is printed iff WebAssembly says the call (also across checkpoints and restores) returns that number last; it names type and value bit by bit (shortest decimal of the standard library, modelled), no two numbers are printed alike, and the text inside Num( ) given as --params passes exactly the value. False of the code: NaNs of different bits are printed alike, the printed text as a whole is refused as a parameter (witnesses); only the last of several results is printed (C55). What is printed for function references is not modelled. |
| C73 | Custom sections do not influence a run | proved | Model/Module: parse_bytecode; Model/Command | induction over the payloads; the command sees the file only through the decoder | For every file, well formed or not, and the whole command, --restore included. |
| C74 | Exports only name things | proved | Model/Module, Model/Command | every decoder commutes with replacing the export list (payload by payload, code bodies included), instantiation too | For files that are read to their end and load; the name to invoke must mean the same function in both (not needed with --restore). |
| C75 | The messages about checkpoints are true | proved | Model/Console: every line main, Runtime::run, checkpoint and restore print | membership of each marked line, by the differing prefixes of all others; sizes by the structure of the encoding; restore by comparison with what each step of restore keeps | Of the interpreter's own lines (the guest's output, the line about a failed host function and the texts of errors and paths are parameters or left out). A restore that drops the saved globals is called successful, with a warning (C56). |
| C76 | A program can be moved between machines | partial | every FloatHost per process; Model/VM step, both dispatchers, Runtime, Command | instructions of the code come from operators of the source (induction over the preprocessor); those that leave nothing to the host, and those that deliver no NaN, step alike; then C54 | Any number of moves between machines that choose NaNs differently, for sessions whose processes compute no NaN, and for all sessions of modules without float arithmetic, rounding, demotion and promotion. False of the code beyond: a program that computes NaNs on two machines ends with a result it has on neither (witness). What is missing from C54 is missing here too; programs may write tables and drop data segments as long as these are as loaded at each move. |
| C77 | Being moved leaves no trace in later checkpoints | proved | Model/Migrate, Runtime, Dispatch; Spec/Trace: what of a checkpoint is read | a machine reaches a state in loop iterations and rounds; stopping, restoring and stopping again stays within the reached states (up to what is never read), and for each reached state there is a trigger that stops a fresh run in it | For sessions within the limits of C54 (tables and data segments as loaded at the moves before) and files below 4 GiB. Spec/Trace.lean says what is read of a checkpoint: everything but the positions remembered by blocks other than the innermost one of each function, which the interpreter never uses; those can differ (witness), so the files are the same as far as they are read, and of the same length. |
| C78 | A program that ends, ends however often it is moved | partial | Model/Migrate, Runtime, Dispatch; Spec/Progress: sessions with a number of moves | iterations and calls up to each state are counted; counts add up over stop and restore, each process that begins adds at least one, and an execution that ends has finitely many | Proved for sessions in which each process may execute at least one instruction (the flag of the atomics build is not raised already at the first look; nothing is asked of the other build, whose throttled poll cannot fire at once), in which tables and data segments are as loaded at the moves (as in C54) and files are below 4 GiB. Without the first condition it is false of the code: WriterEx.stuck_violated gives a program that ends after three calls to the host if left alone, and sessions of any length in which it never gets beyond its first instruction, because a restored process looks at the flag before it executes anything. Without the second C54 itself fails (WriterEx.late_violated). Example: a session of three moves, two of them after a single instruction. |
| C79 | Being moved repeats no instruction and skips none | partial | Model/Executed: the dispatchers and the loop of Runtime::run with a note of every handler called; Spec/Executed: sessions with these lists | the list of what comes next from a state is defined without triggers or builds; every dispatcher call, whatever stops it, notes a part of it, and stopping in the middle of a body and going on from the frame written back joins the parts | Proved for programs with any instructions and sessions of any number of processes of either build, in which tables and data segments are as loaded at the moves (as in C54) and checkpoint files are below 4 GiB: at any moment the instructions executed so far in the session and those of an undisturbed process are one the beginning of the other, and equal when both ended; and any undisturbed process, watched long enough, executes all that the session has executed, even of programs that never end. The lists come from the dispatchers written down once more with a note of every handler called (Model/Executed); whether an instruction that fails has been executed counts as yes. Without the condition on tables it is false of the code: SkipEx.other_path_violated, a program that goes through a branch it never takes when left alone. Example: a session of three processes, stopped twice between calls, two by tail calls and one by the loop. |
| C80 | How far a program has come determines what it has done | partial | the lists of executed instructions of C79, and the instance and world of the machine a run stops with | executing a list of instructions from a state is a function of that state; a dispatcher call and a run that stop have executed the list they note up to the state they stop in; at the end of a body only a return is left, which changes neither instance nor world; stopping and going on joins as in C79 | Proved for any two sessions of a program with any instructions, with any number of processes of either build, in which tables and data segments are as loaded at the moves (as in C54; not at the stops compared) and checkpoint files are below 4 GiB. False of the code without the condition on tables and data segments (witness: the same four instructions, the entry of the table they have emptied is full again in the session that was moved). Not the checkpoint files: between two instructions there are states (before and after returning from a function) whose files differ. |
