{"id": "C01", "title": "i32/i64 arithmetic conforms to WebAssembly", "statement": "Executing any i32 or i64 binary integer instruction (add, sub, mul, div_s, div_u, rem_s, rem_u, and, or, xor, shl, shr_s, shr_u, rotl, rotr) on two operands writes exactly the result the WebAssembly specification defines for those operands, and traps exactly when the specification says the operation is undefined (division/remainder by zero, signed division overflow).", "quantifier": "all 2^64 (resp. 2^128) operand pairs and every operator, both widths", "why_tests_cant": "operand space is far too large to enumerate and the interesting cases (shift counts >= width, MIN/-1, sign boundaries) are sparse", "anchors": ["src/execution/handlers.rs: i32_add..i32_rotr, i64_add..i64_rotr macros", "src/execution/operand.rs: read_i32/read_i64/write_i32dst"]}
{"id": "C02", "title": "i32/i64 comparisons, tests and bit counting conform to WebAssembly", "statement": "Every integer comparison (eq, ne, lt/le/gt/ge signed and unsigned), eqz, clz, ctz, popcnt and sign-extension instruction produces the WebAssembly-specified value; comparisons produce exactly 0 or 1 in the i32 destination.", "quantifier": "all operands, both widths", "why_tests_cant": "operand space too large", "anchors": ["src/execution/handlers.rs: i32_eq.., i64_eq.., *_clz, *_ctz, *_popcnt, *_eqz, *_extend8_s", "src/execution/operand.rs: write_i64dst_i32"]}
{"id": "C03", "title": "integer width conversions and reinterpretations are exact", "statement": "i32.wrap_i64, i64.extend_i32_s/u, and the four reinterpret instructions yield the value prescribed by WebAssembly; reinterpretation preserves every bit, including NaN payloads.", "quantifier": "all operand bit patterns", "why_tests_cant": "2^64 patterns", "anchors": ["src/execution/handlers.rs: i32_wrap_i64, i64_extend_i32_s, i64_extend_i32_u, *_reinterpret_*"]}
{"id": "C04", "title": "trapping float-to-int truncation traps exactly on unrepresentable inputs", "statement": "iNN.trunc_fMM_s/u returns the truncated integer when it is representable in the destination type and traps for NaN, infinities and every value whose truncation is out of range.", "quantifier": "all f32/f64 bit patterns, all eight instructions", "why_tests_cant": "the failing inputs are individual boundary values such as 2^31 as f32", "anchors": ["src/execution/handlers.rs: conv_trap macros, i32_trunc_f32_s .. i64_trunc_f64_u"]}
{"id": "C05", "title": "saturating float-to-int truncation never traps and clamps", "statement": "iNN.trunc_sat_fMM_s/u returns 0 for NaN, the nearest bound when out of range and the truncated value otherwise, and never traps.", "quantifier": "all f32/f64 bit patterns, all eight instructions", "why_tests_cant": "boundary values", "anchors": ["src/execution/handlers.rs: *_trunc_sat_*"]}
{"id": "C06", "title": "float min/max/abs/neg/copysign and comparisons handle NaN and signed zero as WebAssembly requires", "statement": "f32/f64 min and max return NaN if either operand is NaN, order -0 below +0, and otherwise return the smaller/larger operand; abs/neg/copysign only touch the sign bit; comparisons involving NaN are false (ne true) and treat -0 = +0.", "quantifier": "all pairs of f32/f64 bit patterns", "why_tests_cant": "NaN payload and signed-zero combinations are easily missed", "anchors": ["src/execution/handlers.rs: f32_min, f32_max, f64_min, f64_max, f32_abs.., f32_eq.."]}
{"id": "C07", "title": "a load returns what the last store wrote", "statement": "After a store of width n at an in-bounds effective address, a load of the same width at the same address returns exactly the stored value (little-endian, truncated to the width for narrow stores, then sign- or zero-extended by the load), and the bytes written are the little-endian encoding the specification prescribes.", "quantifier": "all memories, addresses, static offsets, values and load/store instruction pairs", "why_tests_cant": "quantifies over memory contents and addresses", "anchors": ["src/execution/handlers.rs: mem_load/mem_store macros, handle_* 1281-1362", "src/execution/mem.rs: MemAddr::store, load"]}
{"id": "C08", "title": "a store changes only the addressed bytes", "statement": "A store of width n at effective address ea changes no byte outside [ea, ea+n), does not change the memory size, and disjoint loads are unaffected.", "quantifier": "all memories, addresses, widths, values", "why_tests_cant": "frame property over all other addresses", "anchors": ["src/execution/handlers.rs: mem_store handlers", "src/execution/mem.rs"]}
{"id": "C09", "title": "memory accesses outside linear memory trap and never touch host state", "statement": "Every load, store, memory.copy, memory.fill and memory.init whose byte range is not inside the current linear memory traps and leaves memory unchanged.", "quantifier": "all instructions, addresses, offsets, lengths and memory sizes", "why_tests_cant": "adversarial addresses; must hold for each of 2^33 effective addresses", "anchors": ["src/execution/handlers.rs: mem_load/mem_store, memory_copy, memory_fill, memory_init", "src/execution/mem.rs: memory_copy, memory_fill, init"]}
{"id": "C10", "title": "memory.grow returns the old size or -1, zero-fills, preserves contents and respects the maximum", "statement": "memory.grow delta either returns -1 and changes nothing, or returns the previous page count and extends memory by exactly delta zeroed pages keeping all existing bytes; it fails whenever the new size would exceed the declared maximum or 65536 pages.", "quantifier": "all memory sizes, declared limits and deltas (any u32)", "why_tests_cant": "overflowing deltas are a handful among 2^32", "anchors": ["src/execution/mem.rs: mem_grow, mem_size", "src/execution/handlers.rs: memory_grow"]}
{"id": "C11", "title": "memory.copy, memory.fill and memory.init have specified bulk semantics", "statement": "For in-bounds ranges memory.copy moves the bytes as if through a temporary (correct for overlap in both directions), memory.fill writes the low byte of the value, memory.init copies from the data segment; bytes outside the destination range are unchanged.", "quantifier": "all memories, ranges including overlapping ones", "why_tests_cant": "overlap patterns unbounded", "anchors": ["src/execution/mem.rs: memory_copy, memory_fill, init", "src/execution/handlers.rs: memory_copy, memory_fill, memory_init, data_drop"]}
{"id": "C12", "title": "linear memory stays page-aligned and within its limits for the whole execution", "statement": "After instantiation and after every instruction, the linear memory size is a whole number of 64 KiB pages, never shrinks, and memory.size reports that number.", "quantifier": "every program and every instruction history", "why_tests_cant": "history-quantified invariant", "anchors": ["src/execution/mem.rs", "src/execution/handlers.rs: memory_size, memory_grow"]}
{"id": "C13", "title": "a callee never disturbs its caller's registers", "statement": "Allocating a register window for a call, running any register writes of the callee and of its own nested calls, and releasing the window leaves every register value and the window of the caller exactly as before the call.", "quantifier": "all register files, allocation sizes and arbitrarily nested call histories", "why_tests_cant": "unbounded nesting depth", "anchors": ["src/execution/regs.rs: RegFile::save_offsets, restore_offsets, set_val"]}
{"id": "C14", "title": "register windows always cover every register the code can name", "statement": "While a function runs, every register index its preprocessed code reads or writes lies inside the register window allocated for its frame (the unchecked register accesses stay in bounds).", "quantifier": "all function bodies, all nesting, all call depths", "why_tests_cant": "depends on the maximum over all paths of the compile-time stack depth", "anchors": ["src/execution/regs.rs: RegAllocator::push/pop/finalize, RegFile::get_i32 (get_unchecked)", "src/parser.rs: decode_processed_instrs_and_fixups"]}
{"id": "C15", "title": "distinct live operand-stack slots live in distinct registers", "statement": "At every program point the registers assigned to the values on the WebAssembly operand stack are pairwise distinct, and pop returns the register assigned by the matching push.", "quantifier": "all push/pop/peek/save/restore histories", "why_tests_cant": "arbitrary operator sequences", "anchors": ["src/execution/regs.rs: RegAllocator"]}
{"id": "C16", "title": "block-result and branch register moves behave as a parallel move", "statement": "Copying a block's result values from the top-of-stack registers to the block's result registers delivers each value intact even when source and destination registers overlap.", "quantifier": "all source windows at or above the destination window, all value types mixes", "why_tests_cant": "overlap patterns and sizes unbounded", "anchors": ["src/execution/regs.rs: RegFile::copy_regs", "src/execution/handlers.rs: end, br"]}
{"id": "C17", "title": "loop and tail-call dispatchers are observationally equivalent", "statement": "Building with or without the tco feature gives the same outcome (halt, trap, yielded call), the same final machine state and the same number of executed instructions for every function body and state, including when a checkpoint is requested at any instruction.", "quantifier": "all code arrays, states and checkpoint-request schedules", "why_tests_cant": "two implementations over all programs and schedules", "anchors": ["src/execution/dispatch_loop.rs: execute_instructions", "src/execution/dispatch_tco.rs", "src/execution/handlers.rs: next_handler, advance!", "src/execution/migration.rs: poll_checkpoint"]}
{"id": "C18", "title": "branches reach exactly the label WebAssembly designates", "statement": "br/br_if/br_table/if/else to label depth d continue after the matching end for blocks and ifs, at the loop header for loops, and the label stack afterwards has exactly the labels that enclose the continuation.", "quantifier": "all well-nested function bodies and all depths", "why_tests_cant": "unbounded nesting", "anchors": ["src/parser.rs: preprocess_instructions", "src/execution/handlers.rs: br, br_if, br_table, end, if_, block, jump"]}
{"id": "C19", "title": "branches to the function's outermost label return its results", "statement": "A br, br_if or br_table whose depth designates the function body itself returns from the function with the values on top of the operand stack, like return.", "quantifier": "all functions and depths", "why_tests_cant": "only manifests for particular nesting/arity combinations", "anchors": ["src/parser.rs: compute_branch_regs, preprocess_instructions phase 2/3", "src/execution/handlers.rs: br, br_table"]}
{"id": "C20", "title": "function calls pass arguments, zero locals and deliver results in order", "statement": "A call binds the arguments to the callee's first locals in order, initialises the remaining locals to zero/null, and on return stores the callee's results in the caller's result registers in order, then resumes after the call; nothing else of the caller's frame changes.", "quantifier": "all functions, argument values, recursion depths", "why_tests_cant": "unbounded call depth and all arguments", "anchors": ["src/execution/runtime.rs: run, InvokeReg arm, Return arm", "src/execution/handlers.rs: call, return_", "src/execution/state.rs: default_value"]}
{"id": "C21", "title": "call_indirect only ever runs a function of the expected type", "statement": "call_indirect on table element i calls the function stored there only if its type equals the expected type; an out-of-range index, an uninitialised element or a different type traps and calls nothing.", "quantifier": "all tables, indices, types", "why_tests_cant": "adversarial indices", "anchors": ["src/execution/handlers.rs: call_indirect"]}
{"id": "C22", "title": "preprocessed straight-line code computes what the stack code specifies", "statement": "For every valid straight-line sequence of const, local, numeric, conversion, memory, select, drop and global instructions, running the preprocessed (operand-folded, destination-folded, register-allocated) code leaves locals, memory, globals, operand values and trap behaviour as the WebAssembly stack semantics does.", "quantifier": "all valid instruction sequences of any length and all initial states", "why_tests_cant": "look-ahead folding interacts across arbitrary neighbouring instructions", "anchors": ["src/parser.rs: decode_processed_instrs_and_fixups, can_fold_*, take_*_operand, try_fold_dst_*", "doc/folding.md"]}
{"id": "C23", "title": "preprocessed structured control flow computes what WebAssembly specifies", "statement": "For every valid function body built from blocks, loops, ifs and branches over straight-line code, the preprocessed code terminates with the same results, locals, globals and memory as the WebAssembly semantics, or both trap, or both diverge.", "quantifier": "all valid bodies, all nestings, all initial states, unbounded loop iterations", "why_tests_cant": "unbounded loops and nesting", "anchors": ["src/parser.rs: decode_processed_instrs_and_fixups, preprocess_instructions", "src/execution/handlers.rs: block, loop, if_, end, br"]}
{"id": "C24", "title": "unreachable code has no effect", "statement": "Instructions after an unconditional branch, return or unreachable up to the matching end/else do not affect the result of the function nor the compilation of the code after that end.", "quantifier": "all dead-code sequences", "why_tests_cant": "arbitrary dead code", "anchors": ["src/parser.rs: decode_processed_instrs_and_fixups unreachable_depth"]}
{"id": "C25", "title": "local variable types are resolved by WebAssembly index space", "statement": "The type the preprocessor uses for local index i is the i-th element of the parameter types followed by the expanded local declarations.", "quantifier": "all parameter lists, compressed local declarations and indices", "why_tests_cant": "run-length groups, including empty groups", "anchors": ["src/parser.rs: get_local_type", "src/parser.rs: get_global_type", "src/parser.rs: get_table_element_type"]}
{"id": "C26", "title": "checkpoint files decode to the state that was encoded", "statement": "Deserialising the serialised form of any checkpointable state yields the identical stacks, registers (every float bit), memory image, globals and function indices.", "quantifier": "all states (register files, frames, labels, values)", "why_tests_cant": "infinite state space", "anchors": ["src/execution/migration.rs: SerializableState, checkpoint, restore", "src/execution/state.rs", "src/execution/regs.rs", "src/execution/value.rs"]}
{"id": "C27", "title": "a truncated checkpoint file is rejected, never silently accepted", "statement": "If writing the checkpoint is interrupted so that only a proper prefix of the file exists, restore reports an error and does not modify the module instance.", "quantifier": "all states and all crash points (every proper prefix)", "why_tests_cant": "every prefix length of every file", "anchors": ["src/execution/migration.rs: checkpoint (File::create, write_all), restore (bincode::deserialize)"]}
{"id": "C28", "title": "a state that cannot be serialised does not damage an earlier checkpoint file", "statement": "If the state cannot be serialised the checkpoint call returns an error and any previously written checkpoint file is unchanged.", "quantifier": "all states, all previous file contents", "why_tests_cant": "failure ordering", "anchors": ["src/execution/migration.rs: checkpoint", "src/execution/value.rs: Ref serde(skip)"]}
{"id": "C29", "title": "restoring a checkpoint reproduces the machine state", "statement": "Restoring a checkpoint into a fresh instance of the same module reproduces linear memory, all globals, all call frames (locals, labels, program counters, code) and registers of the checkpointed machine.", "quantifier": "all machine states reachable or not, all modules", "why_tests_cant": "all states", "anchors": ["src/execution/migration.rs: restore", "src/execution/runtime.rs: Runtime::new_restored"]}
{"id": "C30", "title": "checkpoint/restore is transparent to the program", "statement": "Stopping at any checkpoint, restoring into a fresh instance and resuming produces the same results, traps and effects as running without interruption.", "quantifier": "all programs, all inputs, every checkpoint point, any number of checkpoint/restore rounds", "why_tests_cant": "every instruction boundary of every program", "anchors": ["src/execution/migration.rs", "src/execution/runtime.rs: run", "doc/migration.md"]}
{"id": "C31", "title": "enabling checkpointing without a trigger does not change execution", "statement": "With checkpoint support enabled and no trigger raised, the program computes exactly what it computes with checkpoint support disabled.", "quantifier": "all programs and states", "why_tests_cant": "all schedules", "anchors": ["src/execution/migration.rs: poll_checkpoint", "src/execution/dispatch_loop.rs"]}
{"id": "C32", "title": "a raised checkpoint trigger is honoured within a bounded number of instructions", "statement": "Once the trigger file exists, at most 1024 further guest instructions execute before the checkpoint is taken.", "quantifier": "all programs and all trigger times", "why_tests_cant": "liveness over all executions", "anchors": ["src/execution/migration.rs: do_poll_checkpoint, CHECKPOINT_POLL_MASK", "src/execution/runtime.rs: execute_frame", "doc/migration.md"]}
{"id": "C33", "title": "active data and element segments initialise memory and tables as declared", "statement": "Instantiation writes each active data segment at its offset, later segments overriding earlier ones, leaves all other bytes zero, and aborts when a segment does not fit; element segments place the named functions at consecutive table slots.", "quantifier": "all segment lists", "why_tests_cant": "all segment layouts", "anchors": ["src/execution/module.rs: ModuleInst::new", "src/execution/mem.rs: init", "src/execution/table.rs"]}
{"id": "C34", "title": "exports resolve by name to the declared function", "statement": "get_export_func(name) returns the function exported under that name, and an error when no function is exported under it.", "quantifier": "all modules and names", "why_tests_cant": "all export lists", "anchors": ["src/execution/module.rs: get_export_func"]}
{"id": "C35", "title": "global variables behave as typed mutable cells", "statement": "global.get returns the last value set; global.set changes only that global; setting an immutable global or a value of another type is rejected and changes nothing.", "quantifier": "all globals, values and histories", "why_tests_cant": "histories", "anchors": ["src/execution/global.rs", "src/execution/handlers.rs: global_get, global_set"]}
{"id": "C36", "title": "table.get/set/fill are bounds-checked typed array operations", "statement": "table.get after table.set at the same index returns the stored reference, other indices are unaffected, table.fill sets exactly the given range, and any access beyond the table size traps.", "quantifier": "all tables, indices and histories", "why_tests_cant": "histories", "anchors": ["src/execution/table.rs", "src/execution/handlers.rs: table_get, table_set, table_fill"]}
{"id": "C37", "title": "the start function runs at instantiation", "statement": "A module with a start section has that function executed exactly once after instantiation and before any exported function.", "quantifier": "all modules with a start section", "why_tests_cant": "universally quantified over modules", "anchors": ["src/execution/module.rs: ModuleInst::new", "src/main.rs"]}
{"id": "C38", "title": "a guest sees its command line exactly through args_sizes_get/args_get", "statement": "args_sizes_get reports the number of arguments and exactly the buffer size args_get fills; following the pointer array args_get writes yields the original NUL-terminated arguments in order.", "quantifier": "all argument vectors and guest buffer addresses in bounds", "why_tests_cant": "all argument vectors", "anchors": ["src/wasi/passthrough.rs: args_get, args_sizes_get"]}
{"id": "C39", "title": "fd_write hands the host exactly the guest's bytes or reports a fault", "statement": "For every iovec array the bytes written are the concatenation of the guest buffers in order; any iovec or buffer not inside guest memory yields a fault and nothing is written.", "quantifier": "all iovec arrays, pointers, lengths and memory sizes", "why_tests_cant": "adversarial pointers including 32-bit wrap-around", "anchors": ["src/wasi/passthrough.rs: fd_write"]}
{"id": "C40", "title": "--app-args is split like a shell word list", "statement": "parse_args_string returns the maximal runs of characters separated by unquoted spaces, with quotes removed and spaces inside quotes preserved; joining arguments with single spaces and splitting gives them back.", "quantifier": "all strings", "why_tests_cant": "all strings", "anchors": ["src/main.rs: parse_args_string"]}
{"id": "C41", "title": "WASI errno conversion is a bijection on the defined codes", "statement": "Converting an errno in 0..76 to an error and back returns the same number, every defined error other than process exit round-trips, and unknown codes map to EIO.", "quantifier": "all 65536 errno values and all errors", "why_tests_cant": "small domain but exhaustive", "anchors": ["src/wasi/error.rs: from_errno, to_errno"]}
{"id": "C42", "title": "type confusion between register classes never corrupts another class", "statement": "Writing a value to a register changes only that register of that type: all other registers, of the same or other types, keep their values.", "quantifier": "all register files, registers and values", "why_tests_cant": "all states", "anchors": ["src/execution/regs.rs: set_val, get_val, copy_reg"]}
{"id": "C43", "title": "a malformed module is rejected rather than partially executed", "statement": "If decoding any section or function body of the input file fails, the runtime reports the error and executes nothing.", "quantifier": "all input files", "why_tests_cant": "all inputs", "anchors": ["src/main.rs: main (`let _ = parse_bytecode`)", "src/parser.rs: parse_bytecode"]}
{"id": "C44", "title": "compiled loads and stores always address the live memory", "statement": "At every instruction of every run, a load or store acts on the current contents and size of linear memory, including immediately after memory.grow, a call, a return or a host call.", "quantifier": "all programs, inputs and interleavings of grow, calls and host calls", "why_tests_cant": "the cached pointer must be refreshed on every path of every history", "anchors": ["src/execution/runtime.rs: cached_mem_ptr refreshes", "src/execution/mem.rs: MemAddr", "src/execution/handlers.rs: memory_grow"]}
{"id": "C45", "title": "every WASI preview 1 import is recognised with the type of its definition", "statement": "An import of module wasi_snapshot_preview1 is recognised exactly when the interface defines a function of that name, it gets the WebAssembly type the definition lowers to, and calling it hands over its arguments in that order and of those types.", "quantifier": "all import names and all functions of the interface", "why_tests_cant": "every function and every name must agree with the published interface", "anchors": ["src/parser.rs: WASI_FUNCTION_MAP, parse_wasi_function, decode_import_section", "src/structure/module.rs: WasiFuncType::expected_func_type", "src/execution/runtime.rs: call_wasi_function"]}
{"id": "C46", "title": "running a file shows what WebAssembly says its exported function computes", "statement": "For a well-formed module, `chiwawa --invoke name file args` shows the results, memory, globals, tables and outside effects (or the failure, or the divergence) of calling the exported function in the module's initial store: sections decoded, functions preprocessed, imports linked, segments applied, code executed.", "quantifier": "all well-formed modules, exports, arguments, worlds, both dispatchers, checkpointing on or off", "why_tests_cant": "the composition of decoding, preprocessing, instantiation and execution over all programs and inputs", "anchors": ["src/main.rs: main", "src/parser.rs: parse_bytecode", "src/execution/module.rs: ModuleInst::new", "src/execution/runtime.rs: Runtime::run"]}
{"id": "C47", "title": "undefined behaviour comes only from out-of-range linear-memory accesses", "statement": "While a validated module runs (without typed select on references), the interpreter's unchecked accesses to registers, locals, operand lists, jump targets and cached pointers are always in bounds: a run is undefined only if it reaches a load, store, memory.copy or memory.fill outside linear memory or a host call that is itself undefined.", "quantifier": "all validated modules, functions, arguments, instances, schedules, checkpoints and restores", "why_tests_cant": "every unchecked access of every path of every history must be in bounds", "anchors": ["src/execution/regs.rs: get_unchecked accessors", "src/execution/vm.rs: handlers", "src/execution/runtime.rs: Runtime::run", "src/parser.rs: decode_processed_instrs_and_fixups"]}
{"id": "C48", "title": "a WASI call hands the host exactly what the guest named and changes only the places it named", "statement": "For every WASI function that acts on the host and every well-formed request (all places inside guest memory, paths without NUL, numbers in range) the host is called once with exactly the numbers, strings and buffers the guest named, its error number is the result, and guest memory changes only in the named places, by the bytes the host produced; a request that is not well-formed gets an error and changes nothing.", "quantifier": "all functions of the interface, arguments, memories and hosts", "why_tests_cant": "adversarial pointers, lengths and descriptor arrays, any host behaviour", "anchors": ["src/wasi/passthrough.rs: all methods of PassthroughWasiImpl", "src/execution/runtime.rs: call_wasi_function"]}
{"id": "C49", "title": "environ_get and environ_sizes_get lay out the host's environment as WASI specifies", "statement": "environ_sizes_get reports the number of environment strings and exactly the number of bytes environ_get writes; following the pointers environ_get writes yields the NUL-terminated strings in order; nothing outside the two areas changes.", "quantifier": "all environments, pointers and memories", "why_tests_cant": "all environments", "anchors": ["src/wasi/passthrough.rs: environ_get, environ_sizes_get"]}
{"id": "C50", "title": "proc_exit ends the process with the guest's exit code and has no other effect", "statement": "Calling proc_exit(c) terminates with exit code c for every 32-bit c, without touching guest memory or the host's state otherwise.", "quantifier": "all codes and states", "why_tests_cant": "all codes", "anchors": ["src/wasi/passthrough.rs: proc_exit", "src/execution/runtime.rs: call_wasi_function"]}
{"id": "C51", "title": "in the supported part of WebAssembly, running a file agrees with the WebAssembly rules unless the execution reaches a listed deviation", "statement": "For every module whose functions the preprocessor translates faithfully and every call of an export: unless the execution, according to WebAssembly's rules, reaches an out-of-bounds memory access, a zero-length memory.init or table.fill outside its range, a memory.grow by almost 2^31 pages or to exactly 4 GiB, an i32.trunc_f32 just above the range, an indirect call of a host function, or a host function that leaves defined behaviour or finds the module without a memory, the command ends exactly as the rules say: same results, memory, globals, tables and outside effects, or a trap, or no end, and never undefined behaviour.", "quantifier": "all supported modules, exports, arguments, hosts, both dispatchers, checkpointing on or off", "why_tests_cant": "agreement with the language semantics over all programs and inputs", "anchors": ["src/main.rs: main", "src/parser.rs: parse_bytecode", "src/execution/runtime.rs: Runtime::run", "src/execution/vm.rs: handlers"]}
{"id": "C52", "title": "the loader accepts a valid function body exactly when its reachable operators are supported", "statement": "A function body that passes WebAssembly validation is rejected by the loader only because a reachable operator is unsupported (a global or constant that is not a number, a local or select of the vector type, any operator the interpreter does not implement, such as table.size, ref.func or a vector operator); nesting, branches, block types, operand stacks, result folding and anything in unreachable code never make it fail, and a body with an unsupported reachable operator is always rejected, and then the command stops before executing anything of the module, whichever function was named.", "quantifier": "all modules, function types, locals and valid bodies of any size and nesting", "why_tests_cant": "all bodies of unbounded size and nesting", "anchors": ["src/parser.rs: decode_processed_instrs_and_fixups, preprocess_instructions, decode_code_section"]}
{"id": "C53", "title": "Command-line parameters reach the function as written", "statement": "Every `--params` entry of the form TYPE(number), TYPE one of I32, I64, F32, F64 and the number in the type's signed decimal (or float) notation, is passed to the invoked function as exactly that value, in order; conversely every value passed was written so in the entry; every i32 and i64 value and every f32 and f64 value that is not a NaN can be passed; a float is the nearest to the decimal number written. An entry without a type name is dropped and an unreadable number aborts before the function runs.", "quantifier": "all lists of parameter strings, all integers in range", "why_tests_cant": "unbounded strings and every 32/64-bit value", "anchors": ["src/main.rs: parse_params"]}
{"id": "C54", "title": "a session of checkpoints and restores ends like one uninterrupted process", "statement": "Start the command on a module file; let it be checkpointed any number of times at any moments, each time continued by a process (possibly of the other build, with or without --cr) that restores the file it left. If the session comes to an end, one undisturbed process comes to an end too, with the same printed result or error and, if it returned, the same memory, globals, tables and outside world - namely what WebAssembly says the call yields.", "quantifier": "all modules, exports, parameters, numbers and moments of checkpoints, builds, file system behaviours and hosts", "why_tests_cant": "unboundedly many checkpoint moments and processes over all programs", "anchors": ["src/main.rs: main", "src/execution/runtime.rs: Runtime::run, new_restored", "src/execution/migration.rs: checkpoint, restore"]}
{"id": "C55", "title": "the command's output and exit status tell what happened", "statement": "The command prints the results if and only if the invoked function returned, an error if and only if it failed, and exits with a non-zero status exactly if the function did not run to an end (missing export, bad arguments, failed restore, failed execution).", "quantifier": "all modules, options, checkpoint files and hosts", "why_tests_cant": "all executions", "anchors": ["src/main.rs: main, handle_result", "src/execution/runtime.rs: Runtime::new"]}
{"id": "C56", "title": "only a checkpoint of the same module can be restored", "statement": "Restoring succeeds exactly for readable files that hold a complete checkpoint taken of the same module; any other file - unreadable, truncated, not a checkpoint, or a checkpoint of another module - is rejected with an error and no function runs.", "quantifier": "all files, modules and instances", "why_tests_cant": "all byte strings and modules", "anchors": ["src/execution/migration.rs: restore", "src/main.rs: main"]}
{"id": "C57", "title": "imports are linked by name and type, and an imported function behaves as in the instance it comes from", "statement": "Instantiating a module with import objects succeeds (as far as imports are concerned) exactly if every function import is supplied under its module and export name with a function of exactly the declared type; a missing, differently typed or non-function value gives a link error, and no other function ever takes its place; WASI imports always get the built-in function. Calling an imported function from another instance has the results and effects it has there.", "quantifier": "all modules, import objects, and functions supplied by other instances", "why_tests_cant": "all import maps and linked programs", "anchors": ["src/execution/module.rs: ModuleInst::new, ImportObjects", "src/execution/func.rs: FuncAddr", "src/structure/types.rs: type_match", "src/execution/runtime.rs: execute_frame, run"]}
{"id": "C58", "title": "every instruction runs the handler written for its operator", "statement": "For every instruction the loader builds for any WebAssembly operator in any accepted function, the handler the interpreter selects is the one that performs exactly this operator on the operands, destination, offset and targets stored in the instruction: never the invalid handler, never a handler for another operator or another kind of instruction (undefined behaviour), never a missing operand; and the passes that resolve branch targets recognise exactly the block, loop, if, end and br_table instructions.", "quantifier": "all operators, operand kinds and accepted functions", "why_tests_cant": "some two hundred operators times operand shapes, in functions of any size", "anchors": ["src/parser.rs: decode_processed_instrs_and_fixups", "src/execution/vm.rs: select_handler, handler tables"]}
{"id": "C59", "title": "--stats reports what was executed", "statement": "With --stats, the report at the end gives the number of instructions executed and, most frequent first, for up to twenty operators the number of times each was executed, under the operator's name, whatever order the counters are iterated in.", "quantifier": "all executions and iteration orders", "why_tests_cant": "all executions of any length", "anchors": ["src/execution/stats.rs: ExecutionStats", "src/execution/runtime.rs: Runtime::new, drop", "src/main.rs: --stats"]}
{"id": "C60", "title": "--trace writes exactly the selected events and resources", "statement": "With --trace, every executed instruction of the kinds chosen by --trace-events (all, loads, stores, calls, branches; default all) is written to the trace, and no other, with its operator's name and exactly the resources chosen by --trace-resource; unknown names are not ignored.", "quantifier": "all executions, event and resource selections", "why_tests_cant": "all executions of any length, all selections", "anchors": ["src/execution/trace.rs: TraceConfig, Tracer", "src/execution/runtime.rs: Runtime::new", "src/main.rs: --trace"]}
{"id": "C61", "title": "Checkpoint requests are answered exactly once", "statement": "Creating checkpoint.trigger is a request for one checkpoint. Over the life of a directory - any number of processes started one after the other, ending, crashing or being checkpointed at any moment, with the user creating and removing the trigger file at any moment - no process stops for a checkpoint unless there was a request; a request is answered by at most one checkpoint; a request that is not withdrawn stays on disk until a process stops for it; and once the monitor thread has seen it, the running process stops at its next look.", "quantifier": "all interleavings of user, monitor thread and interpreter, all numbers of processes, all crash points", "why_tests_cant": "the space of interleavings is unbounded and the races have windows of microseconds", "anchors": ["src/execution/migration.rs: setup_checkpoint_monitor, check_checkpoint_flag, poll_checkpoint", "src/execution/runtime.rs: Runtime::run", "src/wasi/passthrough.rs: check_file_exists"]}
{"id": "C62", "title": "A migrated program keeps its open files", "statement": "When a program is checkpointed and restored by a new process, the new process finds the files of the old one but none of the descriptors it had opened. Nevertheless the program goes on as if it had never been interrupted: host calls after the restore give the same answers, and results and failures are those of an undisturbed run.", "quantifier": "all modules, checkpoint points, numbers of migrations and hosts, with process-local host state reset at every restore", "why_tests_cant": "requires running every program against every host with a reset at every instruction", "anchors": ["src/execution/migration.rs: checkpoint, restore", "src/wasi/passthrough.rs", "src/execution/runtime.rs: call_wasi_function"]}
{"id": "C63", "title": "float arithmetic, rounding and conversions to floats deliver the IEEE 754 result", "statement": "f32/f64 add, sub, mul and div, sqrt, ceil, floor, trunc and nearest, convert from i32/i64 (signed and unsigned), demote and promote write the correctly rounded result (to nearest, ties to even, with IEEE 754's rules for infinities, signed zeros and NaN operands) and never abort; the result is determined up to the choice of a NaN. Promotion and the conversion of integers that fit the significand are exact.", "quantifier": "every operation, both formats, every pair of operand bit patterns, every machine state", "why_tests_cant": "2^128 operand pairs per f64 operation; a test only samples them and rounding errors hide at rare ties and range ends", "anchors": ["src/execution/handlers.rs:f32_add..f32_sqrt, f64_add..f64_sqrt, conv_f32_convert_*, conv_f64_convert_*, conv_f32_demote_f64, conv_f64_promote_f32"]}
{"id": "C64", "title": "a checkpoint file is a function of the saved state and identifies it", "statement": "Processes in the same state (registers, call frames, memory content, global values) write byte-identical checkpoint files whatever their history, build or process; processes of one module that wrote identical files were in the same state; and a process that restores a checkpoint and is checkpointed before executing anything writes the same file again.", "quantifier": "all machine states, any compressor that can be undone, any earlier file content", "why_tests_cant": "quantifies over all pairs of states; a test compares a few files", "anchors": ["src/execution/migration.rs:checkpoint", "src/execution/migration.rs:restore"]}
{"id": "C65", "title": "the host is asked exactly what the program says, finished or not, interrupted or not", "statement": "For a valid module in the supported part of WebAssembly, and as long as the rules of WebAssembly do not lead to one of the listed deviations (modules without memory accesses, i32.trunc_f32 and table writes never get there, whatever their input), a process makes exactly the host calls the rules prescribe: each with the function, arguments, memory content and outside world the rules give it, and no other - also if the program never ends or traps. If the module writes neither tables nor data segments this stays so when it is checkpointed and restored any number of times: no host call is lost, repeated or added, what is not asked yet will be asked by the next process, and a session that comes to an end has asked exactly what one undisturbed process asks.", "quantifier": "all modules of that kind, arguments, hosts, builds, lengths of observation, checkpoint moments and numbers of processes", "why_tests_cant": "concerns every prefix of infinitely long executions and every way of interrupting them", "anchors": ["src/execution/runtime.rs: run, call_wasi_function", "src/execution/vm.rs: call_wasi handler", "src/execution/migration.rs: checkpoint, restore", "src/main.rs: main"]}
{"id": "C66", "title": "calls on one instance follow each other, whatever happened before", "statement": "An embedder that loads a valid module in the supported part of WebAssembly once and then calls exported functions, one after the other, any number of times, gets for each call what the WebAssembly rules say, started in the memory, globals, tables and outside world that the call before has left - also if that call trapped half-way, ended with proc_exit, named a function that does not exist or passed a wrong number of arguments (which changes nothing). Which dispatcher is built in and whether checkpointing is enabled for a call makes no difference.", "quantifier": "all modules of that kind, all sequences of calls of any length, all arguments, hosts, builds", "why_tests_cant": "quantifies over all histories of calls, including those with failures in the middle", "anchors": ["src/execution/runtime.rs: Runtime::new, run", "src/execution/module.rs: ModuleInst::new, get_export_func", "tests/block.rs: load_instance, call_function"]}
{"id": "C67", "title": "a function body that is not valid WebAssembly is refused", "statement": "A file with a function body that WebAssembly's validation rejects - blocks not nested properly, operands missing or of the wrong type, local, global, function or label indices out of range - is refused with an error, and none of the body is executed.", "quantifier": "all files and all function bodies", "why_tests_cant": "there are infinitely many invalid bodies; a test shows that some of them are refused", "anchors": ["src/parser.rs: decode_processed_instrs_and_fixups", "src/parser.rs: decode_code_section", "src/execution/regs.rs: RegAllocator::pop, peek_regs_for_types"]}
{"id": "C68", "title": "Initialisers the interpreter cannot evaluate stop the run", "statement": "If a module initialises a global, or places a data or element segment, with a constant expression that uses an operator the interpreter does not evaluate (the extended constant expressions: i32.add and the like), the command stops with an error and executes nothing of the module, instead of running it with the initialisation left out.", "quantifier": "every module file: all positions of the offending initialiser, all other contents before and after, all options, entry points and arguments", "why_tests_cant": "the space of module files is infinite; tests use modules produced by one toolchain, whose initialisers are single constants", "anchors": ["src/parser.rs: parse_initexpr, decode_global_section, decode_data_section, decode_elem_section", "src/main.rs: main (the result of parse_bytecode is dropped)"]}
{"id": "C69", "title": "The storage for running code is that of the calls in progress", "statement": "However long a program runs and however many calls it makes, also across checkpoints and restores, the interpreter keeps registers, windows and labels only for the calls in progress: at every instruction the register file holds exactly the registers the functions being called declare, one window per call, and every call keeps at most one label per block of its body; when the started function returns, none is left. Hence a program that is never more than n calls deep never needs more than n times the registers of its largest function.", "quantifier": "every program the preprocessor makes (valid or not), every input, every number of calls and processes, both dispatchers, every instruction of every run", "why_tests_cant": "a leak shows only in runs longer than any test; the states to be compared are those of unboundedly long runs", "anchors": ["src/execution/regs.rs: save_offsets, restore_offsets", "src/execution/runtime.rs: run", "src/execution/handlers.rs: block, if, end, br, br_table"]}
{"id": "C70", "title": "After a crash, restoring continues from a saved state or is refused", "statement": "Processes of the command are started one after the other in one directory, on one module, each from the beginning or restoring checkpoint.bin; each may be killed at any moment, also in the middle of writing checkpoint.bin, or be stopped by the file system. A process that restores checkpoint.bin and comes to an end shows what a single undisturbed process shows, or it is refused with an error, status 1 and no effect; it is refused only if no checkpoint has been completed yet. (The outside world is taken to be as it was when the checkpoint was written: always so for a program that imports nothing or whose host calls do not change it.)", "quantifier": "all modules, command lines, hosts, builds, numbers of processes, moments of checkpoints and of crashes (every byte of a write)", "why_tests_cant": "The claim ranges over every crash point of every process in histories of any length.", "anchors": ["src/execution/migration.rs: checkpoint, restore", "src/execution/runtime.rs: run, new_restored", "src/main.rs: main"]}
{"id": "C71", "title": "A checkpoint file of unknown origin is harmless", "statement": "Whatever bytes --restore is given - damaged, of another module, or made up - the command reports an error or aborts, or goes on in a way that is undefined only where the program itself accesses memory out of bounds or a host function is undefined: no register, local, label, argument or code position outside the bounds is ever accessed because of what the file says.", "quantifier": "all files (all byte sequences), all valid modules, hosts, builds, lengths of the run that follows", "why_tests_cant": "A file is an arbitrary byte string and may put the interpreter in states no run of the program reaches; tests can try only some of them.", "anchors": ["src/execution/migration.rs: restore", "src/execution/runtime.rs: new_restored, run", "src/execution/regs.rs: get_unchecked accessors", "src/execution/handlers.rs: local access"]}
{"id": "C72", "title": "The printed result is the result, and can be passed on", "statement": "When the invoked function returns a number, the command prints one line 'Result: ...' naming its type and exactly its value; no other value is printed the same way, nothing else is printed as a result, and what is printed can be given to a further run as a --params entry, which then receives exactly that value.", "quantifier": "all valid modules, arguments and runs (also checkpointed and restored ones), all values of all four number types", "why_tests_cant": "2^64 doubles and integers, and every run that may produce them; tests compare a handful of printed numbers", "anchors": ["src/main.rs: handle_result, parse_params", "src/execution/value.rs: Val, Num (derive Debug)"]}
{"id": "C73", "title": "Custom sections do not influence a run", "statement": "Adding or stripping custom sections of a module (names, debugging information, producers, data count, unknown sections), anywhere in the file, changes nothing the command does: result, exit status, WASI calls, checkpoint file, and whether a checkpoint made with one variant can be restored with the other.", "quantifier": "all files, all sets of custom sections and places for them, all options, arguments, hosts, old checkpoint files and dispatchers", "why_tests_cant": "The decoder carries state from section to section; a test shows the absence of influence only for the files it tries.", "anchors": ["src/parser.rs: parse_bytecode", "src/main.rs: main"]}
{"id": "C74", "title": "Exports only name things", "statement": "Adding, removing, renaming or reordering exports does not change what a program computes: two modules that differ only in their exports and in which the invoked name means the same function behave alike, and a checkpoint made with one can be restored with the other.", "quantifier": "all pairs of loadable files differing only in exports, all options, arguments, hosts, checkpoint files and dispatchers", "why_tests_cant": "It compares all pairs of modules and all their runs.", "anchors": ["src/parser.rs: decode_export_section, parse_bytecode", "src/execution/module.rs: ModuleInst::new, get_export_func", "src/main.rs: main"]}
{"id": "C75", "title": "The messages about checkpoints are true", "statement": "The command prints 'Checkpoint successful.' exactly if a complete checkpoint was written; the sizes it prints for the parts add up to the total it prints, which is the size of the file. It prints 'Restore successful' exactly if the file could be restored, and a warning with it exactly if part of the file's state (registers, frames, memory, globals) was not taken over. A result line appears exactly if the function returned a value.", "quantifier": "all files, options, checkpoint files, disks that fail at any point, processes and runs", "why_tests_cant": "every state has its own sizes, and writing can fail at every byte; tests look at a few transcripts", "anchors": ["src/execution/migration.rs: checkpoint, restore", "src/execution/runtime.rs: run", "src/main.rs: main, handle_result"]}
{"id": "C76", "title": "A program can be moved between machines", "statement": "A checkpoint may be restored on another machine than the one it was taken on, any number of times: what the program finally prints, its failure, and the memory, globals, tables and outside world it leaves are those of a single undisturbed process, the same on every machine.", "quantifier": "all modules, all sequences of checkpoints and machines, all choices of NaNs the machines make for float operations", "why_tests_cant": "the results depend on what the hardware does and on where the program was stopped; a test runs on one machine", "anchors": ["src/execution/handlers.rs: f32/f64 operations, conversions", "src/execution/migration.rs: checkpoint, restore", "src/main.rs: main"]}
{"id": "C77", "title": "Being moved leaves no trace in later checkpoints", "statement": "Whenever a program that has been checkpointed and restored any number of times stops for a checkpoint, the file it leaves could have been left by a single process that was never moved: a file of the same length that differs at most in positions that are never read on restoring, with the same memory, globals, tables, data segments and outside world. In particular checkpoint files do not grow with the number of moves.", "quantifier": "all modules, all sequences of checkpoints and restores in processes of any build, all moments", "why_tests_cant": "a leak can need many moves, or a stop at one particular instruction, to show", "anchors": ["src/execution/migration.rs: checkpoint, restore", "src/execution/runtime.rs: run, new_restored", "src/execution/dispatch_loop.rs, src/execution/dispatch_tco.rs: execute_instructions"]}
{"id": "C78", "title": "A program that ends, ends however often it is moved", "statement": "If a program comes to an end when left alone, it comes to an end also when it is checkpointed, restored on another machine, checkpointed again and so on: there is a number of moves that cannot be exceeded, no matter at which moments the checkpoints are requested and how the processes are built, and from every state in between the program, left alone, reaches the end it would have reached without any move.", "quantifier": "all modules, all sequences of checkpoints and restores in processes of any build, all moments at which checkpoints are requested", "why_tests_cant": "it is a liveness property of unboundedly long histories: a test sees finitely many moves", "anchors": ["src/execution/migration.rs: poll_checkpoint, checkpoint, restore", "src/execution/dispatch_loop.rs, src/execution/dispatch_tco.rs: execute_instructions", "src/execution/runtime.rs: run, new_restored"]}
{"id": "C79", "title": "Being moved repeats no instruction and skips none", "statement": "If a program is checkpointed, restored in another process, checkpointed again and so on, then the instructions the processes execute, one process after the other and each named by its function and its position in it, are the instructions a single process executes that is never disturbed, in the same order: none is repeated, skipped or exchanged at the places where the program is moved, however the processes are built (with either dispatcher and for either platform) and whenever a checkpoint is requested. At any moment the one list is the beginning of the other, and they are equal when the program has come to an end in both.", "quantifier": "all modules, all sequences of checkpoints and restores in processes of any build, all moments at which checkpoints are requested, all moments at which the processes are watched, terminating or not", "why_tests_cant": "an instruction executed twice or not at all where a checkpoint falls shows in a result only for some instructions and some moments", "anchors": ["src/execution/dispatch_loop.rs, src/execution/dispatch_tco.rs: execute_instructions", "src/execution/handlers.rs: advance!, next_handler", "src/execution/migration.rs: poll_checkpoint, checkpoint, restore", "src/execution/runtime.rs: run, new_restored"]}
{"id": "C80", "title": "How far a program has come determines what it has done", "statement": "Take two histories of the same program started the same way: in each the program is checkpointed and restored any number of times, at any moments, in processes built in any way, and finally stops for a checkpoint. If the processes of both have executed the same number of instructions, they have executed the same instructions in the same order, and memory, globals, tables, data segments and the outside world are the same in both.", "quantifier": "all modules, all pairs of sequences of checkpoints and restores in processes of any build, all moments at which checkpoints are requested", "why_tests_cant": "the state at every moment of every history is compared: tests compare a few final results", "anchors": ["src/execution/dispatch_loop.rs, src/execution/dispatch_tco.rs: execute_instructions", "src/execution/migration.rs: poll_checkpoint, checkpoint, restore", "src/execution/runtime.rs: run, new_restored"]}
