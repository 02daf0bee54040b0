{
 "claims": [
  {
   "property": "C01",
   "status": "proved",
   "theorems": [
    "Verif.Props.int_binop_correct",
    "Verif.Props.int_binop_instr"
   ],
   "note": ""
  },
  {
   "property": "C02",
   "status": "proved",
   "theorems": [
    "Verif.Props.int_relop_correct",
    "Verif.Props.int_eqz_correct",
    "Verif.Props.int_unop_correct",
    "Verif.Props.int_relop_instr",
    "Verif.Props.int_unop_instr"
   ],
   "note": ""
  },
  {
   "property": "C03",
   "status": "proved",
   "theorems": [
    "Verif.Props.extend_wrap_correct",
    "Verif.Props.reinterpret_correct",
    "Verif.Props.conversion_instr"
   ],
   "note": ""
  },
  {
   "property": "C04",
   "status": "partial",
   "theorems": [
    "Verif.Props.trunc_trap_partial",
    "Verif.Props.trunc_trap_exact",
    "Verif.Props.trunc_trap_violated",
    "Verif.Props.trunc_instr_partial"
   ],
   "note": "False of the code for i32.trunc_f32_s(2^31) and i32.trunc_f32_u(2^32); exact behaviour proved for every input."
  },
  {
   "property": "C05",
   "status": "proved",
   "theorems": [
    "Verif.Props.trunc_sat_correct",
    "Verif.Props.trunc_sat_instr"
   ],
   "note": ""
  },
  {
   "property": "C06",
   "status": "proved",
   "theorems": [
    "Verif.Props.float_relop_correct",
    "Verif.Props.float_sign_ops_correct",
    "Verif.Props.float_min_correct",
    "Verif.Props.float_max_correct",
    "Verif.Props.float_relop_instr",
    "Verif.Props.float_sign_instr",
    "Verif.Props.float_minmax_instr"
   ],
   "note": ""
  },
  {
   "property": "C07",
   "status": "proved",
   "theorems": [
    "Verif.Props.load_correct",
    "Verif.Props.store_correct",
    "Verif.Props.load_after_store",
    "Verif.Props.load_instr",
    "Verif.Props.store_instr"
   ],
   "note": ""
  },
  {
   "property": "C08",
   "status": "proved",
   "theorems": [
    "Verif.Props.load_disjoint_store",
    "Verif.Props.store_instr"
   ],
   "note": ""
  },
  {
   "property": "C09",
   "status": "partial",
   "theorems": [
    "Verif.Props.oob_traps_partial",
    "Verif.Props.oob_load_traps_violated",
    "Verif.Props.oob_store_traps_violated",
    "Verif.Props.oob_zero_length_violated",
    "Verif.Props.load_exact",
    "Verif.Props.store_exact",
    "Verif.Props.copy_fill_outside"
   ],
   "note": "The unrestricted claim is false of the code: plain loads/stores have no bounds check."
  },
  {
   "property": "C10",
   "status": "partial",
   "theorems": [
    "Verif.Props.grow_spec_partial",
    "Verif.Props.grow_spec_violated",
    "Verif.Props.grow_negative_violated",
    "Verif.Props.grow_shrinks_violated",
    "Verif.Props.grow_spec_exact",
    "Verif.Props.grow_instr_partial"
   ],
   "note": "False of the code at the overflow boundary; proved outside it."
  },
  {
   "property": "C11",
   "status": "proved",
   "theorems": [
    "Verif.Props.copy_correct",
    "Verif.Props.fill_correct",
    "Verif.Props.init_correct",
    "Verif.Props.copy_instr",
    "Verif.Props.fill_instr",
    "Verif.Props.init_instr"
   ],
   "note": ""
  },
  {
   "property": "C12",
   "status": "partial",
   "theorems": [
    "Verif.Props.memory_page_aligned_partial",
    "Verif.Props.fresh_memory_page_aligned_partial",
    "Verif.Props.memory_never_shrinks_partial",
    "Verif.Props.run_memory_paged_partial",
    "Verif.Props.command_memory_paged_partial",
    "Verif.Props.passthrough_keeps_size",
    "Verif.Props.memory_never_shrinks_run_partial",
    "Verif.Props.size_instr",
    "Verif.Props.unwritten_part_unchanged"
   ],
   "note": "Holds for every run in which no memory.grow reaches the 65536-page boundary, where the code shrinks the memory (see C10 for the witnesses)."
  },
  {
   "property": "C13",
   "status": "proved",
   "theorems": [
    "Verif.Props.call_preserves_caller_registers",
    "Verif.Props.cached_is_top",
    "Verif.Props.call_returns_to_caller"
   ],
   "note": ""
  },
  {
   "property": "C14",
   "status": "partial",
   "theorems": [
    "Verif.Props.registers_in_window_partial",
    "Verif.Props.windows_disjoint_partial",
    "Verif.Props.handed_out_register_in_final_window",
    "Verif.Props.registers_bounded",
    "Verif.Props.Bug.select_on_references_violated"
   ],
   "note": "For every module that passes validation and has no typed select on references (for that instruction the claim is false of the code, witness): every register and local named by every executed instruction, at any depth, in any run, also after restores."
  },
  {
   "property": "C15",
   "status": "partial",
   "theorems": [
    "Verif.Props.live_registers_distinct_partial",
    "Verif.Props.live_registers_distinct_violated"
   ],
   "note": "Holds for every allocation history as long as no bank gets deeper than 65536; beyond that the 16-bit register index wraps (witness)."
  },
  {
   "property": "C16",
   "status": "proved",
   "theorems": [
    "Verif.Props.copyRegs_parallel",
    "Verif.Props.block_result_move_parallel"
   ],
   "note": ""
  },
  {
   "property": "C17",
   "status": "proved",
   "theorems": [
    "Verif.Props.dispatchers_agree_compiled",
    "Verif.Props.dispatchers_agree_from",
    "Verif.Props.dispatchers_agree",
    "Verif.Props.dispatchers_agree_nested",
    "Verif.Props.dispatchers_agree_run"
   ],
   "note": "For every program the preprocessor makes from any operators, any trigger schedule, fresh, running or restored machines: same result and same final machine. (Hand-made ill-nested code arrays, which the preprocessor never produces, are excluded: Lemmas.compile_shaped.)"
  },
  {
   "property": "C18",
   "status": "partial",
   "theorems": [
    "Verif.Props.branch_targets_partial",
    "Verif.Props.labels_enclose_compiled",
    "Verif.Props.leads_unique",
    "Verif.Props.closes_unique",
    "Verif.Props.labels_enclose",
    "Verif.Props.labels_flow",
    "Verif.Props.branch_taken",
    "Verif.Props.br_table_function_label_violated"
   ],
   "note": "For every body the preprocessor accepts (from any operators): br, br_if, if/else and br_table targets are the designated ones and unique; the label stack is exactly that of the enclosing brackets at every instruction of every run.  Exception, false of the code: a br_table entry naming the function label (witness)."
  },
  {
   "property": "C19",
   "status": "partial",
   "theorems": [
    "Verif.Props.program_correct_partial",
    "Verif.Props.Bug.function_label_branch_returns_violated",
    "Verif.Props.Bug.function_label_br_table_violated"
   ],
   "note": "False of the code when the function has results or for br_table (witnesses); br and br_if to the label of a function without results are covered by program_correct_partial."
  },
  {
   "property": "C20",
   "status": "partial",
   "theorems": [
    "Verif.Props.call_binds_arguments",
    "Verif.Props.call_returns_to_caller",
    "Verif.Props.results_delivered_in_order_partial",
    "Verif.Props.v128_results_violated",
    "Verif.Props.ref_locals_violated",
    "Verif.Props.nine_results_violated"
   ],
   "note": "False of the code for v128 results, reference-typed locals of a callee and more than eight results; proved otherwise."
  },
  {
   "property": "C21",
   "status": "proved",
   "theorems": [
    "Verif.Props.call_indirect_checked",
    "Verif.Props.call_indirect_fails"
   ],
   "note": ""
  },
  {
   "property": "C22",
   "status": "partial",
   "theorems": [
    "Verif.Props.program_correct_partial",
    "Verif.Props.source_is_webassembly",
    "Verif.Props.run_match",
    "Verif.Props.Bug.straight_line_correct_violated",
    "Verif.Props.Bug.select_on_references_violated",
    "Verif.Props.Bug.keepFlag_faithful",
    "Verif.Props.Bug.fact_faithful",
    "Verif.Props.WideEx.many_locals_violated"
   ],
   "note": "Whole-program correctness (both directions) for every module in the faithfully translated part of WebAssembly (Spec/Subset.lean); false of the code outside it (witnesses)."
  },
  {
   "property": "C23",
   "status": "partial",
   "theorems": [
    "Verif.Props.program_correct_partial",
    "Verif.Props.source_is_webassembly",
    "Verif.Props.run_match",
    "Verif.Props.gives_unique",
    "Verif.Props.accepted_of_text",
    "Verif.Props.Bug.branch_results_violated",
    "Verif.Props.Bug.bottom_faithful",
    "Verif.Props.Bug.loop_parameters_violated",
    "Verif.Props.Ex.indirect_host_call_violated"
   ],
   "note": "Whole-program correctness (results, store, world, failures, divergence; both directions) for every module in the faithfully translated part of WebAssembly (Spec/Subset.lean); false of the code outside it (witnesses)."
  },
  {
   "property": "C24",
   "status": "proved",
   "theorems": [
    "Verif.Props.dead_code_no_effect",
    "Verif.Props.dead_code_compiles",
    "Verif.Props.dead_code_accepted",
    "Verif.Props.dead_code_added",
    "Verif.Props.dead_code_never_executed"
   ],
   "note": "full: two programs that differ only in the code behind a br/br_table/return/unreachable up to the matching end or else (any properly bracketed sequences, any length, not even type-checked) show the same outcome after the same number of steps, for every call, dispatcher, instance, world and checkpoint schedule; compile-level: the unreachable part only contributes nops and shifts later targets; control never stands on one of these nops."
  },
  {
   "property": "C25",
   "status": "proved",
   "theorems": [
    "Verif.Props.local_types_resolved"
   ],
   "note": ""
  },
  {
   "property": "C26",
   "status": "proved",
   "theorems": [
    "Verif.Props.decode_encode",
    "Verif.Props.encode_injective",
    "Verif.Props.encode_isSome_iff"
   ],
   "note": "For every state whose components are values of their Rust types and that holds no function/extern reference (exactly the states that can be serialised); the bincode format is modelled."
  },
  {
   "property": "C27",
   "status": "proved",
   "theorems": [
    "Verif.Props.prefix_rejected",
    "Verif.Props.truncated_checkpoint_rejected"
   ],
   "note": ""
  },
  {
   "property": "C28",
   "status": "proved",
   "theorems": [
    "Verif.Props.unserialisable_checkpoint_keeps_file",
    "Verif.Props.checkpoint_outcomes",
    "Verif.Props.interrupted_write_destroys_old"
   ],
   "note": "Proved for serialisation failures; an interrupted write does destroy the older file (witness theorem)."
  },
  {
   "property": "C29",
   "status": "proved",
   "theorems": [
    "Verif.Props.restore_reproduces"
   ],
   "note": "Memory, globals, frames and registers, as the property says; tables and data segments are those of the fresh instance (see C30)."
  },
  {
   "property": "C30",
   "status": "partial",
   "theorems": [
    "Verif.Props.clean_checkpoint_restore_transparent",
    "Verif.Props.clean_command_migration",
    "Verif.Props.migrates_clean",
    "Verif.Props.checkpoint_restore_transparent_partial",
    "Verif.Props.command_migration_transparent_partial",
    "Verif.Props.table_write_lost_violated"
   ],
   "note": "Any number of migrations, for every program, as long as tables and data segments are as in the fresh instance whenever it is stopped (always so for programs without table.set/table.fill/data.drop: migrates_clean); false otherwise (witness)."
  },
  {
   "property": "C31",
   "status": "proved",
   "theorems": [
    "Verif.Props.checkpoint_option_invisible_compiled",
    "Verif.Props.checkpoint_option_invisible"
   ],
   "note": "For every program the preprocessor makes."
  },
  {
   "property": "C32",
   "status": "partial",
   "theorems": [
    "Verif.Props.trigger_honoured_in_frame_partial",
    "Verif.Props.trigger_honoured_at_once_atomics",
    "Verif.Props.trigger_starved_violated",
    "Verif.Props.trigger_ignored_when_disabled_violated",
    "Verif.Props.trigger_bound_atomics",
    "Verif.Props.executed_before_request_partial",
    "Verif.Props.trigger_ignored_without_wasi_violated",
    "Verif.Props.restored_deaf_violated"
   ],
   "note": "Atomics build: no instruction is executed once the flag has been found up, counted in executed instructions (executed_before_request_partial), and bounded for whole processes that are not restored (trigger_bound_atomics). File-polling build: bounded within one stay in a frame; false across calls because the poll counter restarts with every frame, and false for modules without WASI imports, which are never checkpointed. Restored processes ignore the trigger inside restored called functions, in every build (witness)."
  },
  {
   "property": "C33",
   "status": "partial",
   "theorems": [
    "Verif.Props.data_segments_written",
    "Verif.Props.data_segment_misfit",
    "Verif.Props.elem_segments_written_partial",
    "Verif.Props.elem_segment_misfit",
    "Verif.Props.globals_initialised",
    "Verif.Props.instantiable_instantiates",
    "Verif.Props.elem_expressions_violated",
    "Verif.Props.elem_empty_offset_violated",
    "Verif.Props.active_data_kept_violated",
    "Verif.Props.ref_func_init_violated"
   ],
   "note": "Data segments, globals and element segments of function indices: proved, in both directions. False of the code: element segments of expressions are ignored, an empty segment at an offset outside the table is accepted, active data segments are not dropped, ref.func initialisers fail."
  },
  {
   "property": "C34",
   "status": "proved",
   "theorems": [
    "Verif.Props.export_resolves",
    "Verif.Props.export_missing",
    "Verif.Props.export_exists",
    "Verif.Props.other_exports_exist",
    "Verif.Props.funcs_are_declared"
   ],
   "note": ""
  },
  {
   "property": "C35",
   "status": "partial",
   "theorems": [
    "Verif.Props.global_set_typed",
    "Verif.Props.global_set_other_type_refused",
    "Verif.Props.global_set_null_extern_violated",
    "Verif.Props.global_set_extern_over_null_violated",
    "Verif.Props.global_keeps_wasm_type",
    "Verif.Props.null_global_never_extern_violated",
    "Verif.Props.extern_global_never_null_violated",
    "Verif.Props.global_set_correct",
    "Verif.Props.global_get_correct",
    "Verif.Props.global_set_type_error",
    "Verif.Props.global_changed_only_by_set",
    "Verif.Props.types_never_change",
    "Verif.Props.global_set_immutable_violated",
    "Verif.Props.immutable_global_constant_partial",
    "Verif.Props.unwritten_unchanged"
   ],
   "note": "Everything holds except that global.set does not reject immutable globals and that the null reference always counts as a funcref, so an externref global holding a reference cannot be set to null, nor one holding null to a reference."
  },
  {
   "property": "C36",
   "status": "partial",
   "theorems": [
    "Verif.Props.table_fill_all",
    "Verif.Props.table_set_correct",
    "Verif.Props.table_get_correct",
    "Verif.Props.table_fill_partial",
    "Verif.Props.table_fill_instr",
    "Verif.Props.table_fill_violated",
    "Verif.Props.types_never_change",
    "Verif.Props.changed_only_by",
    "Verif.Props.unwritten_part_unchanged"
   ],
   "note": "table.fill with a start+count beyond 32 bits silently does nothing (table_fill_all says so for every table and state); all else holds."
  },
  {
   "property": "C37",
   "status": "partial",
   "theorems": [
    "Verif.Props.start_ignored_violated",
    "Verif.Props.LoadEx.start_not_run_violated",
    "Verif.Props.start_function_partial",
    "Verif.Props.start_section_invisible_violated"
   ],
   "note": "False of the code: the start function is never run. What is left: modules without a start section or whose start function changes nothing behave as WebAssembly says."
  },
  {
   "property": "C38",
   "status": "proved",
   "theorems": [
    "Verif.Props.guest_sees_command_line",
    "Verif.Props.guest_sees_argument_sizes",
    "Verif.Props.args_get_correct",
    "Verif.Props.args_sizes_get_correct",
    "Verif.Props.args_get_writes_past_array_violated"
   ],
   "note": "args_get also zeroes one word after the argc pointers (witness theorem)."
  },
  {
   "property": "C39",
   "status": "partial",
   "theorems": [
    "Verif.Props.fd_write_partial",
    "Verif.Props.fd_write_violated",
    "Verif.Props.fd_write_array_violated"
   ],
   "note": "False when buf_ptr+buf_len wraps 32 bits; proved otherwise."
  },
  {
   "property": "C40",
   "status": "proved",
   "theorems": [
    "Verif.Props.argv_is_command_line",
    "Verif.Props.guest_sees_command_line",
    "Verif.Props.parseArgs_correct",
    "Verif.Props.parseArgs_join",
    "Verif.Props.empty_argument_violated"
   ],
   "note": "Empty quoted arguments are dropped (witness theorem)."
  },
  {
   "property": "C41",
   "status": "proved",
   "theorems": [
    "Verif.Props.errno_round_trip",
    "Verif.Props.errno_of_error",
    "Verif.Props.errno_unknown_is_io"
   ],
   "note": ""
  },
  {
   "property": "C42",
   "status": "proved",
   "theorems": [
    "Verif.Props.set_only_that_register",
    "Verif.Props.setVal_only_that_register"
   ],
   "note": ""
  },
  {
   "property": "C43",
   "status": "partial",
   "theorems": [
    "Verif.Props.malformed_rejected_partial",
    "Verif.Props.damaged_head_rejected_partial",
    "Verif.Props.LoadEx.malformed_runs_violated",
    "Verif.Props.LoadEx.malformed_ub_violated",
    "Verif.Props.missing_file",
    "Verif.Props.missing_file_restore"
   ],
   "note": "Holds when decoding fails before any export has been decoded; false of the code otherwise (witnesses, one of them running into undefined behaviour)."
  },
  {
   "property": "C44",
   "status": "proved",
   "theorems": [
    "Verif.Props.memory_pointer_never_stale"
   ],
   "note": ""
  },
  {
   "property": "C45",
   "status": "partial",
   "theorems": [
    "Verif.Props.wasi_imports_match",
    "Verif.Props.wasi_names_distinct",
    "Verif.Props.wasi_dispatch_matches_partial",
    "Verif.Props.wasi_wrong_arguments",
    "Verif.Props.proc_raise_violated",
    "Verif.Props.wasi_type_unchecked_violated"
   ],
   "note": "Names and types of all functions, against an independent table of the interface. False of the code: proc_raise cannot be called, and the declared type of an import is not checked."
  },
  {
   "property": "C46",
   "status": "partial",
   "theorems": [
    "Verif.Props.main_correct_partial",
    "Verif.Props.main_is_webassembly",
    "Verif.Props.initialStore_unique",
    "Verif.Props.initialStore_exists",
    "Verif.Props.wellFormed_passthrough",
    "Verif.Props.accepted_of_text",
    "Verif.Props.fits_of_text"
   ],
   "note": "For well-formed modules in the faithfully translated part of WebAssembly, both directions; see C22/C23 for what lies outside, C37 for the start function."
  },
  {
   "property": "C47",
   "status": "proved",
   "theorems": [
    "Verif.Props.undefined_only_outside_memory",
    "Verif.Props.no_undefined_behaviour",
    "Verif.Props.command_undefined_only_outside_memory",
    "Verif.Props.host_call_defined",
    "Verif.Props.command_undefined_partial",
    "Verif.Props.command_ub",
    "Verif.Props.checkpoint_defined"
   ],
   "note": "For every validated module without typed select on references (C14 shows what goes wrong there)."
  },
  {
   "property": "C48",
   "status": "partial",
   "theorems": [
    "Verif.Props.wasi_call_partial",
    "Verif.Props.roles_lower",
    "Verif.Props.random_get_empty",
    "Verif.Props.fault_violated",
    "Verif.Props.path_with_nul_violated",
    "Verif.Props.sock_recv_violated",
    "Verif.Props.sock_send_violated",
    "Verif.Props.sock_buffers_violated",
    "Verif.Props.sock_send_empty",
    "Verif.Props.sock_recv_empty"
   ],
   "note": "Well-formed requests: all functions except sock_recv/sock_send (their buffers are not translated, witnesses) and proc_raise (C45), against an independent table of parameter roles. Ill-formed requests are not answered with an error (witnesses)."
  },
  {
   "property": "C49",
   "status": "proved",
   "theorems": [
    "Verif.Props.environ_get_correct",
    "Verif.Props.environ_sizes_get_correct"
   ],
   "note": "As for args_get (C38), one extra zero word is written behind the pointers; it is counted as part of the pointer area."
  },
  {
   "property": "C50",
   "status": "proved",
   "theorems": [
    "Verif.Props.proc_exit_code",
    "Verif.Props.only_proc_exit_exits",
    "Verif.Props.proc_exit_ends_run"
   ],
   "note": "only proc_exit ends the process; it does so at once, with the code given (the operating system may truncate it further); main_is_webassembly and session_is_webassembly_partial carry the code through whole runs and sessions"
  },
  {
   "property": "C51",
   "status": "proved",
   "theorems": [
    "Verif.Props.main_is_webassembly",
    "Verif.Props.steady_is_webassembly",
    "Verif.Props.main_is_webassembly_of_supported",
    "Verif.Props.never_misnamed",
    "Verif.Props.source_is_webassembly",
    "Verif.Props.webassembly_deterministic",
    "Verif.Props.accepted_of_text"
   ],
   "note": "Against inference rules written without the interpreter's own operator functions (Spec/WebAssembly.lean). Full for the restricted claim; C46 has the unrestricted one."
  },
  {
   "property": "C52",
   "status": "proved",
   "theorems": [
    "Verif.Props.valid_body_accepted_iff",
    "Verif.Props.valid_module_accepted_iff",
    "Verif.Props.loads_iff_supported",
    "Verif.Props.unsupported_never_runs",
    "Verif.Props.UnsupEx.table_size_rejected",
    "Verif.Props.main_is_webassembly_of_supported",
    "Verif.Props.reference_globals_rejected",
    "Verif.Props.vector_locals_rejected"
   ],
   "note": "For modules whose host functions have at most one result; exact characterisation in both directions."
  },
  {
   "property": "C53",
   "status": "proved",
   "theorems": [
    "Verif.Props.typed_params_as_written",
    "Verif.Props.typed_params_only_as_written",
    "Verif.Props.every_f32_passable",
    "Verif.Props.every_f64_passable",
    "Verif.Props.parseFloat_iff",
    "Verif.Props.params_as_written",
    "Verif.Props.params_only_as_written",
    "Verif.Props.parseInt_iff",
    "Verif.Props.every_i32_passable",
    "Verif.Props.every_i64_passable",
    "Verif.Props.untyped_params_dropped",
    "Verif.Props.unsigned_param_aborts"
   ],
   "note": "Float texts: exactly the grammar documented for str::parse, correctly rounded (Spec/FloatText); the library is modelled by its documentation (unbounded exponents)."
  },
  {
   "property": "C54",
   "status": "partial",
   "theorems": [
    "Verif.Props.clean_session_transparent",
    "Verif.Props.clean_session_is_webassembly",
    "Verif.Props.movable_clean",
    "Verif.Props.clean_steady_session",
    "Verif.Props.session_transparent_partial",
    "Verif.Props.session_is_webassembly_partial",
    "Verif.Props.steady_session",
    "Verif.Props.session_any",
    "Verif.Props.undisturbed_unique",
    "Verif.Props.SessionEx.session",
    "Verif.Props.WriterEx.session",
    "Verif.Props.table_write_lost_violated",
    "Verif.Props.WriterEx.late_violated",
    "Verif.Props.SessionEx.unsaved_violated"
   ],
   "note": "Any number of processes, builds, moments and options; any module. Excluded: sessions with a checkpoint at which tables or data segments differ from what the module file describes (false of the code: those writes are lost, witness; modules without table.set/table.fill/data.drop have no such sessions, movable_clean), sessions in which a checkpoint could not be written (false of the code: the program is ended with an error, witness), checkpoint files of 4 GiB or more."
  },
  {
   "property": "C55",
   "status": "partial",
   "theorems": [
    "Verif.Props.exit_status_partial",
    "Verif.Props.report_tells_partial",
    "Verif.Props.missing_export_reported",
    "Verif.Props.argument_count_reported",
    "Verif.Props.unreadable_argument_aborts",
    "Verif.Props.exported_import_refused_violated",
    "Verif.Props.ReportEx.failure_exits_zero_violated",
    "Verif.Props.ReportEx.results_dropped_violated",
    "Verif.Props.ReportEx.missing_argument_exits_zero_violated",
    "Verif.Props.ReportEx.argument_types_unchecked_violated"
   ],
   "note": "The exit status is the guest's code after proc_exit, 1 for a missing function or a failed restore, else 0; the report tells the outcome and the last result; false of the code: failed executions and bad arguments exit with status 0, only the last of several results is printed, argument types are not checked (witnesses)."
  },
  {
   "property": "C56",
   "status": "partial",
   "theorems": [
    "Verif.Props.restore_ok_iff_partial",
    "Verif.Props.restore_failure",
    "Verif.Props.prefix_rejected",
    "Verif.Props.ForeignEx.foreign_checkpoint_violated",
    "Verif.Props.ForeignEx.globals_dropped_violated",
    "Verif.Props.restore_ignores_invocation"
   ],
   "note": "Exactly which files are accepted, and how the others are reported. False of the code: nothing ties a checkpoint to its module; one of another module is accepted, and saved globals are dropped, with only a warning, if their number differs (witnesses)."
  },
  {
   "property": "C57",
   "status": "partial",
   "theorems": [
    "Verif.Props.imports_resolved",
    "Verif.Props.link_error",
    "Verif.Props.linked_functions",
    "Verif.Props.extern_is_export",
    "Verif.Props.no_import_objects",
    "Verif.Props.self_contained_same",
    "Verif.Props.linked_correct_partial",
    "Verif.Props.linked_instances_partial",
    "Verif.Props.foreign_memory_partial",
    "Verif.Props.LinkEx.foreign_instance_violated",
    "Verif.Props.LinkedEx.foreign_memory_size_violated",
    "Verif.Props.LinkedEx.foreign_memory_grow_violated"
   ],
   "note": "Resolution by name and exact type is proved in full, and calls of imported functions that use nothing of their own instance behave as WebAssembly says of the linked program. False of the code otherwise: an imported function runs against the globals, functions, tables, data segments and memory size of the calling module (witnesses); only its loads and stores use its own instance's memory, and for functions that use nothing else the call is proved to do what WebAssembly says (foreign_memory_partial)."
  },
  {
   "property": "C58",
   "status": "proved",
   "theorems": [
    "Verif.Props.handler_is_its_own",
    "Verif.Props.compiled_handlers",
    "Verif.Props.control_index"
   ],
   "note": "Over the generated tables of handler indices, select_handler and the arms of the preprocessor."
  },
  {
   "property": "C59",
   "status": "partial",
   "theorems": [
    "Verif.Props.stats_counts",
    "Verif.Props.stats_report",
    "Verif.Props.stats_table",
    "Verif.Props.percentage_shown",
    "Verif.Props.share_nearest",
    "Verif.Props.share_le",
    "Verif.Props.shown_name_partial",
    "Verif.Props.stats_violated",
    "Verif.Props.shown_name_violated"
   ],
   "note": "Proved of the collector: if every instruction is recorded, counts and report are right for every iteration order. False of the code: no dispatcher records anything, so every report is empty (witness), and i32 local.tee and data.drop are shown under other names (witness). The printed lines are modelled with their percentages: each is the share to one decimal (nearest, up to 2^39 instructions), floating point roundings included."
  },
  {
   "property": "C60",
   "status": "partial",
   "theorems": [
    "Verif.Props.trace_filter",
    "Verif.Props.trace_names",
    "Verif.Props.trace_line",
    "Verif.Props.trace_default",
    "Verif.Props.shown_name_partial",
    "Verif.Props.trace_violated"
   ],
   "note": "Proved of the filter and of each line. False of the code: no dispatcher calls the tracer, unknown names are dropped silently, the memory resource prints nothing, WASI calls are not calls (witness)."
  },
  {
   "property": "C61",
   "status": "partial",
   "theorems": [
    "Verif.Props.no_checkpoint_without_request",
    "Verif.Props.checkpoints_le_requests_partial",
    "Verif.Props.request_kept_partial",
    "Verif.Props.request_reaches_interpreter",
    "Verif.Props.flag_stays_up",
    "Verif.Props.request_answered_repeatedly_violated",
    "Verif.Props.request_lost_violated"
   ],
   "note": "No spurious checkpoints, in both builds. File-polling build: proved that requests are answered at most once and are not lost. Atomics build: the running process is reached, but one request may stop any number of processes (the process may exit before its monitor removes the file) and a request may be consumed by a process that ends on its own (witnesses)."
  },
  {
   "property": "C62",
   "status": "partial",
   "theorems": [
    "Verif.Props.moved_session_transparent_partial",
    "Verif.Props.clean_moved_session_transparent",
    "Verif.Props.clean_moved_session",
    "Verif.Props.pass_unaware",
    "Verif.Props.moved_session",
    "Verif.Props.descriptor_lost_violated"
   ],
   "note": "Proved for hosts whose answers do not depend on what a process leaves behind (for programs that write tables or drop data segments: as long as these are as loaded at each move, as in C54), and lifted from the native host to the interpreter's own WASI functions. False of the code for hosts with descriptors: a file opened before the checkpoint is closed after the restore (witness)."
  },
  {
   "property": "C63",
   "status": "proved",
   "theorems": [
    "Verif.Props.float_arith_instr",
    "Verif.Props.float_round_instr",
    "Verif.Props.convert_instr",
    "Verif.Props.demote_instr",
    "Verif.Props.promote_instr",
    "Verif.Props.float_result_unique",
    "Verif.Props.convert_exact",
    "Verif.Props.float_commutative"
   ],
   "note": "Spec.Ieee states correct rounding as: no float (and no limit standing for an infinity) is closer to the exact result, ties have an even mantissa, and the sign rules; finite values are integers times the smallest subnormal, so the exact result of / is a fraction and of sqrt is characterised by squares. The model computes by integer rounding; Rust's float primitives are assumed to be the IEEE 754 operations, which is what the model writes out. Only the NaN delivered is a parameter."
  },
  {
   "property": "C64",
   "status": "proved",
   "theorems": [
    "Verif.Props.same_state_same_file",
    "Verif.Props.same_file_same_state",
    "Verif.Props.recheckpoint_same"
   ],
   "note": "The compressor is any deterministic function with a left inverse; sizes must fit their 64-bit length fields (Fits)."
  },
  {
   "property": "C65",
   "status": "proved",
   "theorems": [
    "Verif.Props.asks_webassembly",
    "Verif.Props.session_asks",
    "Verif.Props.session_asks_webassembly",
    "Verif.Props.steady_session",
    "Verif.Props.clean_asks",
    "Verif.Props.clean_asks_webassembly",
    "Verif.Props.clean_steady_session"
   ],
   "note": "Spec/Asks.lean says by rules which calls an execution makes, finished or not, and which calls a process and a session make. Proved by replacing the host by one that ends the process when asked the call in question, and C51/C54 for that host. Sessions as in C54: tables and data segments as loaded at each checkpoint."
  },
  {
   "property": "C66",
   "status": "partial",
   "theorems": [
    "Verif.Props.history_correct_partial",
    "Verif.Props.steady_neverOdd",
    "Verif.Props.call_leaves_partial",
    "Verif.Props.reply_correct",
    "Verif.Props.source_leaves",
    "Verif.Props.after_panic_violated"
   ],
   "note": "Both directions, for every sequence of calls whose own-module targets get arguments of the right types, in modules as in C51 (steady modules need no assumption on the executions). False of the code: traps that are panics (unreachable, division by zero, out-of-bounds table access, ...) end the process, so that the calls after them do not happen (witness). Exported imports are not called (the interpreter refuses them: C55)."
  },
  {
   "property": "C67",
   "status": "partial",
   "theorems": [
    "Verif.Props.early_end_refused_partial",
    "Verif.Props.unclosed_refused_partial",
    "Verif.Props.types_unchecked_violated",
    "Verif.Props.invalid_module_loads_violated",
    "Verif.Props.UntypedEx.not_valid",
    "Verif.Props.UntypedEx.invalid_runs_violated",
    "Verif.Props.UntypedEx.invalid_ub_violated",
    "Verif.Props.UntypedEx.unclosed_violated"
   ],
   "note": "Proved for every file: nothing follows the end of a function, and (in bodies without br, br_table, return, unreachable) every block is closed. False of the code beyond that: there is no validation, every properly bracketed body of known operators is translated whatever its types and indices, runs, and may access registers outside the register file (witnesses)."
  },
  {
   "property": "C68",
   "status": "partial",
   "theorems": [
    "Verif.Props.extended_global_refused_partial",
    "Verif.Props.ConstEx.extended_data_violated",
    "Verif.Props.ConstEx.extended_elem_violated"
   ],
   "note": "Proved for globals: whatever the rest of the file, nothing is executed. False of the code for segments: the error is dropped after the exports have been decoded, and the module runs without its data, or without its code (witnesses)."
  },
  {
   "property": "C69",
   "status": "proved",
   "theorems": [
    "Verif.Props.storage_is_that_of_active_calls",
    "Verif.Props.nothing_left_behind",
    "Verif.Props.storage_bounded_by_depth"
   ],
   "note": "For every program the preprocessor makes from any operators; capacity kept by vectors for reuse is not modelled."
  },
  {
   "property": "C70",
   "status": "partial",
   "theorems": [
    "Verif.Props.clean_crash_recovery_partial",
    "Verif.Props.clean_checkpoint_resumes",
    "Verif.Props.crash_recovery_partial",
    "Verif.Props.completed_checkpoint_resumes",
    "Verif.Props.life_world",
    "Verif.Props.CrashEx.checkpoint_lost_violated"
   ],
   "note": "Any number of processes and crashes, every crash point; a torn file is always refused, a checkpoint reported as written always resumes. False of the code: an earlier completed checkpoint is destroyed when the next write is cut short, so a process can be refused although a checkpoint had been completed (witness); tables and data segments as for C54. Completed files are taken to be below 4 GiB."
  },
  {
   "property": "C71",
   "status": "partial",
   "theorems": [
    "Verif.Props.untrusted_checkpoint_partial",
    "Verif.Props.restore_defined",
    "Verif.Props.checkpoints_sound",
    "Verif.Props.SoundEx.crafted_checkpoint_violated",
    "Verif.Props.command_undefined_partial",
    "Verif.Props.command_ub",
    "Verif.Props.checkpoint_defined"
   ],
   "note": "Proved: restore itself is defined for all bytes; and for every file whose snapshot makes sense for the module (Spec.Sound: lengths of register vectors and locals, positions, labels and offsets, no condition on values or memory), running on is undefined only as the program itself would be; every checkpoint a program takes is such a file. False of the code for other files: restore checks none of this, and a made-up file runs into an unchecked access (witness)."
  },
  {
   "property": "C72",
   "status": "partial",
   "theorems": [
    "Verif.Props.result_line_partial",
    "Verif.Props.clean_result_line",
    "Verif.Props.printed_result_passes_on",
    "Verif.Props.result_text_injective",
    "Verif.Props.text_tells",
    "Verif.Props.printed_result_refused_violated",
    "Verif.Props.nan_line_ambiguous_violated"
   ],
   "note": "For integers and floats that are not NaNs: the line is printed iff WebAssembly says the call (also across checkpoints and restores) returns that number last; it names type and value bit by bit (shortest decimal of the standard library, modelled), no two numbers are printed alike, and the text inside Num( ) given as --params passes exactly the value. False of the code: NaNs of different bits are printed alike, the printed text as a whole is refused as a parameter (witnesses); only the last of several results is printed (C55). What is printed for function references is not modelled."
  },
  {
   "property": "C73",
   "status": "proved",
   "theorems": [
    "Verif.Props.custom_sections_irrelevant",
    "Verif.Props.custom_parse"
   ],
   "note": "For every file, well formed or not, and the whole command, --restore included."
  },
  {
   "property": "C74",
   "status": "proved",
   "theorems": [
    "Verif.Props.exports_irrelevant",
    "Verif.Props.exports_only_name"
   ],
   "note": "For files that are read to their end and load; the name to invoke must mean the same function in both (not needed with --restore)."
  },
  {
   "property": "C75",
   "status": "proved",
   "theorems": [
    "Verif.Props.console_checkpoint",
    "Verif.Props.console_restore",
    "Verif.Props.restore_warned_iff",
    "Verif.Props.checkpoint_sizes_told",
    "Verif.Props.checkpoint_done_readable",
    "Verif.Props.console_result",
    "Verif.Props.same_console_same_result",
    "Verif.Props.console_exit",
    "Verif.Props.ConsoleEx.lossy_restore_warns"
   ],
   "note": "Of the interpreter's own lines (the guest's output, the line about a failed host function and the texts of errors and paths are parameters or left out). A restore that drops the saved globals is called successful, with a warning (C56)."
  },
  {
   "property": "C76",
   "status": "partial",
   "theorems": [
    "Verif.Props.moved_without_nan_partial",
    "Verif.Props.clean_moved_without_nan",
    "Verif.Props.clean_nan_free_session",
    "Verif.Props.clean_moved_between_machines",
    "Verif.Props.clean_mixed_is_session",
    "Verif.Props.nan_free_session",
    "Verif.Props.nan_free_process",
    "Verif.Props.moved_between_machines_partial",
    "Verif.Props.platform_does_not_show",
    "Verif.Props.mixed_is_session",
    "Verif.Props.PlatformsEx.nan_moved_violated"
   ],
   "note": "Any number of moves between machines that choose NaNs differently, for sessions whose processes compute no NaN, and for all sessions of modules without float arithmetic, rounding, demotion and promotion. False of the code beyond: a program that computes NaNs on two machines ends with a result it has on neither (witness). What is missing from C54 is missing here too; programs may write tables and drop data segments as long as these are as loaded at each move."
  },
  {
   "property": "C77",
   "status": "proved",
   "theorems": [
    "Verif.Props.clean_moved_without_trace",
    "Verif.Props.moved_without_trace",
    "Verif.Props.no_trace",
    "Verif.Props.reached_stops",
    "Verif.Props.reached_ckpt",
    "Verif.Props.SessionEx.unread_differs"
   ],
   "note": "For sessions within the limits of C54 (tables and data segments as loaded at the moves before) and files below 4 GiB. Spec/Trace.lean says what is read of a checkpoint: everything but the positions remembered by blocks other than the innermost one of each function, which the interpreter never uses; those can differ (witness), so the files are the same as far as they are read, and of the same length."
  },
  {
   "property": "C78",
   "status": "partial",
   "theorems": [
    "Verif.Props.moved_program_ends_partial",
    "Verif.Props.working_moves_le_partial",
    "Verif.Props.moves_end",
    "Verif.Props.moves_reached",
    "Verif.Props.GoN.trans",
    "Verif.Props.goN_bound",
    "Verif.Props.ckpt_goN",
    "Verif.Props.WriterEx.stuck_violated"
   ],
   "note": "Proved for sessions in which each process may execute at least one instruction (the flag of the atomics build is not raised already at the first look; nothing is asked of the other build, whose throttled poll cannot fire at once), in which tables and data segments are as loaded at the moves (as in C54) and files are below 4 GiB. Without the first condition it is false of the code: WriterEx.stuck_violated gives a program that ends after three calls to the host if left alone, and sessions of any length in which it never gets beyond its first instruction, because a restored process looks at the flag before it executes anything. Without the second C54 itself fails (WriterEx.late_violated). Example: a session of three moves, two of them after a single instruction."
  },
  {
   "property": "C79",
   "status": "partial",
   "theorems": [
    "Verif.Props.session_executes_partial",
    "Verif.Props.session_covered_partial",
    "Verif.Props.ended_session_executes_partial",
    "Verif.Props.executes_total",
    "Verif.Props.executed_before",
    "Verif.Props.stop_goes_on",
    "Verif.Props.run_notes",
    "Verif.Props.disp_notes",
    "Verif.Props.TrM.comparable",
    "Verif.Props.SkipEx.other_path_violated"
   ],
   "note": "Proved for programs with any instructions and sessions of any number of processes of either build, in which tables and data segments are as loaded at the moves (as in C54) and checkpoint files are below 4 GiB: at any moment the instructions executed so far in the session and those of an undisturbed process are one the beginning of the other, and equal when both ended; and any undisturbed process, watched long enough, executes all that the session has executed, even of programs that never end. The lists come from the dispatchers written down once more with a note of every handler called (Model/Executed); whether an instruction that fails has been executed counts as yes. Without the condition on tables it is false of the code: SkipEx.other_path_violated, a program that goes through a branch it never takes when left alone. Example: a session of three processes, stopped twice between calls, two by tail calls and one by the loop."
  },
  {
   "property": "C80",
   "status": "partial",
   "theorems": [
    "Verif.Props.progress_determines_state_partial",
    "Verif.Props.run_is_at",
    "Verif.Props.disp_is_at",
    "Verif.Props.StM.det",
    "Verif.Props.SkipEx.same_progress_other_state_violated"
   ],
   "note": "Proved for any two sessions of a program with any instructions, with any number of processes of either build, in which tables and data segments are as loaded at the moves (as in C54; not at the stops compared) and checkpoint files are below 4 GiB. False of the code without the condition on tables and data segments (witness: the same four instructions, the entry of the table they have emptied is full again in the session that was moved). Not the checkpoint files: between two instructions there are states (before and after returning from a function) whose files differ."
  }
 ]
}