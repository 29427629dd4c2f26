{
 "claims": [
  {
   "property": "C01",
   "status": "proved",
   "theorems": [
    "Verif.TopSort.topSort_is_topological_order"
   ],
   "note": "for start nodes without inputs; see finding topSort_wrong_if_start_has_input under C02"
  },
  {
   "property": "C02",
   "status": "proved",
   "theorems": [
    "Verif.TopSort.topSort_terminates_and_decides_reachability",
    "Verif.TopSort.topSort_wrong_if_start_has_input"
   ],
   "note": ""
  },
  {
   "property": "C03",
   "status": "proved",
   "theorems": [
    "Verif.Dfcxx.api_graph_consistent",
    "Verif.Dfcxx.api_graph_acyclic",
    "Verif.Dfcxx.inputs_are_starts",
    "Verif.Dfcxx.finished_kernel_is_processable",
    "Verif.Dfcxx.read_instance_output_dangles"
   ],
   "note": "All histories of all graph-building calls, instances included. Consistency needs instances to be clean (an output bound to the caller is not read inside the instance): read_instance_output_dangles shows an accepted program that leaves a dangling channel. Acyclicity needs forward connections. finished_kernel_is_processable derives the hypotheses of C01, C13, C24 for every finished kernel the API can build."
  },
  {
   "property": "C04",
   "status": "proved",
   "theorems": [
    "Verif.Dfcxx.operator_operands",
    "Verif.Dfcxx.operands_kept"
   ],
   "note": "Operands are those of the call in call order; later calls keep them, up to replacing a deleted operand (bound instance input, defined shallow variable) by its definition everywhere. Hypothesis: only outputs and shallow variables are connected to."
  },
  {
   "property": "C05",
   "status": "proved",
   "theorems": [
    "Verif.Dfcxx.constants_unique",
    "Verif.Dfcxx.constants_stay",
    "Verif.Dfcxx.constant_request"
   ],
   "note": ""
  },
  {
   "property": "C06",
   "status": "partial",
   "theorems": [
    "Verif.Dfcxx.fold_agrees_with_simulation",
    "Verif.Dfcxx.fold_comparison_value_unsigned_partial",
    "Verif.Dfcxx.fold_signed_comparison_disagrees",
    "Verif.Dfcxx.fold_signed_less_agrees_iff",
    "Verif.Dfcxx.fold_comparison_type_disagrees",
    "Verif.Dfcxx.fold_rawBits_uses_double",
    "Verif.Dfcxx.fold_bin",
    "Verif.Dfcxx.fold_un",
    "Verif.Dfcxx.fold_shift"
   ],
   "note": "Arithmetic/logic folding agrees; comparison folding and raw-bit constants disagree with the simulator - the disagreements are proved"
  },
  {
   "property": "C07",
   "status": "proved",
   "theorems": [
    "Verif.Dfcxx.type_eq_iff",
    "Verif.Dfcxx.totalBits_of_constructors",
    "Verif.Dfcxx.totalBits_dfFloat",
    "Verif.Dfcxx.totalBits_dfFloat_wraps",
    "Verif.Dfcxx.totalBits_dfFloat_not_exact",
    "Verif.Dfcxx.fields_of_constructors"
   ],
   "note": ""
  },
  {
   "property": "C08",
   "status": "proved",
   "theorems": [
    "Verif.Dfcxx.bitsRange_spec",
    "Verif.Dfcxx.bits_rejected_iff"
   ],
   "note": ""
  },
  {
   "property": "C09",
   "status": "proved",
   "theorems": [
    "Verif.Dfcxx.catType_width",
    "Verif.Hw.cat_parts",
    "Verif.Hw.cat_of_ranges",
    "Verif.Hw.bits_select"
   ],
   "note": "Width law in the front end and value law of the lowered hardware."
  },
  {
   "property": "C10",
   "status": "proved",
   "theorems": [
    "Verif.Dfcxx.instance_is_inlined",
    "Verif.Dfcxx.passthrough_handle_dead",
    "Verif.Dfcxx.constant_bound_in_nested_kernel"
   ],
   "note": "Solutions of the resulting equations are exactly the solutions of caller plus instance with the bindings as identities, for every interpretation of the operators. Bound variables must be live and outside the instance; clean, forward instances. Counterexamples outside: a pass-through output bound before its input leaves a dead handle; constants bound in a nested kernel dereference null."
  },
  {
   "property": "C11",
   "status": "proved",
   "theorems": [
    "Verif.Dfcxx.unbound_input_aborts",
    "Verif.Dfcxx.ex_unbound"
   ],
   "note": "After any later history; for every enumeration of the hash sets. Assertions enabled."
  },
  {
   "property": "C12",
   "status": "proved",
   "theorems": [
    "Verif.Dfcxx.check_fails_iff",
    "Verif.Dfcxx.shallow_iff"
   ],
   "note": ""
  },
  {
   "property": "C13",
   "status": "proved",
   "theorems": [
    "Verif.Dfcxx.denotes_unique",
    "Verif.Dfcxx.runSim_computes_dataflow",
    "Verif.Dfcxx.runSim_completes",
    "Verif.Dfcxx.runTicks_computes_dataflow",
    "Verif.Dfcxx.api_kernel_simulates"
   ],
   "note": ""
  },
  {
   "property": "C14",
   "status": "proved",
   "theorems": [
    "Verif.Dfcxx.runSim_order_independent"
   ],
   "note": ""
  },
  {
   "property": "C15",
   "status": "proved",
   "theorems": [
    "Verif.Dfcxx.runSim_failure_iff_unsupported",
    "Verif.Dfcxx.runSim_failed_iff"
   ],
   "note": ""
  },
  {
   "property": "C16",
   "status": "proved",
   "theorems": [
    "Verif.Dfcxx.sim_low_bits_binary",
    "Verif.Dfcxx.sim_low_bits_unary",
    "Verif.Dfcxx.sim_not_modular",
    "Verif.Dfcxx.sim_differs_from_hardware",
    "Verif.Dfcxx.sim_low_bits_graph"
   ],
   "note": ""
  },
  {
   "property": "C17",
   "status": "partial",
   "theorems": [
    "Verif.Dfcxx.comparison_unsigned_correct_partial",
    "Verif.Dfcxx.comparison_signed_correct_iff",
    "Verif.Dfcxx.comparison_signed_wrong"
   ],
   "note": "Signed comparisons of the simulator are wrong; the exact condition under which they are right is proved"
  },
  {
   "property": "C18",
   "status": "proved",
   "theorems": [
    "Verif.Dfcxx.mux_selects",
    "Verif.Dfcxx.mux_allOnes_returns_select"
   ],
   "note": ""
  },
  {
   "property": "C19",
   "status": "proved",
   "theorems": [
    "Verif.Dfcxx.readInput_document",
    "Verif.Dfcxx.hex_value_accepted",
    "Verif.Dfcxx.simulate_document",
    "Verif.Dfcxx.simulate_document_succeeds",
    "Verif.Dfcxx.simulate_file_eq_lines"
   ],
   "note": ""
  },
  {
   "property": "C20",
   "status": "partial",
   "theorems": [
    "Verif.Dfcxx.simulate_over_200_blocks_never_succeeds",
    "Verif.Dfcxx.simulate_document"
   ],
   "note": "The property is false of the code: documents with more than 200 blocks never simulate successfully (proved); proved for at most 200 blocks"
  },
  {
   "property": "C21",
   "status": "proved",
   "theorems": [
    "Verif.Dfcxx.simulate_ticks_consecutive"
   ],
   "note": ""
  },
  {
   "property": "C22",
   "status": "proved",
   "theorems": [
    "Verif.Dfcxx.valueToBinary_text",
    "Verif.Dfcxx.valueToBinary_wide_ub"
   ],
   "note": ""
  },
  {
   "property": "C23",
   "status": "partial",
   "theorems": [
    "Verif.Dfcxx.vcd_ids_unique",
    "Verif.Dfcxx.vcd_ids_collide"
   ],
   "note": "identifiers are unique up to a bound on the number of nodes; collisions beyond it are proved"
  },
  {
   "property": "C24",
   "status": "proved",
   "theorems": [
    "Verif.Dfcxx.translation_preserves",
    "Verif.Dfcxx.undefined_variable_not_translated",
    "Verif.Dfcxx.doubly_connected_output_undriven",
    "Verif.Dfcxx.api_kernel_translates",
    "Verif.Flow.translation_shape"
   ],
   "note": "For every finished graph, order and interpretation of the operators: SSA dominance and equivalence of the equations. Finding: an output connected twice loses its driver."
  },
  {
   "property": "C25",
   "status": "proved",
   "theorems": [
    "Verif.Sched.asap_meets_dependencies",
    "Verif.Sched.schedule_pipeline_correct"
   ],
   "note": ""
  },
  {
   "property": "C26",
   "status": "proved",
   "theorems": [
    "Verif.Sched.asap_minimal",
    "Verif.Sched.asap_tight",
    "Verif.Sched.asap_reported_latency"
   ],
   "note": ""
  },
  {
   "property": "C27",
   "status": "proved",
   "theorems": [
    "Verif.Sched.asap_pipeline_correct",
    "Verif.Sched.schedule_pipeline_correct",
    "Verif.Sched.asap_read_output_delayed_twice",
    "Verif.Sched.scheduled_netlist_runs"
   ],
   "note": "for kernels whose outputs are not read back through a negative offset; outside it the double delay is proved"
  },
  {
   "property": "C28",
   "status": "proved",
   "theorems": [
    "Verif.Sched.lp_pipeline_correct",
    "Verif.Sched.lp_simplex_pipeline_correct",
    "Verif.Sched.lp_vertex_integral",
    "Verif.Sched.lp_optimal_readOutputsTight",
    "Verif.Sched.scheduled_netlist_runs",
    "Verif.Sched.movingSum_optimal_extreme",
    "Verif.Sched.lp_inputs_start"
   ],
   "note": "solver answers are exact rationals; vertices are proved integral"
  },
  {
   "property": "C29",
   "status": "proved",
   "theorems": [
    "Verif.Sched.lp_satisfiable",
    "Verif.Sched.lp_has_optimal_vertex",
    "Verif.Flow.lp_succeeds"
   ],
   "note": "Satisfiable, bounded, and an optimal extreme (hence integral) point exists for every kernel."
  },
  {
   "property": "C30",
   "status": "partial",
   "theorems": [
    "Verif.Sched.lp_failure_is_accepted"
   ],
   "note": "The property is false of the code: a failed solver run is accepted and can give a wrong design (proved)"
  },
  {
   "property": "C31",
   "status": "proved",
   "theorems": [
    "Verif.Sched.asap_and_lp_agree",
    "Verif.Sched.sem_eventually"
   ],
   "note": ""
  },
  {
   "property": "C32",
   "status": "proved",
   "theorems": [
    "Verif.Sched.constants_need_no_buffers",
    "Verif.Sched.constant_buffer_redundant"
   ],
   "note": ""
  },
  {
   "property": "C33",
   "status": "proved",
   "theorems": [
    "Verif.Sched.comb_pipeline_balanced",
    "Verif.Sched.comb_pipeline_finishes",
    "Verif.Ieee.comb_pipeline_finishes_single",
    "Verif.Ieee.single_sane",
    "Verif.Sched.cascades_monotone",
    "Verif.Sched.comb_pipeline_rejects_offsets"
   ],
   "note": "For kernels without stream offsets and without outputs read inside the kernel; on those kernels the pass loops or dereferences null (comb_pipeline_rejects_offsets). Floating-point arithmetic is arbitrary (comb_pipeline_balanced) or satisfies four sign laws (comb_pipeline_finishes), which IEEE single precision does (single_sane), so that the pass finishes on the machine for every number of stages (comb_pipeline_finishes_single)."
  },
  {
   "property": "C34",
   "status": "partial",
   "theorems": [
    "Verif.Sched.comb_outputs_misaligned",
    "Verif.Sched.comb_outputs_aligned_partial"
   ],
   "note": "FALSE of the code: only outputs at the end of a longest dependency chain are delayed by exactly n; comb_outputs_misaligned proves the failure for every n > 0, comb_outputs_aligned_partial the part that holds."
  },
  {
   "property": "C35",
   "status": "partial",
   "theorems": [
    "Verif.Sched.insertBuffer_replaces_exactly",
    "Verif.Sched.insertBuffer_output",
    "Verif.Sched.insertBuffer_wide_operand"
   ],
   "note": "true below 128 operands; false beyond (proved)"
  },
  {
   "property": "C36",
   "status": "partial",
   "theorems": [
    "Verif.Config.latency_honoured_partial",
    "Verif.Config.latency_default",
    "Verif.Config.float_comparison_latency_ignored",
    "Verif.Config.rem_mod_latency_zero",
    "Verif.Config.latency_wraps"
   ],
   "note": "Proved relative to the class of the unit's result. FALSE of the code for floating-point comparisons: the class is taken from the result type, so their *_FLOAT latency is never used (float_comparison_latency_ignored). Latencies are 16 bit and wrap."
  },
  {
   "property": "C37",
   "status": "proved",
   "theorems": [
    "Verif.Hw.unit_names_injective",
    "Verif.Hw.unit_fifo_names_differ",
    "Verif.Hw.units_get_their_own_ports"
   ],
   "note": "Names of functional-unit modules are injective in (operation, operand/result types, latency); FIFO names never collide with unit names; a shared module has the ports of every user."
  },
  {
   "property": "C38",
   "status": "partial",
   "theorems": [
    "Verif.Hw.fifo_names_width_depth_partial",
    "Verif.Hw.fifo_shared_across_signedness",
    "Verif.Flow.api_units"
   ],
   "note": "Width/depth half proved. The full statement (also same FIRRTL type) is false: the FIFO name has no signedness, witness fifo_shared_across_signedness."
  },
  {
   "property": "C39",
   "status": "proved",
   "theorems": [
    "Verif.Hw.fifo_exact_delay"
   ],
   "note": "For every depth L > 0, width, input stream, power-up contents and cycle. Verilog non-blocking semantics modelled in Hw/Stubs.lean."
  },
  {
   "property": "C40",
   "status": "partial",
   "theorems": [
    "Verif.Hw.cast_unit_partial",
    "Verif.Hw.cast_signed_widening_wrong",
    "Verif.Hw.cast_unsigned_to_signed_wrong"
   ],
   "note": "Proved except for (a) pipelined widening casts to a signed type and (b) widening casts from unsigned to signed, where the property is proved false of the generated code."
  },
  {
   "property": "C41",
   "status": "proved",
   "theorems": [
    "Verif.Hw.stub_selection"
   ],
   "note": "For every unit name the compiler can form (all operand types, latencies) the generator picks the operator the name was made for; DIV and NEG are rejected (no module text)."
  },
  {
   "property": "C42",
   "status": "partial",
   "theorems": [
    "Verif.Hw.shl_unsigned",
    "Verif.Hw.shr_unsigned",
    "Verif.Hw.shr_signed",
    "Verif.Hw.shl_signed_partial",
    "Verif.Hw.shl_signed_overflow_wrong",
    "Verif.Hw.shl_signed_not_modular",
    "Verif.Hw.shl_signed_width_one_rejected"
   ],
   "note": "Unsigned shifts and signed right shift proved in full. Signed left shift proved when the product fits; on overflow the lowering keeps the old sign bit (proved different from two's complement)."
  },
  {
   "property": "C43",
   "status": "proved",
   "theorems": [
    "Verif.Std.galois8Mul_is_field_multiplication",
    "Verif.Std.galois8Mul_comm",
    "Verif.Std.galois8Mul_assoc",
    "Verif.Std.galois8Mul_xor_right",
    "Verif.Std.galois8Mul_one",
    "Verif.Std.galois8Mul_invertible",
    "Verif.Std.galois8Mul_cancel"
   ],
   "note": "The value is the remainder of the polynomial product over ZMod 2 modulo x^8+x^7+x^6+x+1; laws derived from it."
  },
  {
   "property": "C44",
   "status": "proved",
   "theorems": [
    "Verif.Std.table_is_product",
    "Verif.Std.table_exists_iff",
    "Verif.Std.opt_constants_have_tables",
    "Verif.Std.kMul_opt_irrelevant",
    "Verif.Std.kuznechik_opt_irrelevant",
    "Verif.Std.mux_in_range",
    "Verif.Std.all_table_lengths"
   ],
   "note": "All 8 x 256 entries; the domain is finite and covered completely by kernel computation."
  },
  {
   "property": "C45",
   "status": "proved",
   "theorems": [
    "Verif.Std.magma_decode_encode",
    "Verif.Std.magma_encode_decode"
   ],
   "note": ""
  },
  {
   "property": "C46",
   "status": "proved",
   "theorems": [
    "Verif.Std.kuznechik_decode_encode",
    "Verif.Std.kuznechik_encode_decode"
   ],
   "note": "Both multiplication back ends."
  },
  {
   "property": "C47",
   "status": "proved",
   "theorems": [
    "Verif.Std.round_constants",
    "Verif.Std.round_constants_count"
   ],
   "note": ""
  },
  {
   "property": "C48",
   "status": "proved",
   "theorems": [
    "Verif.Config.names_round_trip",
    "Verif.Config.unknown_field_harmless"
   ],
   "note": ""
  },
  {
   "property": "C49",
   "status": "proved",
   "theorems": [
    "Verif.Config.output_paths_correct"
   ],
   "note": ""
  },
  {
   "property": "C50",
   "status": "proved",
   "theorems": [
    "Verif.Sched.offset_chain_sum",
    "Verif.Sched.asap_pipeline_correct",
    "Verif.Sched.offset_truncated"
   ],
   "note": ""
  },
  {
   "property": "C51",
   "status": "proved",
   "theorems": [
    "Verif.Dfcxx.malformed_line_discards_everything"
   ],
   "note": ""
  },
  {
   "property": "C52",
   "status": "partial",
   "theorems": [
    "Verif.Sched.asap_reported_latency",
    "Verif.Sched.lp_reported_latency_wrong"
   ],
   "note": "true for ASAP, false for the linear scheduler (proved)"
  },
  {
   "property": "C53",
   "status": "partial",
   "theorems": [
    "Verif.Config.documented_format_ignored",
    "Verif.Config.documented_example_ignored"
   ],
   "note": "FALSE of the code: the reader only looks under the key \"dfcir\"; a file in the documented format is accepted and has no effect. The theorems prove the negation."
  },
  {
   "property": "C54",
   "status": "partial",
   "theorems": [
    "Verif.Hw.arith_unit_partial",
    "Verif.Hw.arith_comb_unsigned_partial",
    "Verif.Hw.compare_unit_partial",
    "Verif.Hw.signed_compare_widths_wrong",
    "Verif.Hw.mixed_sign_add_wrong",
    "Verif.Hw.comb_signed_unit_ill_formed"
   ],
   "note": "Proved for equal signedness and result no wider than the operands (comparisons: unsigned, or signed of equal width). False otherwise, with proved counterexamples; latency-0 units with a signed result are not legal Verilog."
  },
  {
   "property": "C55",
   "status": "partial",
   "theorems": [
    "Verif.Hw.bits_select",
    "Verif.Hw.reversed_range_selects_one_bit"
   ],
   "note": "Proved for the normal order; with the bounds reversed a single bit is selected (proved), so the property is false of the code."
  },
  {
   "property": "C56",
   "status": "proved",
   "theorems": [
    "Verif.Std.magma_encode_is_standard",
    "Verif.Std.magma_decode_is_standard"
   ],
   "note": "Equivalence with a relational specification in the notation of RFC 8891."
  },
  {
   "property": "C57",
   "status": "proved",
   "theorems": [
    "Verif.Std.kuznechik_encode_is_standard",
    "Verif.Std.kuznechik_decode_is_standard"
   ],
   "note": "Equivalence with a relational specification in the notation of RFC 7801, the linear map over ZMod 2 polynomials; the substitution table is shared data."
  },
  {
   "property": "C58",
   "status": "proved",
   "theorems": [
    "Verif.Flow.asap_compile_computes",
    "Verif.Flow.lp_compile_computes",
    "Verif.Flow.comb_compile_computes",
    "Verif.Flow.ex_compiles",
    "Verif.Flow.vertex_compile_computes"
   ],
   "note": "Whole tool chain: API history, topological sort, DFCIR builder, applyConfig, scheduling, buffers, FIRRTL conversion, generated library modules. Restricted (Handled) to the operators and types for which the tool chain is right: see C38, C40-C42, C54 for what goes wrong outside; the LP version is for optimal extreme points (what the simplex method returns)."
  },
  {
   "property": "C59",
   "status": "proved",
   "theorems": [
    "Verif.Flow.asap_simulation_predicts",
    "Verif.Flow.lp_simulation_predicts",
    "Verif.Flow.comb_simulation_predicts",
    "Verif.Flow.denotes_stream",
    "Verif.Flow.ex_predicts",
    "Verif.Flow.simulation_accepted",
    "Verif.Flow.ex_accepted"
   ],
   "note": "The agreement conditions (SimAgrees) exclude the operators where simulator and hardware differ (C40, C42, C54 and notes); documents over 200 steps are covered by C20. simulation_accepted: the simulator does accept every document whose values fit, when arithmetic is unsigned and multiplexers are full (for kernels without scalar inputs)."
  },
  {
   "property": "C60",
   "status": "proved",
   "theorems": [
    "Verif.Dfcxx.call_returns",
    "Verif.Dfcxx.cast_same",
    "Verif.Dfcxx.bits_rejected_iff",
    "Verif.Dfcxx.offset_rejected_iff",
    "Verif.Dfcxx.call_home"
   ],
   "note": "Table Cmd.result in Dfcxx/CallSpec.lean."
  },
  {
   "property": "C61",
   "status": "proved",
   "theorems": [
    "Verif.Flow.api_block_verifies_iff",
    "Verif.Flow.api_scheduled_verifies",
    "Verif.Flow.handled_dialect",
    "Verif.Flow.exScalarNot_rejected",
    "Verif.Flow.exScalarMux_rejected"
   ],
   "note": "Exact characterisation. The natural stronger claim (every kernel accepted by check() verifies) is false: exScalarNot_rejected, exScalarMux_rejected. The constraints are transcribed from DFCIROperations.td; the generated verifier itself (MLIR TableGen) is trusted."
  },
  {
   "property": "C62",
   "status": "proved",
   "theorems": [
    "Verif.Kernels.galois8Mul_hardware",
    "Verif.Kernels.kuznGalois_hardware",
    "Verif.Kernels.kuznGalois_other_aborts"
   ],
   "note": "The constructors as code over the API state machine (Kernels/Model.lean), run from the initial state; a Hoare logic over API histories gives every stream as a function of the inputs, Compiled (Flow/Compiled.lean) covers all designs the three passes may produce, and the result is compared with polynomial multiplication. C++'s unspecified evaluation order is taken left to right."
  },
  {
   "property": "C63",
   "status": "proved",
   "theorems": [
    "Verif.Kernels.magmaEncoder_hardware",
    "Verif.Kernels.magmaDecoder_hardware"
   ],
   "note": "As C62; the result is related to an independent transcription of GOST R 34.12-2015 (Std/GostProps.lean, namespace Gost)."
  },
  {
   "property": "C64",
   "status": "proved",
   "theorems": [
    "Verif.Kernels.kuznechikEncoder_hardware",
    "Verif.Kernels.kuznechikDecoder_hardware"
   ],
   "note": "As C63, including the instances of the multiplier kernels (begin, constructor, bind, transfer) in both variants. Only as the top kernel: the constants the cipher makes live in kernel 0."
  },
  {
   "property": "C65",
   "status": "proved",
   "theorems": [
    "Verif.Dot.dot_draws_the_kernel",
    "Verif.Dot.Shows.counts",
    "Verif.Dot.ex_dot",
    "Verif.Dot.dot_name_collision",
    "Verif.Dot.dot_template"
   ],
   "note": "For every well-used history and every enumeration. The collision when a port is called node<k> is shown by dot_name_collision; text rendering (template) is modelled by dotText."
  },
  {
   "property": "C66",
   "status": "proved",
   "theorems": [
    "Verif.Driver.run_writes_artefacts",
    "Verif.Driver.artefact_independent",
    "Verif.Driver.toy_sensible",
    "Verif.Driver.toy_run",
    "Verif.Driver.same_path_clash"
   ],
   "note": "For all behaviours of the stages (parameters of the model). Paths must be distinct (same_path_clash) and openable."
  },
  {
   "property": "C67",
   "status": "proved",
   "theorems": [
    "Verif.Text.print_parse",
    "Verif.Text.print_inj",
    "Verif.Text.api_text_parses",
    "Verif.Text.api_text_inj",
    "Verif.Text.lex_render",
    "Verif.Text.parse_ok",
    "Verif.Text.parse_print_parse",
    "Verif.Text.pArg_sound",
    "Verif.Text.readInt_value",
    "Verif.Text.const_text"
   ],
   "note": "for every way of combining two equal latencies; texts of generic-form operations (which fail the verifier), float attributes and discardable attributes are outside the modelled syntax. Also soundness of the reader: any accepted byte text is a well-formed file, and parse after print after parse is parse"
  },
  {
   "property": "C68",
   "status": "proved",
   "theorems": [
    "Verif.Flow.asap_compile_hw",
    "Verif.Flow.lp_compile_hw",
    "Verif.Flow.comb_compile_hw",
    "Verif.Flow.compiled_hw",
    "Verif.Hw.arith_unit_exact",
    "Verif.Hw.compare_unit_exact",
    "Verif.Hw.cast_unit_exact",
    "Verif.Flow.hwVal_unique",
    "Verif.Flow.hwVal_total",
    "Verif.Flow.hwVal_lt",
    "Verif.Flow.hwVal_of_streamVal",
    "Verif.Flow.supported_agree",
    "Verif.Flow.hwShl_signed",
    "Verif.Flow.hw_compiled",
    "Verif.Flow.hw_not_handled",
    "Verif.Flow.vertex_compile_hw"
   ],
   "note": "Kernels with the hardware meaning HwVal, all widths and signednesses; buffers of one width and depth must not mix signednesses (C38). Example hw_compiled: a kernel outside C58 whose output is 14 where the operators mean -2. Floating-point types are covered (as integer units on the patterns; C92)."
  },
  {
   "property": "C69",
   "status": "proved",
   "theorems": [
    "Verif.Flat.addConst_realizes",
    "Verif.Flat.polynomial2_realizes",
    "Verif.Flat.scalar3_realizes",
    "Verif.Flat.matrixMul2_realizes",
    "Verif.Flat.muxMul_realizes",
    "Verif.Flat.movingSum_realizes"
   ],
   "note": "MovingSum: element 0 is not defined (reads before the first element); the combinational pass does not support offsets"
  },
  {
   "property": "C70",
   "status": "proved",
   "theorems": [
    "Verif.Flat.rowIdct_realizes"
   ],
   "note": "signed arithmetic needs at least one stage (C38: zero-stage signed units are wired wrongly); the combinational pass creates only zero-stage units"
  },
  {
   "property": "C71",
   "status": "proved",
   "theorems": [
    "Verif.Flat.idct_realizes",
    "Verif.Flat.packed_get"
   ],
   "note": "All 2^768 blocks. The 12-bit slices are raw bits but the hardware cast to a signed type sign-extends them (C40), which is what makes the design work. Streams of width 576 exist in both signednesses; that no buffer is shared between them is proved for both schedulers (Sched/Calm, Flow/Exempt). What the 13-bit intermediate values do to large coefficients: C72."
  },
  {
   "property": "C72",
   "status": "partial",
   "theorems": [
    "Verif.Flat.idct2D_accurate_partial",
    "Verif.Flat.idct_port_accurate_partial",
    "Verif.Flat.idctRow_accurate",
    "Verif.Flat.idct2D_dc",
    "Verif.Flat.idct2D_inaccurate",
    "Verif.Flat.idct_port_inaccurate"
   ],
   "note": "False of the code: intermediate values of the row pass are cast to 13 bits (WIM), although a 12-bit coefficient yields up to 15 bits and more. A flat block with first coefficient d shows d mod 1024 instead of d (idct2D_dc), so every flat block with d outside -512..511 is wrong at all 64 samples by more than 127 of 512 levels (idct_port_inaccurate). Proved: all blocks in which the magnitudes of each row of coefficients add up to at most 369 are decoded with an error below one (0.87); 369 is what 13 bits allow for the first cosine. For RowIDCT: rows with magnitudes that add up to at most 2950 (beyond, the 16-bit results or the 32-bit arithmetic overflow)."
  },
  {
   "property": "C73",
   "status": "proved",
   "theorems": [
    "Verif.Kernels.exampleEncoder_hardware",
    "Verif.Kernels.exampleDecoder_hardware"
   ],
   "note": "The model of kuznechik.h with the two places in which the examples differ as parameters (Kernels/Model.lean, Variant); Realizes states that construction and compilation succeed for every file and that every design shows the standard's relation."
  },
  {
   "property": "C74",
   "status": "proved",
   "theorems": [
    "Verif.Kernels.chain_hardware",
    "Verif.Kernels.chain_contract",
    "Verif.Kernels.polynomial2Inst_hardware",
    "Verif.Kernels.polynomial2_chain_hardware"
   ],
   "note": "What a kernel computes as an instance is the predicate Contract (Kernels/Inst.lean) of its constructor; polynomial2_computes and kuznGalois_computes give stages, chain_contract makes a chain a stage. One input and one output of one width per stage."
  },
  {
   "property": "C75",
   "status": "proved",
   "theorems": [
    "Verif.Cli.documented_runs",
    "Verif.Cli.undocumented_refused",
    "Verif.Cli.documented_writes",
    "Verif.Cli.undocumented_writes_nothing",
    "Verif.Cli.order_irrelevant",
    "Verif.Cli.means_unique",
    "Verif.Cli.help_stops",
    "Verif.Cli.general_stops",
    "Verif.Cli.sim_documented",
    "Verif.Cli.readme_runs",
    "Verif.Cli.twoSchedulers_refused",
    "Verif.Cli.pipeline_plus_refused"
   ],
   "note": "For every list of written options; the values written as separate arguments must not be empty, begin with a dash, or be one of hls, sim, ++ (Spec.Plain; C76 shows why). Numbers of stages are decimal numbers below 2^64 or certainly no numbers. The stages of the compiler are parameters, as in C66."
  },
  {
   "property": "C76",
   "status": "partial",
   "theorems": [
    "Verif.Cli.misread_refused_partial",
    "Verif.Cli.negative_stages_accepted",
    "Verif.Cli.tooBig_stages_accepted",
    "Verif.Cli.octal_stages",
    "Verif.Cli.mode_name_not_taken",
    "Verif.Cli.empty_path_accepted",
    "Verif.Cli.no_mode_simulates",
    "Verif.Cli.second_mode_ignored",
    "Verif.Cli.mark_loses_scheduler",
    "Verif.Cli.minus_one"
   ],
   "note": "False of the program: --pipeline -k is accepted as 2^64-k stages, numbers that do not fit become 2^64-1, leading zeros mean octal; a path called hls or sim is silently replaced by the default; an empty path passes as an output; without a mode the kernel is simulated; with both modes sim is ignored; after -- the choice of the scheduler is lost. Each is proved for all such lines. Proved: lines made of written options with decimal numbers are either refused or do what they say."
  },
  {
   "property": "C77",
   "status": "proved",
   "theorems": [
    "Verif.Flat.addConst_simulates",
    "Verif.Flat.polynomial2_simulates",
    "Verif.Flat.scalar3_simulates",
    "Verif.Flat.matrixMul2_simulates",
    "Verif.Flat.muxMul_simulates",
    "Verif.Flat.movingSum_never",
    "Verif.Flat.rowIdct_never",
    "Verif.Flat.idct_never",
    "Verif.Flat.magmaEncoder_never",
    "Verif.Flat.magmaDecoder_never",
    "Verif.Flat.kuznechikEncoder_never",
    "Verif.Flat.kuznechikDecoder_never",
    "Verif.Flat.exampleDecoder_never",
    "Verif.Flat.muxMul_example",
    "Verif.Vcd.polynomial2Inst_simulates",
    "Verif.Vcd.galois8Mul_never"
   ],
   "note": "Specification: Simulates and NeverSimulates in Flat/Simulate.lean, Renders/BinText in Dfcxx/SimIOSpec.lean, DocFits/docPort in Flow/SimTotal.lean. The functions are literally those of addConst_realizes etc. (C69). NeverSimulates covers crashes and undefined behaviour as well as reported failure: 'never writes a step'."
  },
  {
   "property": "C78",
   "status": "proved",
   "theorems": [
    "Verif.Whole.tool_schedules",
    "Verif.Whole.tool_pipelines",
    "Verif.Whole.delivered_dfcir",
    "Verif.Whole.offsets_need_a_scheduler",
    "Verif.Whole.addConst_tool",
    "Verif.Whole.polynomial2_tool",
    "Verif.Whole.muxMul_tool",
    "Verif.Whole.movingSum_tool",
    "Verif.Whole.rowIdct_tool",
    "Verif.Whole.idct_tool",
    "Verif.Whole.galois8Mul_tool",
    "Verif.Whole.magmaEncoder_tool",
    "Verif.Whole.magmaDecoder_tool",
    "Verif.Whole.kuznechikEncoder_tool",
    "Verif.Whole.kuznechikDecoder_tool",
    "Verif.Whole.exampleEncoder_tool",
    "Verif.Whole.movingSum_needs_a_scheduler",
    "Verif.Whole.scalar3_tool",
    "Verif.Whole.matrixMul2_tool",
    "Verif.Whole.exampleDecoder_tool",
    "Verif.Whole.polynomial2Inst_tool"
   ],
   "note": "Composition of C58/C68 (compilation), C66 (driver), C67 (text), C75 (command line) and the kernels (C62-C64, C69-C73). Assumed of the environment (Env.Fair): hash tables list each element once, the LP solver answers an optimal vertex, single precision is sane; CIRCT is arbitrary. Environments as assumed exist (sampleEnv_fair)."
  },
  {
   "property": "C79",
   "status": "proved",
   "theorems": [
    "Verif.Vcd.sim_mode",
    "Verif.Vcd.simulation_reads",
    "Verif.Vcd.read_text",
    "Verif.Vcd.dump_shows",
    "Verif.Vcd.text_eq",
    "Verif.Vcd.parse_template",
    "Verif.Vcd.simLine_runs",
    "Verif.Vcd.sim_without_input",
    "Verif.Vcd.sim_fails",
    "Verif.Vcd.sim_unwritable_output",
    "Verif.Vcd.sim_same_file",
    "Verif.Vcd.blank_name_unreadable",
    "Verif.Vcd.addConst_sim",
    "Verif.Vcd.polynomial2_sim",
    "Verif.Vcd.scalar3_sim",
    "Verif.Vcd.matrixMul2_sim",
    "Verif.Vcd.muxMul_sim",
    "Verif.Vcd.addConst_sim_example",
    "Verif.Vcd.polynomial2Inst_sim"
   ],
   "note": "The text is computed by the model of the template engine from the template's own text; the reader (Vcd/Spec.lean) is independent of it. The engine (ctemplate) is modelled from its documentation."
  },
  {
   "property": "C80",
   "status": "proved",
   "theorems": [
    "Verif.Vlog.lib_read",
    "Verif.Vlog.lib_names",
    "Verif.Vlog.inst_iff",
    "Verif.Vlog.circuit_modules",
    "Verif.Vlog.library_runs",
    "Verif.Vlog.scheduled_library",
    "Verif.Vlog.compiled_library",
    "Verif.Vlog.library_computes",
    "Verif.Vlog.library_scheduled_computes",
    "Verif.Vlog.library_hw",
    "Verif.Vlog.tool_library_scheduled",
    "Verif.Vlog.tool_library_compiled",
    "Verif.Vlog.combBinary_illegal",
    "Verif.Vlog.ex_fit",
    "Verif.Vlog.ex_fifo_delays",
    "Verif.Vlog.ex_bad_never_runs",
    "Verif.Vlog.ex_library",
    "Verif.Vlog.writesLibrary_exists"
   ],
   "note": "Specification: Vlog/Spec (reader and two-valued cycle semantics of a Verilog subset) and Vlog/LibSpec. Latencies above 2^31 excluded (the loop variable is a 32-bit integer)."
  },
  {
   "property": "C81",
   "status": "proved",
   "theorems": [
    "Verif.Sdf.scheduled_text_same",
    "Verif.Sdf.scheduled_text_transports",
    "Verif.Sdf.scheduled_text_computes",
    "Verif.Sdf.text_shows",
    "Verif.Sdf.movingSum_text",
    "Verif.Sdf.rowIdct_text",
    "Verif.Sdf.idct_text",
    "Verif.Sdf.movingSum_scheduled",
    "Verif.Sdf.movingSum_pass",
    "Verif.Whole.delivered_scheduled"
   ],
   "note": "Buffers must be shorter than 2^31 cycles, which C82 shows for modest kernels. The text is that of a build of MLIR without assertions (getSInt on a signless attribute asserts otherwise). For the inverse DCT kernels this is discharged from their size (flat_modest), no assumption left."
  },
  {
   "property": "C82",
   "status": "proved",
   "theorems": [
    "Verif.Sched.asap_fits",
    "Verif.Sched.asap_deltas_fit",
    "Verif.Sched.asap_buffers_fit",
    "Verif.Sched.Modest.nearest",
    "Verif.Sched.lp_no_gap",
    "Verif.Sched.lp_times_bound",
    "Verif.Sched.lp_buffers_fit",
    "Verif.Sdf.Pass.fits",
    "Verif.Sdf.movingSum_modest",
    "Verif.Sched.asap_overflows",
    "Verif.Sched.offsets_overflow",
    "Verif.Sdf.flat_modest",
    "Verif.Vlog.compiled_bounded",
    "Verif.Kernels.Adds.nodes"
   ],
   "note": "Bound sufficient, not necessary. For the linear scheduler the answer is assumed to be a vertex; lp_solve's own arithmetic is in doubles and not modelled."
  },
  {
   "property": "C83",
   "status": "partial",
   "theorems": [
    "Verif.Sched.lp_least_partial",
    "Verif.Sched.lp_not_more_than_asap_partial",
    "Verif.Sched.lp_inserts_more",
    "Verif.Sched.lp_inserts_more_offset"
   ],
   "note": "The full statement is false: lp_inserts_more (shared constant) and lp_inserts_more_offset (operand from the past) hold for every optimal integral answer. The true part has hypotheses SoleConstants and Ordered. Assumes lp_solve keeps the objective although it is set before the columns exist."
  },
  {
   "property": "C84",
   "status": "proved",
   "theorems": [
    "Verif.Sdf.ports_of_kernel",
    "Verif.Sdf.ports_perm",
    "Verif.Sdf.ports_of_circuit",
    "Verif.Sdf.ports_distinct",
    "Verif.Sdf.port_order_varies",
    "Verif.Sdf.port_names_clash"
   ],
   "note": "For finished kernels whose offsets fit 32 bits and whose outputs are not read inside the kernel. port_order_varies and port_names_clash prove what does not hold."
  },
  {
   "property": "C85",
   "status": "proved",
   "theorems": [
    "Verif.Dfcxx.no_use_after_free",
    "Verif.Dfcxx.freed_exactly_once",
    "Verif.Dfcxx.heap_exec_world",
    "Verif.Dfcxx.heap_of_hist",
    "Verif.Dfcxx.ex_leaks",
    "Verif.Dfcxx.unclean_instance_dangles"
   ],
   "note": "Accounts of every delete; over all clean histories. Leaks and the unclean case are proved as findings."
  },
  {
   "property": "C86",
   "status": "proved",
   "theorems": [
    "Verif.Dfcxx.oldest_is_top",
    "Verif.Dfcxx.all_destroyed_fresh",
    "Verif.Dfcxx.oldest_destroyed_first",
    "Verif.Dfcxx.second_kernel_constants",
    "Verif.Dfcxx.second_kernel_example"
   ],
   "note": "The two static variables over all lifetimes; the negations for side-by-side kernels are proved as findings."
  },
  {
   "property": "C87",
   "status": "proved",
   "theorems": [
    "Verif.Vlog.addConst_library",
    "Verif.Vlog.polynomial2_library",
    "Verif.Vlog.scalar3_library",
    "Verif.Vlog.matrixMul2_library",
    "Verif.Vlog.muxMul_library",
    "Verif.Vlog.movingSum_library",
    "Verif.Vlog.rowIdct_library",
    "Verif.Vlog.idct_library",
    "Verif.Vlog.galois8Mul_library",
    "Verif.Vlog.magmaEncoder_library",
    "Verif.Vlog.magmaDecoder_library",
    "Verif.Vlog.kuznechikEncoder_library",
    "Verif.Vlog.kuznechikDecoder_library",
    "Verif.Vlog.exampleEncoder_library",
    "Verif.Vlog.exampleDecoder_library",
    "Verif.Vlog.polynomial2Inst_library",
    "Verif.Vlog.compiled_bounded",
    "Verif.Vlog.modestWith_of",
    "Verif.Kernels.Adds.nodes",
    "Verif.Vlog.libraryEnv_fair",
    "Verif.Vlog.libraryEnv_writes",
    "Verif.Vlog.library_line"
   ],
   "note": "Composition of C78 and C80 with size bounds of the kernels (Kernels/Size). Assumed: Env.Fair, WritesLibrary (the generator writes the external modules of the circuit in some order, time stamp on one line), CIRCT's verifier accepts; the library environment exists (libraryEnv_fair, libraryEnv_writes)."
  },
  {
   "property": "C88",
   "status": "partial",
   "theorems": [
    "Verif.Dot.dot_reads_partial",
    "Verif.Dot.delivered_dot_reads_partial",
    "Verif.Dot.dot_reserved",
    "Verif.Dot.read_text",
    "Verif.Dot.ex_reads",
    "Verif.Dot.demo_read",
    "Verif.Dot.demo_reserved",
    "Verif.Dot.collision_read"
   ],
   "note": "Proved for kernels whose own name and port names are words DOT does not reserve, with distinct port names none of which has the form node<number>. Without these conditions it is false of the code, proved: dot_reserved (a reserved name anywhere on an arrow, or as the name of the kernel: the file is not DOT), demo_reserved, collision_read (a port called node0 is merged with another node). The reader (Dot/Read.lean) is written from the Graphviz documentation."
  },
  {
   "property": "C89",
   "status": "proved",
   "theorems": [
    "Verif.Json.parse_iff",
    "Verif.Json.value_unique",
    "Verif.Json.lookup_object",
    "Verif.Json.sorted_object",
    "Verif.Json.latency_of_file",
    "Verif.Json.latency_without_file",
    "Verif.Json.fileLatency_doc",
    "Verif.Json.startup_of_file",
    "Verif.Json.not_json_aborts",
    "Verif.Json.add2mul3_latency",
    "Verif.Json.shipped_startup",
    "Verif.Json.odd_values",
    "Verif.Json.fractions",
    "Verif.Json.last_counts",
    "Verif.Json.not_json",
    "Verif.Json.docOf_ok",
    "Verif.Json.docOf_latency",
    "Verif.Json.fileLatency_iff",
    "Verif.Json.startup_iff",
    "Verif.Json.startup_throws",
    "Verif.Ieee.machine_finite",
    "Verif.Ieee.machine_stages",
    "Verif.Ieee.strtod_nearest",
    "Verif.Ieee.fractions_machine"
   ],
   "note": "Acceptance and value of every file by completeness and soundness of lexer and parser against the grammar; doubles are abstract there; with strtod rounding to nearest a number is accepted exactly if its absolute value is below 2^1024-2^970, and a latency is the rounded number cut off (machine_finite, machine_stages). Findings: true is read as latency 1, -1 as 65535, 70000 as 4464; a malformed file ends the program with an uncaught exception; text after a zero byte is ignored; a member external that is not made of numbers is fatal although unused. Json/Exact: the exact set of files that are read and their latencies, whatever the types of their members (fileLatency_iff, startup_iff)."
  },
  {
   "property": "C90",
   "status": "proved",
   "theorems": [
    "Verif.Whole.process_schedules",
    "Verif.Whole.process_pipelines",
    "Verif.Whole.ToolMakes.process",
    "Verif.Whole.simulates_process",
    "Verif.Whole.process_unset",
    "Verif.Whole.process_unusable",
    "Verif.Whole.process_sim",
    "Verif.Whole.disk_settings",
    "Verif.Whole.disk_loaded",
    "Verif.Whole.process_refused"
   ],
   "note": "C78/C77/C75 composed with C89: everything from file bytes and argv to exit code and files. Assumed of the environment as in C78 (Env.Fair), CIRCT arbitrary; a file that is there can be opened for reading; files are strings of bytes. Findings: with an unusable config.json even --help ends with an uncaught exception; an unusable latency file ends the process before anything is written."
  },
  {
   "property": "C91",
   "status": "partial",
   "theorems": [
    "Verif.Ieee.kernel_doubles_partial",
    "Verif.Ieee.double_nodes_partial",
    "Verif.Ieee.double_negation",
    "Verif.Ieee.double_comparisons_partial",
    "Verif.Ieee.double_add",
    "Verif.Ieee.double_sub",
    "Verif.Ieee.double_mul",
    "Verif.Ieee.double_div",
    "Verif.Ieee.Fmt.is_unique",
    "Verif.Ieee.comparison_of_negative_wrong",
    "Verif.Ieee.equality_wrong",
    "Verif.Ieee.binary32_wrong",
    "Verif.Ieee.float_finished",
    "Verif.Ieee.fold_value",
    "Verif.Ieee.fold_floats",
    "Verif.Ieee.fold_negated",
    "Verif.Ieee.integer_literal_wrong"
   ],
   "note": "Proved: all arithmetic of dfFloat(11, 52) (kernel_doubles_partial, for the kernels of the API; is_unique: the specification leaves one result), and comparisons of finite numbers without a minus sign. False and refuted: comparisons of negative numbers, NaN and -0, because the comparison node has boolean type and the simulator compares the bit patterns as unsigned integers (-1 < 1 is 0, NaN == NaN is 1, 0 == -0 is 0); other formats are computed as if they were binary64 (dfFloat(8, 23): 1 + 1 = 1.7e38). Trusted: float and double of the platform are IEEE with rounding to nearest. Expressions of floating-point constants are computed while the kernel is built, exactly, comparisons included (fold_floats, fold_negated); a literal without a decimal point is not converted (integer_literal_wrong: 1 as a double constant is 2^-1074)."
  },
  {
   "property": "C92",
   "status": "partial",
   "theorems": [
    "Verif.Ieee.double_hardware_partial",
    "Verif.Ieee.double_hardware",
    "Verif.Ieee.patterns_wrong",
    "Verif.Ieee.hardware_floats_wrong",
    "Verif.Ieee.dbl_finished",
    "Verif.Ieee.dbl_handled",
    "Verif.Flow.compiled_hw",
    "Verif.Ieee.float_units"
   ],
   "note": "False of the program, refuted for + - * < ==: dfcir.float becomes UInt and the units are integer units, so in every design any pass may produce for z = x op y on doubles the output is the integer operation on the patterns (double_hardware): 1 + 1 = 8.99e307, 2 - 1 = 2.2e-308, 1 * 1 = 0, -1 < 1 is 0, 0 == -0 is 0 (hardware_floats_wrong, every latency configuration and time). Proved part (double_hardware_partial): < and == of finite numbers without a sign. In general, float_units with compiled_hw (C68): in every kernel and format the stream of + - * < == on floating-point streams is the integer operation on the patterns; / and unary minus have no hardware (C41), floating-point constants end the tool or are integers (DFCIRToFIRRTLPass.cpp:300-310), not modelled."
  }
 ]
}