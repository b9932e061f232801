{
 "claims": [
  {
   "property": "C01",
   "status": "proved",
   "theorems": [
    "Verif.Timing.asap_satisfies_constraints"
   ],
   "note": ""
  },
  {
   "property": "C02",
   "status": "proved",
   "theorems": [
    "Verif.Timing.default_adds_timed",
    "Verif.Timing.default_adds_sequential",
    "Verif.Timing.default_adds_prefix_sums"
   ],
   "note": ""
  },
  {
   "property": "C03",
   "status": "proved",
   "theorems": [
    "Verif.Timing.times_nonneg",
    "Verif.Timing.normalize_is_translation",
    "Verif.Timing.earliest_start_zero"
   ],
   "note": ""
  },
  {
   "property": "C04",
   "status": "proved",
   "theorems": [
    "Verif.Timing.alap_satisfies_constraints",
    "Verif.Timing.alap_rejects_several"
   ],
   "note": ""
  },
  {
   "property": "C05",
   "status": "proved",
   "theorems": [
    "Verif.Timing.asap_is_least",
    "Verif.Timing.order_independent"
   ],
   "note": ""
  },
  {
   "property": "C06",
   "status": "proved",
   "theorems": [
    "Verif.Timing.bad_references_rejected",
    "Verif.Timing.circular_is_typeError",
    "Verif.Timing.good_references_timed"
   ],
   "note": ""
  },
  {
   "property": "C07",
   "status": "proved",
   "theorems": [
    "Verif.Timing.duration_is_latest_end"
   ],
   "note": ""
  },
  {
   "property": "C08",
   "status": "partial",
   "theorems": [
    "Verif.Timing.asap_idempotent_partial",
    "Verif.Timing.retiming_not_idempotent",
    "Verif.Timing.retiming_adds_delay_again"
   ],
   "note": "The full statement is false of the code: retiming_not_idempotent and retiming_adds_delay_again are witnesses. Proved when no operation imposes a delay and the first run did not shift the times."
  },
  {
   "property": "C11",
   "status": "proved",
   "theorems": [
    "Verif.Q1.registers_partition",
    "Verif.Q1.alloc_returns_unused",
    "Verif.Q1.alloc_fails_iff_all_used",
    "Verif.Q1.free_then_alloc",
    "Verif.Q1.free_available_refused",
    "Verif.Q1.free_R64_accepted"
   ],
   "note": "Finding free_R64_accepted: the register R64, which does not exist, is accepted by free_register (off-by-one in the check)."
  },
  {
   "property": "C12",
   "status": "proved",
   "theorems": [
    "Verif.Q1.auto_wait_exact",
    "Verif.Q1.auto_wait_accepts",
    "Verif.Q1.auto_wait_zero",
    "Verif.Q1.auto_wait_in_range",
    "Verif.Q1.auto_wait_short_rest"
   ],
   "note": "Waits up to 65532 * 2^32 ns. Finding auto_wait_short_rest: the rest may be below the hardware minimum of 4 ns."
  },
  {
   "property": "C13",
   "status": "proved",
   "theorems": [
    "Verif.Q1.loops_exact",
    "Verif.Q1.loop_event_count",
    "Verif.Q1.loop_zero_runs"
   ],
   "note": "Finding loop_zero_runs: zero repetitions run 2^32 times."
  },
  {
   "property": "C14",
   "status": "proved",
   "theorems": [
    "Verif.Q1.program_correct",
    "Verif.Q1.program_correct_unique",
    "Verif.Q1.program_trace_plain",
    "Verif.Q1.iterate_events",
    "Verif.Q1.late_operation_rejected",
    "Verif.Q1.too_long_rejected",
    "Verif.Q1.parse_fuel"
   ],
   "note": "For conditionals with plain bodies within the limits of C15."
  },
  {
   "property": "C15",
   "status": "partial",
   "theorems": [
    "Verif.Q1.conditional_same_time_partial",
    "Verif.Q1.program_time_independent",
    "Verif.Q1.nested_conditional_rejected",
    "Verif.Q1.conditional_long_differs",
    "Verif.Q1.conditional_loop_differs",
    "Verif.Q1.conditional_short_gap_differs",
    "Verif.Q1.conditional_ttl_differs"
   ],
   "note": "The full statement is false of the code (four witnesses). Proved for plain bodies of at most 65528 ns with gaps of 0 or at least 4 ns and correctly counted operations."
  },
  {
   "property": "C32",
   "status": "proved",
   "theorems": [
    "Verif.Q1.append_bins",
    "Verif.Q1.append_bins_repetition"
   ],
   "note": ""
  },
  {
   "property": "C33",
   "status": "proved",
   "theorems": [
    "Verif.Q1.invert_is_negation",
    "Verif.Q1.invert_involution",
    "Verif.Q1.mask_selects",
    "Verif.Q1.mask_of_duplicates"
   ],
   "note": ""
  },
  {
   "property": "C35",
   "status": "proved",
   "theorems": [
    "Verif.Q1.sequencers_in_step"
   ],
   "note": ""
  },
  {
   "property": "C18",
   "status": "proved",
   "theorems": [
    "Verif.AcqBins.channels_own_indices",
    "Verif.AcqBins.bins_disjoint",
    "Verif.AcqBins.declared_exact",
    "Verif.AcqBins.declared_iff_granted",
    "Verif.AcqBins.lookup_finds",
    "Verif.AcqBins.lookup_injective",
    "Verif.AcqBins.lookup_sound",
    "Verif.AcqBins.failed_request_changes_nothing",
    "Verif.AcqBins.new_channel_accepted_iff",
    "Verif.AcqBins.one_trace_channel",
    "Verif.AcqBins.second_trace_refused",
    "Verif.AcqBins.two_traces_granted",
    "Verif.AcqBins.more_bins_than_memory",
    "Verif.AcqBins.trace_after_bins_overlaps",
    "Verif.AcqBins.empty_request_shares_index"
   ],
   "note": "For requests with at least one acquisition and repetition. Findings: capacity check ignores repetitions; whole-index requests on a channel with bins overlap; empty requests do not occupy their index."
  },
  {
   "property": "C26",
   "status": "proved",
   "theorems": [
    "Verif.Numeric.grid_time_iff",
    "Verif.Numeric.grid_time_rejected",
    "Verif.Numeric.grid_time_mono",
    "Verif.Numeric.is_multiple_iff",
    "Verif.Numeric.grid_time_not_additive"
   ],
   "note": "Exact rationals instead of floats. Finding: acceptance is not closed under addition."
  },
  {
   "property": "C28",
   "status": "proved",
   "theorems": [
    "Verif.Numeric.nco_phase",
    "Verif.Numeric.nco_phase_periodic",
    "Verif.Numeric.nco_phase_full_turn",
    "Verif.Numeric.nco_freq"
   ],
   "note": ""
  },
  {
   "property": "C34",
   "status": "proved",
   "theorems": [
    "Verif.Numeric.amplitude_range",
    "Verif.Numeric.amplitude_mono"
   ],
   "note": ""
  },
  {
   "property": "C36",
   "status": "proved",
   "theorems": [
    "Verif.Numeric.freqs_mixed",
    "Verif.Numeric.freqs_unmixed"
   ],
   "note": ""
  },
  {
   "property": "C37",
   "status": "proved",
   "theorems": [
    "Verif.Numeric.fine_delay"
   ],
   "note": ""
  },
  {
   "property": "C27",
   "status": "proved",
   "theorems": [
    "Verif.Waves.indices_unique",
    "Verif.Waves.shared_iff_equal",
    "Verif.Waves.index_names_waveform",
    "Verif.Waves.indices_dense",
    "Verif.Waves.validate_iff",
    "Verif.Waves.round12_close"
   ],
   "note": "Assumes the hash used as key is injective on the rounded samples; waveforms equal after rounding to 12 digits share an entry."
  },
  {
   "property": "C38",
   "status": "proved",
   "theorems": [
    "Verif.Waves.pulse_played",
    "Verif.Waves.normalise_spec",
    "Verif.Waves.normalise_scale",
    "Verif.Waves.played_close",
    "Verif.Waves.not_played_small",
    "Verif.Waves.too_large_rejected",
    "Verif.Waves.dummy_waveform_played",
    "Verif.Waves.negative_weights_accepted",
    "Verif.Waves.weights_refused"
   ],
   "note": "Findings: a path just below one gain step plays the other path's waveform with gain 1; the weight check ignores values below -1."
  },
  {
   "property": "C24",
   "status": "proved",
   "theorems": [
    "Verif.Latency.latencies_relative",
    "Verif.Latency.latencies_order",
    "Verif.Latency.latencies_none",
    "Verif.Latency.keys_collide"
   ],
   "note": "Finding: the keys of different port-clocks may coincide (ports containing dashes)."
  },
  {
   "property": "C22",
   "status": "partial",
   "theorems": [
    "Verif.RfSwitch.pulse_covered_partial",
    "Verif.RfSwitch.offset_covered_partial",
    "Verif.RfSwitch.toggles_disjoint",
    "Verif.RfSwitch.toggle_tight",
    "Verif.RfSwitch.toggles_start",
    "Verif.RfSwitch.loop_not_covered",
    "Verif.RfSwitch.plain_body_not_covered",
    "Verif.RfSwitch.open_offset_not_covered"
   ],
   "note": "Coverage is false of the code for loops with more than one repetition and for control flow around a plain operation (witnesses); proved for control flow that runs a schedule once."
  },
  {
   "property": "C21",
   "status": "partial",
   "theorems": [
    "Verif.Stack.stack_preserves_partial",
    "Verif.Stack.near_end_wrong",
    "Verif.Stack.near_end_fails",
    "Verif.Stack.two_ports_wrong"
   ],
   "note": "For the operations of one schedule (sub-schedules are stacked one by one by the code). False of the code if a non-square pulse has another pulse's boundary one sample before its end, or if an operation has several pulses (witnesses); proved otherwise."
  },
  {
   "property": "C23",
   "status": "partial",
   "theorems": [
    "Verif.Crosstalk.compensation_exact_partial",
    "Verif.Crosstalk.shared_operation_wrong",
    "Verif.Crosstalk.unconfigured_refused",
    "Verif.Crosstalk.numerical_pulse_time_axis_scaled",
    "Verif.Crosstalk.no_crosstalk_unchanged"
   ],
   "note": "False of the code if one operation is used by several schedulables (witness), which is scaled once per use; proved if each is used once, no operation equals a compensation pulse of another one, and pulses are linear in the parameters with amp in their name. The inverse matrix is a hypothesis."
  },
  {
   "property": "C25",
   "status": "proved",
   "theorems": [
    "Verif.Compensation.compensated",
    "Verif.Compensation.accepted",
    "Verif.Compensation.process_idempotent",
    "Verif.Compensation.process_unchanged",
    "Verif.Compensation.loop_over_schedule_fails",
    "Verif.Compensation.other_clock_not_counted",
    "Verif.Compensation.negative_maximum",
    "Verif.Compensation.conditional_refused"
   ],
   "note": "For a positive grid and positive maxima; the timing pass is a parameter that keeps operations. Findings: a block around a loop over a schedule fails with KeyError; pulses with other clocks are ignored; a negative maximum gives a negative duration."
  },
  {
   "property": "C19",
   "status": "proved",
   "theorems": [
    "Verif.AcqIndices.indices_exactly_once",
    "Verif.AcqIndices.one_index_per_execution",
    "Verif.AcqIndices.indices_assigned",
    "Verif.AcqIndices.coords_match",
    "Verif.AcqIndices.explicit_average",
    "Verif.AcqIndices.explicit_first",
    "Verif.AcqIndices.time_order",
    "Verif.AcqIndices.accepted_iff",
    "Verif.AcqIndices.rejected",
    "Verif.AcqIndices.all_handled",
    "Verif.AcqIndices.not_global_time_order",
    "Verif.AcqIndices.append_index_ignored"
   ],
   "note": "Findings: with overlapping sub-schedules the order is not global time order; explicit indices in append mode are ignored."
  },
  {
   "property": "C31",
   "status": "proved",
   "theorems": [
    "Verif.Flatten.ops_complete",
    "Verif.Flatten.ops_nested",
    "Verif.Flatten.ops_sequential",
    "Verif.Flatten.order_elems",
    "Verif.Flatten.operations_located",
    "Verif.Flatten.pulse_dispatched",
    "Verif.Flatten.acquisition_dispatched",
    "Verif.Flatten.unmapped_rejected",
    "Verif.Flatten.bracketed_iff",
    "Verif.Flatten.portless_loop_rejected",
    "Verif.Flatten.asm_in_loop_rejected",
    "Verif.Flatten.pulse_captured",
    "Verif.Flatten.clock_operation_escapes",
    "Verif.Flatten.ops_example"
   ],
   "note": "Well-bracketing under the hypothesis that loops and conditionals overlap nothing else on the port-clock; without it a witness. Modules without acquisitions and port names with dashes are left out."
  },
  {
   "property": "C39",
   "status": "partial",
   "theorems": [
    "Verif.Q1.spacing_enforced_partial",
    "Verif.Q1.close_acquisitions_rejected",
    "Verif.Q1.loop_spacing_not_checked"
   ],
   "note": "Proved for programs without loops and conditionals; with loops it is false of the code (witness: only the first iteration is checked)."
  },
  {
   "property": "C09",
   "status": "proved",
   "theorems": [
    "Verif.Build.history_exact",
    "Verif.Build.failed_call_changes_nothing",
    "Verif.Build.add_raises_iff",
    "Verif.Build.contents_kept",
    "Verif.Build.resource_kept",
    "Verif.Build.default_resources",
    "Verif.Build.repetitions_spec",
    "Verif.Build.state_round_trip",
    "Verif.Build.add_redirects_other_schedulable",
    "Verif.Build.repetitions_zero"
   ],
   "note": "Findings: adding an operation may change what an earlier schedulable plays if its operation object was changed in between; repetitions below one are stored as zero."
  },
  {
   "property": "C10",
   "status": "partial",
   "theorems": [
    "Verif.MergeRz.phases_kept_partial",
    "Verif.MergeRz.others_kept",
    "Verif.MergeRz.merge_succeeds",
    "Verif.MergeRz.all_merged",
    "Verif.MergeRz.schedulables_kept",
    "Verif.MergeRz.shared_gate_wrong",
    "Verif.MergeRz.shared_elsewhere_wrong",
    "Verif.MergeRz.insertion_order_matters"
   ],
   "note": "Proved if every Rz object is used by one schedulable, for the order of addition. False of the code otherwise (witnesses): the same Rz gate added three times gives four times the angle; merging ignores the order in time."
  },
  {
   "property": "C20",
   "status": "proved",
   "theorems": [
    "Verif.Redundant.removeRedundant_only_updates",
    "Verif.Redundant.structure_unique",
    "Verif.Redundant.removeRedundant_structured",
    "Verif.Redundant.removeRedundant_same_parameters",
    "Verif.Redundant.removeRedundant_no_update_after",
    "Verif.Redundant.removeRedundant_no_update_before",
    "Verif.Redundant.validateAlignment_iff",
    "Verif.Redundant.validateAlignment_total",
    "Verif.Redundant.asm_update_lost"
   ],
   "note": "For programs with any nesting of loops and conditionals: same applied parameters at every time and same plays. Assumes inline assembly sets no parameters; asm_update_lost shows that without that the claim fails."
  },
  {
   "property": "C16",
   "status": "proved",
   "theorems": [
    "Verif.Conditional.addresses_one_to_one",
    "Verif.Conditional.uses_kept",
    "Verif.Conditional.too_many_labels_iff",
    "Verif.Conditional.settings_of_conditional",
    "Verif.Conditional.weighted_gets_no_address",
    "Verif.Conditional.added_first_gets_no_settings"
   ],
   "note": "For the labels outside of bodies of conditionals. Findings: weighted thresholded acquisitions with a label get no address; a conditional added before the trigger count acquisition it reads gets no trigger settings."
  },
  {
   "property": "C17",
   "status": "proved",
   "theorems": [
    "Verif.Conditional.compile_ok_iff",
    "Verif.Conditional.others_unchanged",
    "Verif.Conditional.latch_resets",
    "Verif.Conditional.last_acquisition_unused",
    "Verif.Conditional.acquisition_in_conditional_ignored",
    "Verif.Conditional.reset_outside_of_loop",
    "Verif.Conditional.dual_reset_rounded"
   ],
   "note": "compile_ok_iff characterises acceptance exactly; latch_resets assumes that loop bodies are schedules and dual acquisitions start on whole nanoseconds (witnesses otherwise). Operations shared by several schedulables are not modelled. The last acquisition may stay unused."
  },
  {
   "property": "C29",
   "status": "proved",
   "theorems": [
    "Verif.Long.stitched_output",
    "Verif.Long.stitched_offsets_apart",
    "Verif.Long.stitched_overlap_refused",
    "Verif.Long.long_square_output",
    "Verif.Long.long_square_too_short",
    "Verif.Long.long_ramp_output",
    "Verif.Long.long_ramp_not_on_grid",
    "Verif.Long.staircase_output",
    "Verif.Long.staircase_not_on_grid",
    "Verif.Long.replace_keeps_output",
    "Verif.Long.replace_refused",
    "Verif.Long.schedule_keeps_output",
    "Verif.Long.flat_ramp_wrong",
    "Verif.Long.offset_during_square_lost",
    "Verif.Long.overlapping_squares_wrong",
    "Verif.Long.order_of_offsets_matters"
   ],
   "note": "Continuous-time output with exact rationals. Findings: see the last four theorems."
  },
  {
   "property": "C30",
   "status": "partial",
   "theorems": [
    "Verif.Overlap.rejection_sound",
    "Verif.Overlap.overlap_rejected_partial",
    "Verif.Overlap.missed_same_time",
    "Verif.Overlap.missed_during_long",
    "Verif.Overlap.missed_other_first",
    "Verif.Overlap.missed_no_look_ahead",
    "Verif.Overlap.missed_second_iteration"
   ],
   "note": "A rejected schedule always has two operations that overlap on a port-clock, one with an offset (rejection_sound). The converse holds if all operations fill their duration on one port-clock, start at different times, loops run once and plain pulses do not overlap each other (overlap_rejected_partial); in general it is false of the code: five missed_* theorems give schedules with an overlap that are accepted."
  },
  {
   "property": "C40",
   "status": "proved",
   "theorems": [
    "Verif.Retrieve.retrieved_all",
    "Verif.Retrieve.retrieved_sound",
    "Verif.Retrieve.retrieved_shape",
    "Verif.Retrieve.retrieved_single",
    "Verif.Retrieve.shows_unique",
    "Verif.Retrieve.duplicates_refused",
    "Verif.Retrieve.retrieved_grant",
    "Verif.Retrieve.distribution_exact",
    "Verif.Retrieve.timetag_traces_exact",
    "Verif.Retrieve.coordinates_match",
    "Verif.Retrieve.sum_exact",
    "Verif.Retrieve.append_two_sequencers_fail",
    "Verif.Retrieve.distribution_coordinates_fail",
    "Verif.Retrieve.event_before_window_refused",
    "Verif.Retrieve.sum_truncated",
    "Verif.Retrieve.nan_count_refused"
   ],
   "note": "Binned protocols end to end (retrieved_grant composes with the bins granted in C18). Trigger counts are returned without fractional part, so bin mode sum loses triggers on a QTM (sum_truncated). The order in which xarray merges indices is not modelled; append_two_sequencers_fail rests on numpy's truth value of arrays."
  },
  {
   "property": "C41",
   "status": "proved",
   "theorems": [
    "Verif.Gates.modulo360_spec",
    "Verif.Gates.modulo360_unique",
    "Verif.Gates.rxy_full_turns",
    "Verif.Gates.rz_full_turns",
    "Verif.Gates.rz_stored",
    "Verif.Gates.rxy_stored",
    "Verif.Gates.rxyMatrix_unitary",
    "Verif.Gates.rzMatrix_unitary",
    "Verif.Gates.hMatrix_unitary",
    "Verif.Gates.cnotMatrix_unitary",
    "Verif.Gates.czMatrix_unitary",
    "Verif.Gates.X_matrix",
    "Verif.Gates.X90_matrix",
    "Verif.Gates.Y_matrix",
    "Verif.Gates.Y90_matrix",
    "Verif.Gates.Z_matrix",
    "Verif.Gates.Z90_matrix",
    "Verif.Gates.SDagger_matrix",
    "Verif.Gates.T_matrix",
    "Verif.Gates.TDagger_matrix",
    "Verif.Gates.hadamard_exact",
    "Verif.Gates.cnot_exact",
    "Verif.Gates.expand_exact",
    "Verif.Gates.rz_merge",
    "Verif.Gates.amplitude_bounded",
    "Verif.Gates.rounding_leaves_range"
   ],
   "note": "Exact complex arithmetic. Finding: rounding can store -180 or a phase of 360, outside of the documented ranges (rounding_leaves_range)."
  },
  {
   "property": "C42",
   "status": "proved",
   "theorems": [
    "Verif.Gates.pulses_do_gates",
    "Verif.Gates.measured_as_predicted",
    "Verif.Gates.same_sign_wrong"
   ],
   "note": "Relative to a stated physical model: a drive pulse rotates by the angle its amplitude was calibrated for, about the axis given by its phase and its clock's; edges are calibrated. The theorems hold if a clock shift by x changes later pulses' phases by -x; same_sign_wrong shows that with the opposite sign a three-gate circuit gives the opposite result. Which sign applies is a property of the hardware and not settled by the code."
  },
  {
   "property": "C43",
   "status": "proved",
   "theorems": [
    "Verif.Circuit.compiled_implements",
    "Verif.Circuit.compiles_iff",
    "Verif.Circuit.compiled_device_level",
    "Verif.Circuit.device_level_unchanged",
    "Verif.Circuit.override_order",
    "Verif.Circuit.unknown_element_error",
    "Verif.Circuit.unknown_edge_error",
    "Verif.Circuit.unknown_first_element_keyError",
    "Verif.Circuit.elementless_gate_stays",
    "Verif.Circuit.delay_ignores_override",
    "Verif.Circuit.mux_next_of_equal_delays",
    "Verif.Circuit.mux_next_before_window",
    "Verif.Circuit.xsched_compiles",
    "Verif.Circuit.overridden_delay_wrong",
    "Verif.Circuit.compensation_without_settings"
   ],
   "note": "Impl in Circuit/Spec.lean is the specification; compiled_device_level needs factories that make pulses. Findings: Measure without acquisition delay uses the configured, not the overridden delay; after a multiplexed measurement with different delays the next operation may start before the longest window is over; an unknown first element of a two-element gate is a plain KeyError."
  },
  {
   "property": "C44",
   "status": "proved",
   "theorems": [
    "Verif.Circuit.clocks_assigned",
    "Verif.Circuit.clocks_assigned_iff",
    "Verif.Circuit.one_frequency",
    "Verif.Circuit.schedule_wins",
    "Verif.Circuit.unknown_clock_error",
    "Verif.Circuit.clock_errors",
    "Verif.Circuit.clocks_after_compile",
    "Verif.Circuit.xsched_clocks",
    "Verif.Circuit.compensation_hides_frequency",
    "Verif.Circuit.compensation_clock_unknown",
    "Verif.Circuit.inconsistent_frequency_error"
   ],
   "note": "Frequencies are numbers or NaN (no arrays). Definitions inside a pulse compensation are not seen by the code (findings)."
  },
  {
   "property": "C45",
   "status": "proved",
   "theorems": [
    "Verif.Json.round_trip",
    "Verif.Json.round_trip_same",
    "Verif.Json.unknown_type_refused",
    "Verif.Json.class_objects_not_read",
    "Verif.Json.other_numpy_scalars_lost",
    "Verif.Json.int_keys_become_strings",
    "Verif.Json.legacy_qubits_lost",
    "Verif.Json.tuple_channel_not_read",
    "Verif.Json.reserved_key_not_read",
    "Verif.Json.array0_lost"
   ],
   "note": "Ok in Json/Spec.lean says which values; JSON text itself and number formatting are Python's. Findings: class objects, numpy scalars such as float32/uint32/bool_, 0-d arrays, integer keys, tuples as acquisition channels, dictionaries with the reserved key, and legacy operations with 'qubits' do not come back. Device elements (qcodes instruments) are not modelled."
  },
  {
   "property": "C46",
   "status": "proved",
   "theorems": [
    "Verif.Json.round_trip_equal",
    "Verif.Json.equal_of_same_entries",
    "Verif.Json.minus_one_equals_minus_two",
    "Verif.Json.second_add_replaces_first"
   ],
   "note": "Hashes of strings, tuples, frozen sets are arbitrary functions (sets: order independent). The converse (equal only if same entries) is false: in CPython hash(-1.0) = hash(-2.0), and so adding a -2 V pulse to a schedule replaces an otherwise equal -1 V pulse (second_add_replaces_first)."
  },
  {
   "property": "C47",
   "status": "proved",
   "theorems": [
    "Verif.Experiments.measure_timing",
    "Verif.Experiments.next_after_measure",
    "Verif.Experiments.measure_delay",
    "Verif.Experiments.measure_with_freq",
    "Verif.Experiments.measure_long_time_trace",
    "Verif.Experiments.multiplexed_plays",
    "Verif.Experiments.multiplexed_next",
    "Verif.Experiments.multiplexed_next_too_early",
    "Verif.Experiments.optical_timing",
    "Verif.Experiments.optical_duration",
    "Verif.Experiments.optical_rejects"
   ],
   "note": "Findings: with different acquisition delays the operation after a multiplexed measurement starts before the longest window is over (multiplexed_next_too_early); a frequency set for the measurement is set back when the pulse or the plain acquisition duration ends."
  },
  {
   "property": "C48",
   "status": "proved",
   "theorems": [
    "Verif.Experiments.t1_plays",
    "Verif.Experiments.ramsey_plays",
    "Verif.Experiments.echo_plays",
    "Verif.Experiments.cpmg_plays",
    "Verif.Experiments.cpmg_xy_plays",
    "Verif.Experiments.rabi_plays",
    "Verif.Experiments.rabi_pairs",
    "Verif.Experiments.rabi_pulse_plays",
    "Verif.Experiments.allxy_plays",
    "Verif.Experiments.allxy_selection",
    "Verif.Experiments.allxy_21",
    "Verif.Experiments.allxy_table",
    "Verif.Experiments.allxy_staircase",
    "Verif.Experiments.readout_calibration_plays",
    "Verif.Experiments.readout_calibration_rejects",
    "Verif.Experiments.trace_plays",
    "Verif.Experiments.two_tone_trace_plays",
    "Verif.Experiments.long_time_trace_plays",
    "Verif.Experiments.heterodyne_plays",
    "Verif.Experiments.heterodyne_nco_plays",
    "Verif.Experiments.two_tone_plays",
    "Verif.Experiments.two_tone_nco_plays",
    "Verif.Experiments.nv_dark_esr_plays",
    "Verif.Experiments.nv_dark_esr_nco_plays",
    "Verif.Experiments.nv_dark_esr_nco_rejects",
    "Verif.Experiments.chevron_plays",
    "Verif.Experiments.chevron_same_qubit",
    "Verif.Experiments.chevron_flux_too_early",
    "Verif.Experiments.staircase_plays",
    "Verif.Experiments.multiplexing_plays",
    "Verif.Experiments.duplicate_rejected"
   ],
   "note": "What is played is stated as the code plays it; deviations from the textbook sequence: in CPMG everything after the first pulse is 4 ns late; Chevron's flux pulse can start before the longer of the two pi pulses is over."
  },
  {
   "property": "C49",
   "status": "proved",
   "theorems": [
    "Verif.Shapes.square_shape",
    "Verif.Shapes.squareImaginary_shape",
    "Verif.Shapes.ramp_shape",
    "Verif.Shapes.ramp_bounded",
    "Verif.Shapes.ramp_legacy_same",
    "Verif.Shapes.staircase_shape",
    "Verif.Shapes.falling_staircase_flat",
    "Verif.Shapes.one_step_rejected",
    "Verif.Shapes.chirp_shape",
    "Verif.Shapes.rotate_shape",
    "Verif.Shapes.rotate_add",
    "Verif.Shapes.rotate_norm",
    "Verif.Shapes.gauss_spec",
    "Verif.Shapes.drag_shape",
    "Verif.Shapes.drag_ends",
    "Verif.Shapes.drag_width",
    "Verif.Shapes.drag_linear",
    "Verif.Shapes.drag_phase",
    "Verif.Shapes.hermite_shape",
    "Verif.Shapes.softSquare_shape",
    "Verif.Shapes.softSquare_short",
    "Verif.Shapes.suddenNetZero_shape",
    "Verif.Shapes.suddenNetZero_rejects",
    "Verif.Shapes.net_zero_short_not_zero",
    "Verif.Shapes.net_zero_uncorrected",
    "Verif.Shapes.interp_between",
    "Verif.Shapes.interp_before",
    "Verif.Shapes.interp_after",
    "Verif.Shapes.interpolated_shape"
   ],
   "note": "Exact real and complex numbers. The staircase holds for rising amplitudes (falling ones are played flat: falling_staircase_flat), soft squares for at least 6 samples (4 and 5 samples give NaN: softSquare_short), net zero for at least one sample per arm and for the correction (net_zero_* otherwise)."
  },
  {
   "property": "C50",
   "status": "proved",
   "theorems": [
    "Verif.Shapes.sample_times",
    "Verif.Shapes.arange_times",
    "Verif.Shapes.qblox_times",
    "Verif.Shapes.sampled_pointwise",
    "Verif.Shapes.sampled_square",
    "Verif.Shapes.sampled_ramp",
    "Verif.Shapes.sampled_staircase",
    "Verif.Shapes.area_spec",
    "Verif.Shapes.areas_sum",
    "Verif.Shapes.resize_spec",
    "Verif.Shapes.shift_spec",
    "Verif.Shapes.modulate_spec",
    "Verif.Shapes.mixer_spec"
   ],
   "note": "Exact real numbers: rounding of floats in arange is not modelled."
  },
  {
   "property": "C51",
   "status": "proved",
   "theorems": [
    "Verif.Distortion.corrections_exact",
    "Verif.Distortion.correctPulse_spec",
    "Verif.Distortion.corrected_played",
    "Verif.Distortion.played_samples",
    "Verif.Distortion.constant_played",
    "Verif.Distortion.clipping_holds",
    "Verif.Distortion.corrections_exact_example",
    "Verif.Distortion.identity_filter_changes",
    "Verif.Distortion.acquisition_lost",
    "Verif.Distortion.shared_corrected_twice"
   ],
   "note": "If no two operations share a pulse list. Findings: an operation object used twice is corrected twice (shared_corrected_twice); the samples are stretched over the duration, so that even an identity filter changes the played pulse (identity_filter_changes; played_samples says exactly how); acquisitions of an operation whose first pulse is corrected are lost (acquisition_lost), as is the reference magnitude."
  },
  {
   "property": "C52",
   "status": "proved",
   "theorems": [
    "Verif.Connect.wiring_sound",
    "Verif.Connect.wiring_exact",
    "Verif.Connect.listed_wires",
    "Verif.Connect.modules_differ_refused",
    "Verif.Connect.unwired_refused",
    "Verif.Connect.paths_found",
    "Verif.Connect.mixer_sound",
    "Verif.Connect.pulse_played",
    "Verif.Connect.input_first_one_clock",
    "Verif.Connect.inputs_first_refused",
    "Verif.Connect.v01_adds_inputs",
    "Verif.Connect.shared_lo_forgotten"
   ],
   "note": "wiring_* for ports wired to channels directly, mixer_sound for ports behind a mixer. Findings: if the inputs of a port are listed before its output, the port is refused if it has two clocks or two inputs; version 0.1 adds inputs that are not wired; if two mixers share an LO, the LO is linked to the channel of the last only."
  },
  {
   "property": "C53",
   "status": "proved",
   "theorems": [
    "Verif.Connect.sequencers_sound",
    "Verif.Connect.reservation_complete",
    "Verif.Connect.reservation_qrc",
    "Verif.Connect.reservation_deterministic",
    "Verif.Connect.compile_accepts",
    "Verif.Connect.qrc_names_matter"
   ],
   "note": "Finding: on a QRC whether sequencers are found depends on the names of the ports (qrc_names_matter)."
  },
  {
   "property": "C54",
   "status": "proved",
   "theorems": [
    "Verif.Connect.operations_delivered",
    "Verif.Connect.acquisition_refused",
    "Verif.Connect.sequencer_content",
    "Verif.Connect.sequencer_nested",
    "Verif.Connect.pulse_played",
    "Verif.Connect.example_compiles",
    "Verif.Connect.schedule_example",
    "Verif.Connect.qtm_same_channel_lost"
   ],
   "note": "From the schedule (Flatten) to the sequencers. Finding: two port-clocks on the same QTM channel: one loses its operations (qtm_same_channel_lost)."
  },
  {
   "property": "C55",
   "status": "proved",
   "theorems": [
    "Verif.Settings.ports_emit",
    "Verif.Settings.nco_enabled",
    "Verif.Settings.lo_of_channel",
    "Verif.Settings.set_frequency_back",
    "Verif.Settings.all_tuned",
    "Verif.Settings.frequencies_found",
    "Verif.Settings.configured_lo_used",
    "Verif.Settings.lo_frequency_extracted",
    "Verif.Settings.configured_named_lo_used",
    "Verif.Settings.set_frequency_rf",
    "Verif.Settings.set_frequency_mixer",
    "Verif.Settings.set_frequency_direct",
    "Verif.Settings.example_found",
    "Verif.Settings.downconverter_set_frequency_wrong",
    "Verif.Settings.configured_lo_forgotten",
    "Verif.Settings.different_lo_accepted",
    "Verif.Settings.named_lo_frequency_ignored",
    "Verif.Settings.first_port_clock_counts",
    "Verif.Settings.lo_without_frequencies_key_error",
    "Verif.Settings.mix_lo_false_cannot_override",
    "Verif.Settings.forgotten_lo_full_frequency"
   ],
   "note": "Channels with inputs only are not tuned by the code. SetClockFrequency is right without a downconverter only (downconverter_set_frequency_wrong). Other findings: the configured frequency of an oscillator is lost if another port-clock on the output has none, or if its description has an instrument_name; different frequencies are accepted on RF outputs; an oscillator without modulation frequencies is a KeyError; mix_lo=False cannot override; an oscillator for two mixers (C52) leaves one at the full clock frequency."
  },
  {
   "property": "C56",
   "status": "proved",
   "theorems": [
    "Verif.Settings.gains_exact",
    "Verif.Settings.out_attenuation",
    "Verif.Settings.in_attenuation",
    "Verif.Settings.attenuation_found",
    "Verif.Settings.offsets_exact",
    "Verif.Settings.offsets_found",
    "Verif.Settings.latencies_config",
    "Verif.Settings.marker_latency",
    "Verif.Settings.debug_marker",
    "Verif.Settings.marker_limit",
    "Verif.Settings.filters_exact",
    "Verif.Settings.filters_pair",
    "Verif.Settings.writes_once",
    "Verif.Settings.gain_written",
    "Verif.Settings.offsets_written",
    "Verif.Settings.attenuation_written",
    "Verif.Settings.attenuation_left",
    "Verif.Settings.lo_written",
    "Verif.Settings.lo_written_qrc",
    "Verif.Settings.filters_written",
    "Verif.Settings.filters_written_qrm",
    "Verif.Settings.gains_example",
    "Verif.Settings.attenuation_example",
    "Verif.Settings.offsets_example",
    "Verif.Settings.filters_example",
    "Verif.Settings.offsets_refused",
    "Verif.Settings.gain_on_wrong_input",
    "Verif.Settings.attenuation_cleared",
    "Verif.Settings.attenuation_conflict",
    "Verif.Settings.input_attenuation_refused",
    "Verif.Settings.qrc_attenuation_ignored",
    "Verif.Settings.qrc_attenuation_true",
    "Verif.Settings.offsets_conflict",
    "Verif.Settings.qrc_offsets_ignored",
    "Verif.Settings.fir_range_unchecked",
    "Verif.Settings.single_on_complex",
    "Verif.Settings.pairs_refused",
    "Verif.Settings.pairs_overwritten",
    "Verif.Settings.qrc_description_fails",
    "Verif.Settings.rf_latency_not_written",
    "Verif.Settings.descriptions_conflict"
   ],
   "note": "If the port-clocks of an output agree (otherwise the last wins, except for gains, which must agree), on the channels the module settings have fields for. Findings: on a QRC the written attenuation is True instead of the number, outputs 2 to 5 and input 1 are ignored; a later port-clock without attenuation clears it; a real gain goes to the input with the number of the output; coefficients of FIR filters are not range checked; corrections of complex channels can be refused, overwritten or go to the wrong output; latencies of RF modules are never written."
  },
  {
   "property": "C57",
   "status": "proved",
   "theorems": [
    "Verif.AcqSet.analog_sound",
    "Verif.AcqSet.analog_left",
    "Verif.AcqSet.analog_accepts",
    "Verif.AcqSet.threshold_meaning",
    "Verif.AcqSet.qtm_times",
    "Verif.AcqSet.qtm_traces",
    "Verif.AcqSet.qtm_triggers",
    "Verif.AcqSet.qtm_dual_triggers",
    "Verif.AcqSet.qtm_incompatible",
    "Verif.AcqSet.qrm_condition",
    "Verif.AcqSet.qtm_condition",
    "Verif.AcqSet.reads_exact",
    "Verif.AcqSet.single_scope",
    "Verif.AcqSet.ref_channel",
    "Verif.AcqSet.Examples.threshold_out_of_range",
    "Verif.AcqSet.Examples.unlabelled_count",
    "Verif.AcqSet.Examples.trace_duration_of_other",
    "Verif.AcqSet.Examples.timetag_and_count",
    "Verif.AcqSet.Examples.counts_not_validated",
    "Verif.AcqSet.Examples.distribution_and_append"
   ],
   "note": "What the instrument does with the settings (Spec.Sends, Spec.Plays, sums against thresholds) is specified, not modelled. Findings: the range of the threshold is checked before it is multiplied by the integration length; a QTM refuses counts without label with a KeyError and takes the duration of traces from any first acquisition; counts with different thresholds are accepted if there is a thresholded acquisition as well; a distribution changes the bins of other counts."
  },
  {
   "property": "C58",
   "status": "proved",
   "theorems": [
    "Verif.Prepare.prepare_accepts",
    "Verif.Prepare.prepare_coherent",
    "Verif.Prepare.prepare_calibrates",
    "Verif.Prepare.prepare_sequencer",
    "Verif.Prepare.prepare_outputs",
    "Verif.Prepare.prepare_inputs",
    "Verif.Prepare.prepare_inputs_rf",
    "Verif.Prepare.prepare_mixer",
    "Verif.Prepare.prepare_unused",
    "Verif.Prepare.prepare_globals",
    "Verif.Prepare.prepare_filters",
    "Verif.Prepare.prepare_scope",
    "Verif.Prepare.prepare_lazy",
    "Verif.Prepare.prepareQtm_accepts",
    "Verif.Prepare.prepare_timetag",
    "Verif.Prepare.timetag_unused",
    "Verif.Prepare.prepare_leaves",
    "Verif.Prepare.trigger_left_on",
    "Verif.Prepare.calibration_lost",
    "Verif.Prepare.second_output_unconnected",
    "Verif.Prepare.qrc_mixer_ignored",
    "Verif.Prepare.Ex.run_ok",
    "Verif.Prepare.Ex.accepted",
    "Verif.Prepare.Ex.calibration_overwritten",
    "Verif.Prepare.Ex.example_sequencer",
    "Verif.Prepare.Ex.trigger_stays",
    "Verif.Prepare.Ex.traces_refused",
    "Verif.Prepare.Ex.qrc_refused",
    "Verif.Prepare.Ex.qtm_accepted"
   ],
   "note": "Calibrations of the driver are arbitrary functions that satisfy Spec.CalOk. Findings: corrections found by an automatic calibration are overwritten by the defaults when a program with the same frequency is prepared again; triggers of an earlier program stay enabled; output 1 of a QRM-RF is accepted but not connected; on a QRC mixer corrections are ignored."
  },
  {
   "property": "C59",
   "status": "proved",
   "theorems": [
    "Verif.Lifecycle.start_other",
    "Verif.Lifecycle.stop_other",
    "Verif.Lifecycle.history_ok",
    "Verif.Lifecycle.prepare_iff",
    "Verif.Lifecycle.prepare_running",
    "Verif.Lifecycle.prepare_synced",
    "Verif.Lifecycle.start_unprepared",
    "Verif.Lifecycle.start_runs",
    "Verif.Lifecycle.start_plays",
    "Verif.Lifecycle.start_not_armed",
    "Verif.Lifecycle.start_others",
    "Verif.Lifecycle.start_synced",
    "Verif.Lifecycle.stop_iff",
    "Verif.Lifecycle.stop_all",
    "Verif.Lifecycle.stop_prepare_start",
    "Verif.Lifecycle.cluster_start_iff",
    "Verif.Lifecycle.cluster_start_trigger",
    "Verif.Lifecycle.prepare_generic",
    "Verif.Lifecycle.start_clock",
    "Verif.Lifecycle.timeout_bounds",
    "Verif.Lifecycle.stop_start_unsynced",
    "Verif.Lifecycle.Ex.coord_ok",
    "Verif.Lifecycle.Ex.both_ok",
    "Verif.Lifecycle.Ex.get_both_runs",
    "Verif.Lifecycle.Ex.hangs_without_stop",
    "Verif.Lifecycle.Ex.failed_prepare_runs",
    "Verif.Lifecycle.Ex.unknown_refused",
    "Verif.Lifecycle.Ex.trigger_examples",
    "Verif.Lifecycle.Ex.slots_ok"
   ],
   "note": "Driver as documented: start_sequencer starts all armed sequencers of the cluster. Findings: stop also ends the synchronisation of what is loaded, so starting again without prepare runs unsynchronised (stop_start_unsynced); without stop, a module used only by an earlier schedule is waited for forever (Ex.hangs_without_stop); after a failed prepare, start runs what was prepared before the exception (Ex.failed_prepare_runs)."
  },
  {
   "property": "C60",
   "status": "proved",
   "theorems": [
    "Verif.Lifecycle.run_sound",
    "Verif.Lifecycle.run_all",
    "Verif.Lifecycle.run_shape",
    "Verif.Lifecycle.get_fresh",
    "Verif.Lifecycle.get_again_unsynced",
    "Verif.Lifecycle.Ex.env_ok",
    "Verif.Lifecycle.Ex.get_both",
    "Verif.Lifecycle.Ex.again_unsynced",
    "Verif.Lifecycle.Ex.other_schedule",
    "Verif.Lifecycle.Zi.retrieve_reacquire",
    "Verif.Lifecycle.Zi.retrieve_plain",
    "Verif.Lifecycle.Zi.first_repeated",
    "Verif.Lifecycle.Zi.same_result_fails",
    "Verif.Lifecycle.Zi.example_zi"
   ],
   "note": "Binned acquisitions (as in C40). Findings: a gettable with always_initialize=False runs unsynchronised from the second time on (get_again_unsynced) and may return the data of another schedule (Ex.other_schedule); Zurich Instruments coordinator: the first acquisition is always repeated, with max_num_reacquisitions at most 1 it always fails, as do measurements that give the same result twice."
  },
  {
   "property": "C61",
   "status": "proved",
   "theorems": [
    "Verif.Digital.high_during_pulses",
    "Verif.Digital.digital_structured",
    "Verif.Digital.digital_level",
    "Verif.Digital.digital_independent",
    "Verif.Digital.rf_switch",
    "Verif.Digital.rf_stays_on",
    "Verif.Digital.debug_level",
    "Verif.Digital.others_refused",
    "Verif.Digital.qtm_levels",
    "Verif.Digital.example1",
    "Verif.Digital.pulse_lost",
    "Verif.Digital.overlap_cut",
    "Verif.Digital.pulse_at_end_refused",
    "Verif.Digital.debug_switches_on"
   ],
   "note": "Hypotheses: pulses are listed in order of time and one is over when the next, or a loop or conditional, starts (Spec.InOrder); no inline assembly that sets markers. Findings: pulses listed out of order are lost (pulse_lost), overlapping pulses are accepted and cut (overlap_cut), a pulse that ends with the schedule is refused (pulse_at_end_refused), marker debug mode switches the RF output on although rf_output_on is false (debug_switches_on)."
  },
  {
   "property": "C62",
   "status": "proved",
   "theorems": [
    "Verif.Spacing.fine_iff",
    "Verif.Spacing.fine_pairs",
    "Verif.Spacing.executable_hw",
    "Verif.Spacing.nco_iff",
    "Verif.Spacing.good_edges",
    "Verif.Spacing.rounding_accepts",
    "Verif.Spacing.unordered",
    "Verif.Spacing.loop_unchecked"
   ],
   "note": "Findings: the check of fine delays rounds to 1 ps and so accepts what is off by a hardware step (rounding_accepts); it goes through the operations in the order of the list, so that it accepts and refuses wrongly if pulses are not listed in order (unordered); repetitions of loops are not checked (loop_unchecked)."
  },
  {
   "property": "C63",
   "status": "partial",
   "theorems": [
    "Verif.Zi.clockSample_iff",
    "Verif.Zi.clockSample_sound",
    "Verif.Zi.times_aligned_partial",
    "Verif.Zi.times_exact",
    "Verif.Zi.shared_waveform",
    "Verif.Zi.Examples.not_listed_in_order"
   ],
   "note": "Missing: acquisitions are moved to the start of a clock cycle only if the operations were listed in the order of time (Spec.Ordered). The code violates the full statement: it uses row labels as positions after sorting (witness not_listed_in_order). Floats are rationals."
  },
  {
   "property": "C64",
   "status": "proved",
   "theorems": [
    "Verif.Zi.hdawg_plays",
    "Verif.Zi.hdawg_iff",
    "Verif.Zi.hdawg_period",
    "Verif.Zi.hdawg_triggered",
    "Verif.Zi.uhfqa_plays",
    "Verif.Zi.uhfqa_iff",
    "Verif.Zi.uhfqa_length",
    "Verif.Zi.starts_every",
    "Verif.Zi.starts_missed",
    "Verif.Zi.uhfqa_synchronous",
    "Verif.Zi.Examples.trigger_missed",
    "Verif.Zi.Examples.period_cut",
    "Verif.Zi.Examples.marker_and_trigger"
   ],
   "note": "The clock cycles of commands are those that the code assumes. Findings: a UHFQA that takes longer than the schedule misses triggers silently (trigger_missed); the period is cut to whole clock cycles (period_cut); an output with markers and a trigger is not synchronised at all (marker_and_trigger)."
  },
  {
   "property": "C65",
   "status": "partial",
   "theorems": [
    "Verif.Zi.hdawg_outputs_partial",
    "Verif.Zi.hdawg_sequencers",
    "Verif.Zi.uhfqa_output",
    "Verif.Zi.clock_of_row",
    "Verif.Zi.ensureNoOverlap_iff",
    "Verif.Zi.Examples.gap_not_played",
    "Verif.Zi.Examples.group_not_played",
    "Verif.Zi.Examples.starts_early",
    "Verif.Zi.Examples.weights_mixed_up",
    "Verif.Zi.Examples.overlapping_pulses"
   ],
   "note": "Missing: outputs with gaps or in groups, waveforms whose names collide, and pulses that do not start at the start of a clock cycle. The code violates the full statement in all of these cases: pulses after a gap and in groups other than the first are silently not played (gap_not_played, group_not_played), the first pulse and the first acquisition of an operation have the same name, so that the integration weights become the waveform of the pulse (weights_mixed_up), pulses at a sample within a clock cycle are played too early (starts_early), and overlapping pulses are not refused (overlapping_pulses)."
  },
  {
   "property": "C66",
   "status": "partial",
   "theorems": [
    "Verif.Zi.qa_average_partial",
    "Verif.Zi.qa_append_partial",
    "Verif.Zi.configure_iff",
    "Verif.Zi.binModeOf_iff",
    "Verif.Zi.qa_trace_partial",
    "Verif.Zi.monitor_off",
    "Verif.Zi.other_nodes",
    "Verif.Zi.trace_nodes",
    "Verif.Zi.other_nodes_example",
    "Verif.Zi.Examples.acqs_fine",
    "Verif.Zi.Examples.other_channels",
    "Verif.Zi.Examples.no_acquisition",
    "Verif.Zi.Examples.two_weights",
    "Verif.Zi.Examples.trace_monitor"
   ],
   "note": "Proved: the array of a channel has the integrals with the weights of this channel of all acquisitions of the UHFQA, in the order of time; this is the full statement if there is one channel. Missing: several channels, and acq_index. The code violates the full statement: every array also has an entry for every acquisition of the other channels (other_channels), and acq_index is ignored. Further findings: the input monitor, from which traces are read, is switched off (monitor_off, trace_monitor); a schedule without acquisitions cannot be compiled for a UHFQA (no_acquisition)."
  },
  {
   "property": "C67",
   "status": "proved",
   "theorems": [
    "Verif.Table.table_lists",
    "Verif.Table.plays_unique",
    "Verif.Table.table_sorted",
    "Verif.Table.plain_duration",
    "Verif.Table.schedule_duration",
    "Verif.Table.lastEnd_unique",
    "Verif.Table.plays_within",
    "Verif.Table.rounds_apart",
    "Verif.Table.table_within",
    "Verif.Table.table_exists",
    "Verif.Table.table_refused",
    "Verif.Table.duration_exists",
    "Verif.Table.Examples.items_rows",
    "Verif.Table.Examples.items_timed",
    "Verif.Table.Examples.second_round",
    "Verif.Table.Examples.same_waveform_op_id",
    "Verif.Table.Examples.repeated_subschedule"
   ],
   "note": "Floats are rationals. Findings: the first pulse and the first acquisition of an operation have the same waveform_op_id (same_waveform_op_id); a subschedule with repetitions is listed once, while its duration counts all repetitions (repeated_subschedule)."
  },
  {
   "property": "C68",
   "status": "partial",
   "theorems": [
    "Verif.Diagram.collected",
    "Verif.Diagram.pulsesOn_mem",
    "Verif.Diagram.acqsOn_eq",
    "Verif.Diagram.offsetsOn_mem",
    "Verif.Diagram.pulse_value_partial",
    "Verif.Diagram.linear_value_partial",
    "Verif.Diagram.cut_points",
    "Verif.Diagram.offsets_value_partial",
    "Verif.Diagram.drawing_keeps_partial",
    "Verif.Diagram.drawing_twice",
    "Verif.Diagram.Examples.items_collected",
    "Verif.Diagram.Examples.offsets_listed",
    "Verif.Diagram.Examples.offset_in_force",
    "Verif.Diagram.Examples.cut_pulse_wrong",
    "Verif.Diagram.Examples.offsets_out_of_order",
    "Verif.Diagram.Examples.offsets_limit",
    "Verif.Diagram.Examples.drawing_changes"
   ],
   "note": "Missing: pulses that start before the left limit, offsets that are not listed in the order of time or drawn with a limit, numerical pulses whose samples do not start at 0. The code violates the full statement in all of these cases: a pulse that starts before the left limit is drawn from its beginning (cut_pulse_wrong), offsets are drawn in the order in which they were added (offsets_out_of_order), a left limit after an offset was reset raises StopIteration (offsets_limit), and drawing changes t_samples in the schedule (drawing_changes). Modulation and combine_waveforms_on_same_port are not modelled."
  },
  {
   "property": "C69",
   "status": "partial",
   "theorems": [
    "Verif.Sampled.converted_samples_partial",
    "Verif.Sampled.converted_played_partial",
    "Verif.Sampled.timed_offset_samples",
    "Verif.Sampled.late_start_refused",
    "Verif.Sampled.no_pulses_same",
    "Verif.Sampled.stitched_converted",
    "Verif.Sampled.example_grid",
    "Verif.Sampled.example_played",
    "Verif.Sampled.example_output",
    "Verif.Sampled.late_example_refused",
    "Verif.Sampled.late_example_too_long",
    "Verif.Sampled.two_samples_per_ns"
   ],
   "note": "Missing: operations whose first pulse starts late, and times that are not multiples of the sampling time. The code violates the full statement there: if the first pulse starts more than one sample late, playing the converted pulse raises an error (late_start_refused, for all such operations), its duration is too long by the delay and an offset is held until then (late_example_too_long); with two samples per nanosecond, times are rounded to nanoseconds and the conversion fails (two_samples_per_ns)."
  },
  {
   "property": "C70",
   "status": "proved",
   "theorems": [
    "Verif.EndToEnd.executed",
    "Verif.EndToEnd.executed_unique",
    "Verif.EndToEnd.program_exists",
    "Verif.EndToEnd.pulse_executed",
    "Verif.EndToEnd.nothing_else",
    "Verif.EndToEnd.removalPass_view",
    "Verif.EndToEnd.removalPass_others",
    "Verif.EndToEnd.programOps_others",
    "Verif.EndToEnd.mem_unrolled",
    "Verif.EndToEnd.exOut_eval",
    "Verif.EndToEnd.exProgram_ops",
    "Verif.EndToEnd.exApart",
    "Verif.EndToEnd.exSupported",
    "Verif.EndToEnd.exProgram_ok",
    "Verif.EndToEnd.exUnrolled",
    "Verif.EndToEnd.exExecuted",
    "Verif.EndToEnd.parameter_applied",
    "Verif.EndToEnd.parameter_kept",
    "Verif.EndToEnd.exApplied"
   ],
   "note": "Composes the distribution of operations (C54), the wiring (C52, C53), the removal of updates (C20) and the generated program (C14) into one statement from the schedule to the trace of the executed Q1ASM. The strategy made for a pulse or acquisition is a parameter (any). Hypotheses: control flow starts with its body, bodies use the port-clock or do not concern it (a clock-only operation escapes its loop otherwise: Flatten.clock_operation_escapes), operations of one loop level are apart from the loop edges."
  },
  {
   "property": "C71",
   "status": "proved",
   "theorems": [
    "Verif.Strategies.library_executed",
    "Verif.Strategies.wave_played",
    "Verif.Strategies.gen_asks",
    "Verif.Strategies.strategies_final",
    "Verif.Strategies.programOf_ok",
    "Verif.Strategies.strategy_eq",
    "Verif.Strategies.acquisition_accepted",
    "Verif.Strategies.arises",
    "Verif.Strategies.setFrequency_name",
    "Verif.Strategies.timestamp_analog",
    "Verif.Strategies.wave_timetag",
    "Verif.Strategies.clock_timetag",
    "Verif.Strategies.complex_refused",
    "Verif.Strategies.flags",
    "Verif.Strategies.exOut_eval",
    "Verif.Strategies.exProgram_ops",
    "Verif.Strategies.exApart",
    "Verif.Strategies.exSupported",
    "Verif.Strategies.exFromLib",
    "Verif.Strategies.exProgram_ok",
    "Verif.Strategies.exExecuted"
   ],
   "note": "On top of C70, with the strategies of the code instead of arbitrary ones. Findings: a clock-frequency change inside an operation with another name is always refused (setFrequency_name); a QTM silently ignores phase and frequency changes (clock_timetag). Hashes of waveforms are assumed not to collide; bins and updates of parameters are left out of the compared traces (C18, C32, C20)."
  },
  {
   "property": "C72",
   "status": "proved",
   "theorems": [
    "Verif.Asm.block_runs",
    "Verif.Asm.injected",
    "Verif.Asm.prefix_inj",
    "Verif.Asm.accepted_iff",
    "Verif.Asm.waveforms_kept",
    "Verif.Asm.twice_refused",
    "Verif.Asm.matches_unique",
    "Verif.Asm.matches_line",
    "Verif.Asm.matches_nullary",
    "Verif.Asm.matches_args",
    "Verif.Asm.negative_refused",
    "Verif.Asm.no_comma_needed",
    "Verif.Asm.Examples.built",
    "Verif.Asm.Examples.second_runs"
   ],
   "note": "Findings: a block with waveforms can be used only once per sequencer (twice_refused); a minus sign in an argument is refused although the hardware and the compiler use negative arguments (negative_refused); arguments may be written without a comma and are then taken for one (no_comma_needed). Labels of the compiler are assumed not to begin with inj (they are start, loop, wait with a number)."
  },
  {
   "property": "C73",
   "status": "proved",
   "theorems": [
    "Verif.Compile.kept",
    "Verif.Compile.untouched",
    "Verif.Compile.history_untouched",
    "Verif.Compile.same_result",
    "Verif.Compile.in_order",
    "Verif.Compile.history_free",
    "Verif.Compile.empty_refused",
    "Verif.Compile.copy_ok",
    "Verif.Compile.copy_succeeds",
    "Verif.Compile.pathOf_construct",
    "Verif.Compile.exists_finder",
    "Verif.Compile.Examples.compiled",
    "Verif.Compile.Examples.others_changed"
   ],
   "note": "Hypothesis: the schedule shares no object with the configuration. Findings: compiling in place changes other schedules that share operations (others_changed); a configuration without passes fails with AttributeError or NodeNotFound (empty_refused). copy.deepcopy and networkx are modelled by what they do."
  },
  {
   "property": "C74",
   "status": "partial",
   "theorems": [
    "Verif.Device.members",
    "Verif.Device.entries",
    "Verif.Device.generated_iff",
    "Verif.Device.arguments",
    "Verif.Device.list_arguments",
    "Verif.Device.frequency",
    "Verif.Device.frequencies_of_list",
    "Verif.Device.amplitude_reference",
    "Verif.Device.element_operations",
    "Verif.Device.edge_arguments",
    "Verif.Device.edge_frequency",
    "Verif.Device.last_set",
    "Verif.Device.constructed",
    "Verif.Device.default_values",
    "Verif.Device.argument_last_set",
    "Verif.Device.constant_arguments",
    "Verif.Device.within_limits",
    "Verif.Device.known_choice",
    "Verif.Device.clock_known_partial",
    "Verif.Device.Examples.nv_compensation",
    "Verif.Device.Examples.dangling_edge",
    "Verif.Device.Examples.replaced",
    "Verif.Device.Examples.closed",
    "Verif.Device.Examples.weight_type_ignored"
   ],
   "note": "Missing because the code violates it: the pulse compensation of an NV centre is on a clock without a frequency (nv_compensation); an element that is removed leaves its edges with clocks without frequencies (dangling_edge); acq_weight_type has no effect (weight_type_ignored). Parameters are the values held by QCoDeS; QCoDeS is modelled by what it does."
  },
  {
   "property": "C75",
   "status": "partial",
   "theorems": [
    "Verif.Device.saved_iff",
    "Verif.Device.restored_partial",
    "Verif.Device.references_lost",
    "Verif.Device.regenerated_partial",
    "Verif.Device.read_keeps",
    "Verif.Device.Examples.reference_lost",
    "Verif.Device.Examples.settings_lost",
    "Verif.Device.Examples.tuple_unreadable",
    "Verif.Device.Examples.port_renamed",
    "Verif.Device.Examples.name_in_use"
   ],
   "note": "Missing because the code violates it: amplitude references are not written and become undefined (references_lost, reference_lost); scheduling strategy, hardware configuration and keep_original_schedule are not written (settings_lost); a tuple as acquisition channel cannot be read (tuple_unreadable); a port with an empty name is renamed (port_renamed). JSON itself is C45."
  },
  {
   "property": "C76",
   "status": "partial",
   "theorems": [
    "Verif.CircuitDiagram.operations_drawn",
    "Verif.CircuitDiagram.loops_drawn",
    "Verif.CircuitDiagram.conditionals_drawn",
    "Verif.CircuitDiagram.drawn_iff",
    "Verif.CircuitDiagram.elem_line",
    "Verif.CircuitDiagram.port_line",
    "Verif.CircuitDiagram.lines_named",
    "Verif.CircuitDiagram.lines_distinct",
    "Verif.CircuitDiagram.ports_collected",
    "Verif.CircuitDiagram.ports_placed_partial",
    "Verif.CircuitDiagram.ports_misplaced",
    "Verif.CircuitDiagram.columns_partial",
    "Verif.CircuitDiagram.visible_partial",
    "Verif.CircuitDiagram.brackets_span_partial",
    "Verif.CircuitDiagram.Examples.good_drawn",
    "Verif.CircuitDiagram.Examples.good_fine",
    "Verif.CircuitDiagram.Examples.out_of_sight",
    "Verif.CircuitDiagram.Examples.first_loop",
    "Verif.CircuitDiagram.Examples.misplaced",
    "Verif.CircuitDiagram.Examples.mixed_fine",
    "Verif.CircuitDiagram.Examples.element_other",
    "Verif.CircuitDiagram.Examples.nested_loop",
    "Verif.CircuitDiagram.Examples.acquisition_not_drawn",
    "Verif.CircuitDiagram.Examples.idle_loop",
    "Verif.CircuitDiagram.Examples.no_measurement"
   ],
   "note": "Missing because the code violates it: after a repeated loop in a sub-schedule, simultaneous operations are in different columns, outside the picture (out_of_sight); the brackets of a loop that comes first start after its content (first_loop); ports that are traversed before the first port without device element are one line too low (ports_misplaced, misplaced); a device element named other (element_other); control flow directly inside control flow (nested_loop); an operation with a pulse and an acquisition shows only the pulse (acquisition_not_drawn); a loop over a pulse without port is refused (idle_loop). Matplotlib is a list of symbols with positions."
  },
  {
   "property": "C77",
   "status": "partial",
   "theorems": [
    "Verif.ZiPrepare.configured_values",
    "Verif.ZiPrepare.hd_prepared",
    "Verif.ZiPrepare.hd_history_partial",
    "Verif.ZiPrepare.hd_accepted",
    "Verif.ZiPrepare.start_order",
    "Verif.ZiPrepare.stop_stops",
    "Verif.ZiPrepare.prepare_running",
    "Verif.ZiPrepare.uh_prepared_partial",
    "Verif.ZiPrepare.uh_history_partial",
    "Verif.ZiPrepare.uh_accepted",
    "Verif.ZiPrepare.uh_running",
    "Verif.ZiPrepare.monitor_off",
    "Verif.ZiPrepare.uh_monitor",
    "Verif.ZiPrepare.Examples.good",
    "Verif.ZiPrepare.Examples.good_start",
    "Verif.ZiPrepare.Examples.retry_skipped",
    "Verif.ZiPrepare.Examples.retry_skipped_files",
    "Verif.ZiPrepare.Examples.outside_kept",
    "Verif.ZiPrepare.Examples.left_running",
    "Verif.ZiPrepare.Examples.gain_accepted",
    "Verif.ZiPrepare.Examples.trace_ok",
    "Verif.ZiPrepare.Examples.trace_unmonitored",
    "Verif.ZiPrepare.Examples.stale_waves",
    "Verif.ZiPrepare.Examples.monitor_not_reset"
   ],
   "note": "Missing because the code violates it: after a prepare that failed, the same prepare is skipped and the device stays unconfigured (retry_skipped, retry_skipped_files); changes by others stay (outside_kept); prepare of a UHFQA passes over a failure to write waveform files and says that the device was configured (stale_waves); the monitor is off although there is a trace (monitor_off, trace_unmonitored) and is not reset if the configuration is skipped (monitor_not_reset); AWGs of a previous configuration are not stopped (left_running); gains above 1 are accepted (gain_accepted). make_hash is assumed to have no collisions."
  },
  {
   "property": "C78",
   "status": "partial",
   "theorems": [
    "Verif.ZiFreq.wired_channels",
    "Verif.ZiFreq.channel_order",
    "Verif.ZiFreq.interm_configured",
    "Verif.ZiFreq.lo_only_refused",
    "Verif.ZiFreq.direct_refused",
    "Verif.ZiFreq.given_lo",
    "Verif.ZiFreq.derived_lo",
    "Verif.ZiFreq.emits_clock_partial",
    "Verif.ZiFreq.shared_lo",
    "Verif.ZiFreq.given_frequencies",
    "Verif.ZiFreq.phase_offset",
    "Verif.ZiFreq.phase_coherent",
    "Verif.ZiFreq.weights_demodulate",
    "Verif.ZiFreq.Examples.cfg_ok",
    "Verif.ZiFreq.Examples.unambiguous",
    "Verif.ZiFreq.Examples.wired",
    "Verif.ZiFreq.Examples.good",
    "Verif.ZiFreq.Examples.shared_wrong",
    "Verif.ZiFreq.Examples.unchecked",
    "Verif.ZiFreq.Examples.order_matters",
    "Verif.ZiFreq.Examples.no_frequencies",
    "Verif.ZiFreq.Examples.wrong_channel",
    "Verif.ZiFreq.Examples.second_unmodulated",
    "Verif.ZiFreq.Examples.generic_refused",
    "Verif.ZiFreq.Examples.phase_lost"
   ],
   "note": "Missing because the code violates it: channels that share a local oscillator emit at a wrong frequency unless their clocks and intermediate frequencies are equally far apart (shared_lo, shared_wrong, with the example configuration of the repository); if both frequencies are given they are not compared with the clock (given_frequencies, unchecked); of two frequencies for a local oscillator, the order of a set decides (order_matters); a port whose name is part of the name of another node can be played on a wrong channel (wrong_channel); of several channels of a port only the first is modulated (second_unmodulated); the phase starts anew with every pulse (phase_coherent, phase_lost). Proved without these: one channel per local oscillator and no frequency given for it."
  },
  {
   "property": "C79",
   "status": "proved",
   "theorems": [
    "Verif.DcComp.given_duration",
    "Verif.DcComp.given_amplitude",
    "Verif.DcComp.refused",
    "Verif.DcComp.returned",
    "Verif.DcComp.others_ignored",
    "Verif.DcComp.decomposed",
    "Verif.DcComp.decomposed_signal",
    "Verif.DcComp.decomposes_iff",
    "Verif.DcComp.reference_dropped",
    "Verif.DcComp.bodies_ignored",
    "Verif.DcComp.offset_refused",
    "Verif.DcComp.zero_amplitude",
    "Verif.DcComp.no_samples",
    "Verif.DcComp.short_refused",
    "Verif.DcComp.exOps_area",
    "Verif.DcComp.exOps_created",
    "Verif.DcComp.exDecomposed"
   ],
   "note": "Stated for pulses with a waveform and at least one sample. Deviations from the documentation, proved: the argument reference_magnitude is dropped (reference_dropped), pulses in loops and conditionals are silently not compensated (bodies_ignored), an offset on the port is an AttributeError (offset_refused), an amplitude of 0 gives ZeroDivisionError or an infinite duration (zero_amplitude), a pulse without samples an amplitude that is nan (no_samples); a pulse shorter than duration_max is refused (short_refused)."
  },
  {
   "property": "C80",
   "status": "partial",
   "theorems": [
    "Verif.MockRom.each_measured",
    "Verif.MockRom.no_gaps",
    "Verif.MockRom.trace_samples_partial",
    "Verif.MockRom.only_supported",
    "Verif.MockRom.history_irrelevant",
    "Verif.MockRom.gettable_eq",
    "Verif.MockRom.not_prepared",
    "Verif.MockRom.nothing_to_run",
    "Verif.MockRom.slow_rate",
    "Verif.MockRom.trace_coords_lost",
    "Verif.MockRom.second_pulse_lost",
    "Verif.MockRom.wrong_time_axis",
    "Verif.MockRom.acquisition_dropped",
    "Verif.MockRom.underscore_fails",
    "Verif.MockRom.other_port_fails",
    "Verif.MockRom.stale_data",
    "Verif.MockRom.exCompiled",
    "Verif.MockRom.exMeasured",
    "Verif.MockRom.exHypotheses"
   ],
   "note": "The averaged acquisitions are as stated for every schedule that compiles, where the names of the inputs contain no underscore. The code does not meet the rest, witnesses are proved: all traces show the first pulse of the schedule (second_pulse_lost), with a sampling rate that is no multiple of 1 GHz, such as that of the configuration in the module, the time axis is wrong (wrong_time_axis), below 1 GHz there is a ZeroDivisionError (slow_rate), coordinates of traces are lost (trace_coords_lost), acquisitions of operations with pulses are dropped (acquisition_dropped), underscores in names and readout ports other than q0:res fail (underscore_fails, other_port_fails), a schedule without acquisitions compiles but cannot be started (nothing_to_run), and results of an earlier schedule are returned when start is forgotten (stale_data)."
  },
  {
   "property": "C81",
   "status": "proved",
   "theorems": [
    "Verif.Instruments.instruments",
    "Verif.Instruments.oscillators",
    "Verif.Instruments.accepted",
    "Verif.Instruments.every_clock",
    "Verif.Instruments.last_clock",
    "Verif.Instruments.Examples.tidy",
    "Verif.Instruments.Examples.dicts",
    "Verif.Instruments.Examples.compiles",
    "Verif.Instruments.Examples.programs",
    "Verif.Instruments.Examples.programs_rest",
    "Verif.Instruments.Examples.inner_clock_wins",
    "Verif.Instruments.Examples.option_none_fails",
    "Verif.Instruments.Examples.cluster_generic",
    "Verif.Instruments.Examples.threshold_in_options_refused",
    "Verif.Instruments.Examples.trigger_wrong_module"
   ],
   "note": "What happens inside a module is an arbitrary function of its settings that may fail (modelled for the other properties). Findings: a clock that an inner schedule defines differently takes that frequency everywhere (C44 excludes it in the full compilation), options set to None crash, a cluster named generic mixes with the local oscillators, a threshold in the hardware options is not used for the external trigger although the error message says so, a trigger at a module that is no QTM is only refused if the schedule uses that module."
  },
  {
   "property": "C82",
   "status": "proved",
   "theorems": [
    "Verif.Ops.stored",
    "Verif.Ops.wrong_arguments",
    "Verif.Ops.accepted",
    "Verif.Ops.square_window",
    "Verif.Ops.threshold_results",
    "Verif.Ops.numerical_weights",
    "Verif.Ops.separate_weights",
    "Verif.Ops.count_threshold",
    "Verif.Ops.two_thresholds",
    "Verif.Ops.net_zero_duration",
    "Verif.Ops.numerical_contents",
    "Verif.Ops.simple_contents",
    "Verif.Ops.sigma_default",
    "Verif.Ops.conditional_iff",
    "Verif.Ops.Examples.square_made",
    "Verif.Ops.Examples.square_holds",
    "Verif.Ops.Examples.square_unknown",
    "Verif.Ops.Examples.average_is_distribution",
    "Verif.Ops.Examples.average_index_refused",
    "Verif.Ops.Examples.average_index_zero",
    "Verif.Ops.Examples.unequal_weights"
   ],
   "note": "Numbers are rationals. Findings: trigger counts with the average bin mode are silently collected in a distribution; averaged thresholded counts are refused with the default acquisition index None; weights of different lengths are accepted; TimetagTrace does not check the name of its time reference."
  },
  {
   "property": "C83",
   "status": "partial",
   "theorems": [
    "Verif.Ops.round_trip_partial",
    "Verif.Ops.same_text_same_operation",
    "Verif.Ops.text_history",
    "Verif.Ops.numeric_round_trip_partial",
    "Verif.Ops.separated_unprintable",
    "Verif.Ops.dual_unprintable",
    "Verif.Ops.numeric_unprintable",
    "Verif.Ops.threshold_not_printed",
    "Verif.Ops.simple_grows",
    "Verif.Ops.simple_after_numerical",
    "Verif.Ops.Examples.square_made",
    "Verif.Ops.Examples.weights_printed",
    "Verif.Ops.Examples.string_bin_mode",
    "Verif.Ops.Examples.thresholds_same_text",
    "Verif.Ops.Examples.simple_made",
    "Verif.Ops.Examples.unprintable"
   ],
   "note": "Proved for 26 of the 32 classes, for strings without quotes, and for two more classes under conditions. False of the code for the others, which is proved: WeightedIntegratedSeparated and DualThresholdedTriggerCount raise KeyError when printed; numerical integrations raise with fewer than two weights or a bin mode given as a string (also after evaluating a text); WeightedThresholdedAcquisition does not print threshold and label; the text of SimpleNumericalPulse makes a pulse that is 1 ns longer, and cannot be evaluated if a NumericalPulse was printed before it."
  },
  {
   "property": "C84",
   "status": "partial",
   "theorems": [
    "Verif.ZiFiles.read_back_partial",
    "Verif.ZiFiles.read_back_exactly_partial",
    "Verif.ZiFiles.hd_readable",
    "Verif.ZiFiles.unknown_type",
    "Verif.ZiFiles.not_written",
    "Verif.ZiFiles.uh_written",
    "Verif.ZiFiles.uhfqa_unreadable",
    "Verif.ZiFiles.wave_differs",
    "Verif.ZiFiles.two_readable",
    "Verif.ZiFiles.two_back",
    "Verif.ZiFiles.one_single",
    "Verif.ZiFiles.one_back",
    "Verif.ZiFiles.twice",
    "Verif.ZiFiles.reordered",
    "Verif.ZiFiles.trace_lost",
    "Verif.ZiFiles.unknown"
   ],
   "note": "Partial because the code does not have the full property: waveforms are read back as fractions of full scale (wave_differs), of a node set twice only the last setting is kept, at the place of the first (twice, reordered), and the settings of a compiled UHFQA are never read back, because of the node qas/0/rotations/* (uhfqa_unreadable; uh_written shows that they are written). Proved: for every list of settings a builder makes for single nodes (all compiled HDAWGs, hd_readable) and any previous contents of the directory, the programs are read back, and each node once, in the order of first settings, with its last value; exactly the same settings if no node is set twice and there are no waveforms. Files of other instruments are untouched, and do not matter."
  },
  {
   "property": "C85",
   "status": "partial",
   "theorems": [
    "Verif.OldConfig.convert_ok_partial",
    "Verif.OldConfig.options_partial",
    "Verif.OldConfig.graph_partial",
    "Verif.OldConfig.mixers_partial",
    "Verif.OldConfig.channels_partial",
    "Verif.OldConfig.los_partial",
    "Verif.OldConfig.clusters_partial",
    "Verif.OldConfig.modules_partial",
    "Verif.OldConfig.corrections_partial",
    "Verif.OldConfig.known",
    "Verif.OldConfig.good_wellFormed",
    "Verif.OldConfig.good_wants",
    "Verif.OldConfig.good_converted",
    "Verif.OldConfig.key_after",
    "Verif.OldConfig.key_before",
    "Verif.OldConfig.complex_key_after",
    "Verif.OldConfig.gain_lost",
    "Verif.OldConfig.gain_overwritten",
    "Verif.OldConfig.option_dropped",
    "Verif.OldConfig.mixer_shared"
   ],
   "note": "Partial because the code does not have the full property: a key after portclock_configs in a real channel is a KeyError (key_after; in complex channels the order does not matter, complex_key_after), the initial gains of a real channel are lost if another sequencer option is given (gain_lost), of input_gain_0 and input_gain_1 only the later is kept (gain_overwritten), a sequencer option that is not in a list is dropped unless one of the list is there (option_dropped), and two channels with one local oscillator get the same mixer (mixer_shared). Proved for all configurations without the first three (WellFormed): the conversion succeeds; a hardware option has a value iff it is wanted (both directions, for all port-clocks and fields); the graph has exactly the edges that are meant; mixers, descriptions and corrections are exactly those given. Not modelled: warnings, the values themselves, which names of port-clocks are equal when joined with a dash."
  },
  {
   "property": "C86",
   "status": "partial",
   "theorems": [
    "Verif.ZiOld.convert_ok_partial",
    "Verif.ZiOld.options_partial",
    "Verif.ZiOld.graph_partial",
    "Verif.ZiOld.mixers_partial",
    "Verif.ZiOld.channels_partial",
    "Verif.ZiOld.devices_partial",
    "Verif.ZiOld.los_partial",
    "Verif.ZiOld.known",
    "Verif.ZiOld.good0_has",
    "Verif.ZiOld.good0_wellFormed",
    "Verif.ZiOld.good0_converted",
    "Verif.ZiOld.uhfqa_capital",
    "Verif.ZiOld.modulation_dropped",
    "Verif.ZiOld.parameter_lost",
    "Verif.ZiOld.channel_dropped",
    "Verif.ZiOld.mixed"
   ],
   "note": "Partial because the code does not have the full property: mixer corrections of a UHFQA keep capital letters in their names and are then refused, those of an HDAWG do not (uhfqa_capital); the name of the parameter in the frequency of a local oscillator is lost (parameter_lost; that of its power is kept); modulations of other types than premod are dropped (modulation_dropped), and so are channels of a UHFQA other than the first (channel_dropped); two channels with one port-clock are mixed up (mixed). Proved for all configurations with different port-clocks, existing local oscillators and complete keys (WellFormed): the conversion succeeds; a hardware option has a value iff a channel wants it; the graph has exactly the edges that are meant; mixers, channels, devices and local oscillators are described exactly as they were given. Gains that count as false (zero, which is the default) are not written. Not modelled: warnings and validation of values."
  },
  {
   "property": "C87",
   "status": "partial",
   "theorems": [
    "Verif.SpinInit.asap_meant_partial",
    "Verif.SpinInit.meant_unique",
    "Verif.SpinInit.zero_rate",
    "Verif.SpinInit.alap_never_meant",
    "Verif.SpinInit.negative_duration",
    "Verif.SpinInit.exArgs_asap",
    "Verif.SpinInit.exArgs_alap"
   ],
   "note": "Partial because the code does not have the full property: the constraints leave references and points to the defaults of the strategy, so that with ALAP the child's square starts when the parent's ends, for all arguments with a positive duration (alap_never_meant). Proved for ASAP and all rational arguments with square_duration >= 0 and rates not 0, through the model of the timing pass. Also: a rate of 0 is a ZeroDivisionError; a rate whose sign is not that of the amplitude gives a ramp of negative duration, which is not refused (negative_duration)."
  },
  {
   "property": "C88",
   "status": "partial",
   "theorems": [
    "Verif.Warnings.schedule_wins",
    "Verif.Warnings.warned_iff",
    "Verif.Warnings.same_length_partial",
    "Verif.Warnings.scalar_array",
    "Verif.Warnings.lengths_not_warned",
    "Verif.Warnings.broadcast_compatible",
    "Verif.Warnings.exClocks"
   ],
   "note": "Partial because the code does not have the full property: arrays of different lengths that cannot be broadcast are called incompatible without a warning (lengths_not_warned), and an array of one frequency is called compatible with a longer one (broadcast_compatible), against the documentation. Proved: which frequency wins and for which clocks the comparison is made, for all configurations; for single frequencies and arrays of the same length a warning iff they are inconsistent; for a single frequency against an array a warning iff some entry differs. Assumes that numpy raises ValueError when shapes do not fit."
  },
  {
   "property": "C89",
   "status": "partial",
   "theorems": [
    "Verif.Warnings.time_ref_warned_partial",
    "Verif.Warnings.one_ref",
    "Verif.Warnings.only_timetag",
    "Verif.Warnings.exRefs",
    "Verif.Warnings.exOnly"
   ],
   "note": "Partial because the code does not have the full property: without an acquisition with protocol Timetag nothing is checked, so that a TimetagTrace relative to a missing timestamp, and a lone Timestamp, are not reported (only_timetag, exOnly). Proved for all sequences of operations whose acquisition settings could be made (model of C57): the first warning iff a Timetag is relative to a timestamp and there is none; the second iff there are Timetags and a Timestamp, and no Timetag is relative to it."
  }
 ]
}