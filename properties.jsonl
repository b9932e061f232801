{"id": "C01", "title": "ASAP timing satisfies every timing constraint", "statement": "After compiling with the ASAP strategy, if timing succeeds, every operation starts no earlier than each of its timing constraints demands (reference operation's start/centre/end plus rel_time plus the reference operation's next_operation_delay, minus the operation's own 0/half/full duration), and every operation except the single root meets at least one of its constraints with equality; the root is the one that gets time zero before normalisation.", "quantifier": "every schedule (any number of operations, any reference graph, any reference points, any rational durations and relative times) that the timing pass accepts", "why_tests_cant": "the number of reference graphs and topological orders is unbounded; a test only fixes a handful of graphs", "anchors": ["quantify_scheduler/compilation.py:_determine_absolute_timing_schedule", "quantify_scheduler/compilation.py:_get_start_time", "quantify_scheduler/compilation.py:_apply_operation_delays"]}
{"id": "C02", "title": "Operations added without a reference run back to back", "statement": "A schedule built by adding operations with no explicit reference is timed so that operation k starts exactly at the sum of the durations of operations 0..k-1 (plus the rel_times and delays), hence operations with non-negative relative times never overlap and start in insertion order.", "quantifier": "every list of operations with any durations", "why_tests_cant": "needs induction over the length of the schedule", "anchors": ["quantify_scheduler/compilation.py:_make_timing_constraints_explicit", "quantify_scheduler/compilation.py:_determine_absolute_timing_schedule", "quantify_scheduler/schedules/schedule.py:Schedule.add"]}
{"id": "C03", "title": "Absolute times are never negative and normalisation is a translation", "statement": "After timing, every absolute time is >= 0, and the difference between any two absolute times is what it was before normalisation; if no time was negative, nothing changes.", "quantifier": "every schedule and every assignment of times", "why_tests_cant": "quantifies over all schedules and all pairs of operations", "anchors": ["quantify_scheduler/compilation.py:_normalize_absolute_timing"]}
{"id": "C04", "title": "ALAP timing satisfies the timing constraint exactly and is anchored on the last operation", "statement": "With the ALAP strategy, when timing succeeds every operation meets its one timing constraint with equality, and operations added without reference end exactly where the next one starts; a schedulable with several constraints is rejected.", "quantifier": "every schedule accepted under ALAP", "why_tests_cant": "unbounded reference graphs", "anchors": ["quantify_scheduler/compilation.py:_make_timing_constraints_explicit_for_schedulable", "quantify_scheduler/compilation.py:_get_start_time"]}
{"id": "C05", "title": "ASAP timing is the unique least solution, independent of the order of evaluation", "statement": "The ASAP times do not depend on which topological order the graph library returns, and are pointwise the least times satisfying all constraints with the root at zero.", "quantifier": "every schedule, every topological order, every competing assignment of times satisfying the constraints", "why_tests_cant": "ranges over all topological orders and all alternative solutions", "anchors": ["quantify_scheduler/compilation.py:_determine_absolute_timing_schedule"]}
{"id": "C06", "title": "Circular or dangling references are rejected, everything else is timed", "statement": "Timing raises an error if the references contain a cycle or name an absent operation, and succeeds for every acyclic closed reference graph.", "quantifier": "every reference graph", "why_tests_cant": "cycles of every length must be found", "anchors": ["quantify_scheduler/compilation.py:_validate_schedulable_references", "quantify_scheduler/compilation.py:_populate_references_graph"]}
{"id": "C07", "title": "The reported schedule duration covers every operation and multiplies by repetitions", "statement": "The schedule duration is the latest operation end (at least 0), times the repetitions: no operation ends later, and when positive some operation ends exactly there. Loop duration = repetitions * body duration.", "quantifier": "every timed schedule", "why_tests_cant": "a maximum over lists of any length, nested to any depth", "anchors": ["quantify_scheduler/schedules/schedule.py:ScheduleBase.get_schedule_duration", "quantify_scheduler/operations/control_flow_library.py:LoopOperation.duration"]}
{"id": "C08", "title": "Timing a schedule a second time changes nothing", "statement": "Running the timing pass on a schedule that already carries absolute times gives the same absolute times. (Violated by the code when normalisation shifted the times or a next_operation_delay is present; proved where neither happens, and the violation is proved with a witness.)", "quantifier": "every schedule", "why_tests_cant": "needs every prior state of the schedule, including stale times", "anchors": ["quantify_scheduler/compilation.py:_determine_absolute_timing_schedule", "quantify_scheduler/compilation.py:_apply_operation_delays"]}
{"id": "C09", "title": "Adding to a schedule keeps labels unique and order of insertion, and a failed add changes nothing", "statement": "Through any history of additions, labels of a schedule are pairwise distinct, schedulables stay in insertion order, each label keeps the operation it was added with, and a rejected addition leaves the schedule unchanged.", "quantifier": "every history of additions, successful or rejected", "why_tests_cant": "invariant over histories of any length", "anchors": ["quantify_scheduler/schedules/schedule.py:Schedule.add", "quantify_scheduler/schedules/schedule.py:Schedule._add", "quantify_scheduler/schedules/schedule.py:ScheduleBase.add_resource"]}
{"id": "C10", "title": "Merging consecutive Rz gates preserves the circuit's phase evolution", "statement": "Merging neighbouring Rz gates on one qubit keeps the accumulated phase seen by each non-Rz operation and at the end of the circuit. (Violated by the code when one Rz operation object is used by several schedulables; proved for schedules whose Rz operations are each used once, and the violation is proved with a witness.)", "quantifier": "every sequence of gates on any qubits", "why_tests_cant": "sharing patterns and sequences are unbounded", "anchors": ["quantify_scheduler/compilation.py:_merge_rz_gates"]}
{"id": "C11", "title": "A live sequencer register is never handed out twice", "statement": "Through any history of allocations and frees, registers in use and registers available are disjoint, without repeats and together exactly R0..R63; an allocation returns a register not in use, fails only when all 64 are in use, and freeing it makes it the next one allocated.", "quantifier": "every history of register allocation and release, including nested temporary registers", "why_tests_cant": "histories are unbounded", "anchors": ["quantify_scheduler/backends/qblox/register_manager.py:RegisterManager"]}
{"id": "C12", "title": "A wait of any length waits exactly that long", "statement": "For every wait time, the emitted wait instructions, executed, take exactly the requested number of nanoseconds, every single wait is at most the sequencer's immediate maximum of 65532 ns and at least 1 ns; zero emits nothing, negative is rejected. (The hardware minimum of 4 ns is not kept by the code: 65533 ns is split into 65532 and 1, proved as a finding.)", "quantifier": "every integer wait time", "why_tests_cant": "wait times of any length, emitted as loops whose iteration count is unbounded", "anchors": ["quantify_scheduler/backends/qblox/qasm_program.py:QASMProgram.auto_wait"]}
{"id": "C13", "title": "Compiled loops run their body exactly the requested number of times", "statement": "For 1 <= repetitions < 2^32, executing the emitted loop runs the body exactly `repetitions` times (0 runs it 2^32 times: proved as a finding), nested to any depth, without disturbing any register held by an enclosing loop, and the compiler's elapsed-time count equals the real time taken.", "quantifier": "every nesting of loops with any repetition counts", "why_tests_cant": "nesting depth and counts are unbounded", "anchors": ["quantify_scheduler/backends/qblox/qasm_program.py:QASMProgram.loop", "quantify_scheduler/backends/qblox/qasm_program.py:QASMProgram.temp_registers", "quantify_scheduler/backends/qblox/compiler_abc.py:SequencerCompiler._parse_operations"]}
{"id": "C14", "title": "Every operation executes at its scheduled time in every repetition", "statement": "In the compiled sequencer program every real-time operation starts at its scheduled time on the nanosecond grid after the start of the repetition, in the schedule's order, and each repetition takes exactly the schedule's total time; if the operations cannot be met in time compilation fails.", "quantifier": "every list of operations (with nested loops), every total time and repetition count", "why_tests_cant": "relates the executed instruction stream to the schedule for all schedules", "anchors": ["quantify_scheduler/backends/qblox/compiler_abc.py:SequencerCompiler.generate_qasm_program", "quantify_scheduler/backends/qblox/compiler_abc.py:SequencerCompiler._parse_operations", "quantify_scheduler/backends/qblox/qasm_program.py:QASMProgram.wait_till_start_operation"]}
{"id": "C15", "title": "Both outcomes of a conditional take the same time", "statement": "Whether or not the trigger condition holds, the emitted conditional block takes the same time, which is what the compiler counts. (Violated by the code when the body contains a loop, the alternative wait is longer than one instruction, a gap is 1..3 ns, or an instruction is miscounted; proved otherwise and the violation proved with witnesses.)", "quantifier": "every conditional body and both outcomes", "why_tests_cant": "ranges over all bodies", "anchors": ["quantify_scheduler/backends/qblox/qasm_program.py:QASMProgram.conditional", "quantify_scheduler/backends/qblox/conditional.py:ConditionalManager"]}
{"id": "C16", "title": "Feedback labels map one-to-one to trigger addresses", "statement": "Two uses of feedback labels get the same trigger address exactly when the labels are equal; addresses are 1..15, more labels than that are rejected.", "quantifier": "every schedule of conditional acquisitions and conditionals", "why_tests_cant": "unbounded number of labels and orders", "anchors": ["quantify_scheduler/backends/qblox_backend.py:compile_conditional_playback", "quantify_scheduler/backends/qblox_backend.py:_set_conditional_info_map"]}
{"id": "C17", "title": "A conditional only runs after a conditional acquisition with its label, used once", "statement": "Compilation accepts a schedule iff, in time order, every conditional is preceded by an acquisition with its label not yet consumed by another conditional, and no new conditional acquisition is made while a label is unconsumed.", "quantifier": "every timed sequence of conditional acquisitions and conditionals", "why_tests_cant": "sequences of any length", "anchors": ["quantify_scheduler/backends/qblox_backend.py:compile_conditional_playback"]}
{"id": "C18", "title": "Hardware acquisition bins of different acquisitions never overlap", "statement": "Through any history of reservations, the (hardware index, bin) pairs handed out are pairwise distinct; different channels get different hardware indices; each index's declared number of bins is exactly the bins handed out; and the map back to channel and index is the inverse.", "quantifier": "every history of bin, index and trace reservations", "why_tests_cant": "histories unbounded", "anchors": ["quantify_scheduler/backends/qblox/qblox_acq_index_manager.py:QbloxAcquisitionIndexManager"]}
{"id": "C19", "title": "Acquisition indices of a channel are 0..n-1, each used once", "statement": "The acquisition indices generated for a channel over the whole schedule, loops expanded, are exactly 0..n-1 with no repetition; explicit indices come first and equal the indices assigned (averaged acquisitions), the others follow, within each schedule in order of start time; the stored coordinates at an index are those of its acquisition; mixing protocols or bin modes on a channel is rejected.", "quantifier": "every schedule with nested loops and any mixture of channels", "why_tests_cant": "unbounded nesting and repetition", "anchors": ["quantify_scheduler/helpers/generate_acq_channels_data.py:generate_acq_channels_data"]}
{"id": "C20", "title": "Removing redundant parameter updates does not change what the hardware applies", "statement": "After removing redundant upd_param operations, every real-time instruction sees the same applied parameters at the same time as before.", "quantifier": "every sequence of parameter instructions, updates and real-time operations", "why_tests_cant": "sequences of any length", "anchors": ["quantify_scheduler/backends/qblox/compiler_abc.py:SequencerCompiler._remove_redundant_update_parameters"]}
{"id": "C21", "title": "Stacking overlapping pulses preserves the played amplitude at each instant", "statement": "After overlapping square pulses on a port-clock are stacked, no two stacked pulses overlap and at each instant the played amplitude equals the sum of the amplitudes of the original pulses.", "quantifier": "every set of pulses and every instant", "why_tests_cant": "quantifies over all instants and arrangements", "anchors": ["quantify_scheduler/backends/qblox/stack_pulses.py:stack_pulses"]}
{"id": "C22", "title": "RF switch windows cover every pulse and do not overlap", "statement": "The windows generated for the RF switch cover every pulse with the ramp buffer on each side (clamped at zero), are in order and disjoint, and contain no instant further than the allowed gap from a pulse.", "quantifier": "every set of pulses and ramp buffer", "why_tests_cant": "all arrangements of intervals", "anchors": ["quantify_scheduler/backends/qblox/auto_rf_switch.py"]}
{"id": "C23", "title": "Crosstalk compensation yields the intended signals", "statement": "If the compensation matrix is the inverse of the crosstalk matrix, the superposition at each target of all compensated pulses is exactly the original pulse.", "quantifier": "every matrix size, pulses and instants", "why_tests_cant": "linear algebra of any dimension", "anchors": ["quantify_scheduler/backends/qblox/crosstalk_compensation.py"]}
{"id": "C24", "title": "Latency corrections are relative: non-negative, minimum zero, differences kept", "statement": "The relative latency of each port-clock is its configured latency (0 if missing) minus the minimum: all are >= 0, at least one is 0, and differences between port-clocks equal configured differences.", "quantifier": "every set of port-clocks and configuration", "why_tests_cant": "all maps", "anchors": ["quantify_scheduler/backends/corrections.py:determine_relative_latency_corrections"]}
{"id": "C25", "title": "Pulse compensation cancels the integral on every compensated port", "statement": "After compensation, on each compensated port the integral of all pulses over the schedule, loops counted, including the added compensation pulse is zero; the compensation amplitude does not exceed the maximum, its duration is on the grid, and it starts after the last pulse.", "quantifier": "every schedule with nested loops, grid and amplitude", "why_tests_cant": "unbounded nesting and pulses", "anchors": ["quantify_scheduler/pulse_compensation.py:compensate_pulses"]}
{"id": "C26", "title": "Grid rounding accepts only times on the grid and returns the nearest multiple", "statement": "Conversion of a time to integer nanoseconds returns a multiple of the grid that is within the tolerance of the given time, is monotone, and fails exactly when no such multiple exists.", "quantifier": "every rational time", "why_tests_cant": "all times", "anchors": ["quantify_scheduler/backends/qblox/helpers.py:to_grid_time"]}
{"id": "C27", "title": "Waveforms in the sequencer memory keep unique indices and are shared iff equal", "statement": "Through any history of additions, waveform entries have distinct indices, a waveform equal to a stored one reuses it, every index returned keeps naming the same samples.", "quantifier": "every history of waveform additions", "why_tests_cant": "histories unbounded", "anchors": ["quantify_scheduler/backends/qblox/helpers.py:add_to_wf_dict_if_unique", "quantify_scheduler/backends/qblox/helpers.py:generate_waveform_dict"]}
{"id": "C28", "title": "NCO phase and frequency arguments are in range and denote the requested value", "statement": "The integer phase argument is in the hardware range and denotes the requested phase modulo a turn up to half a step; the frequency argument is within half a step and in range, otherwise error.", "quantifier": "every rational phase and frequency", "why_tests_cant": "all values", "anchors": ["quantify_scheduler/backends/qblox/helpers.py:get_nco_phase_arguments", "quantify_scheduler/backends/qblox/helpers.py:get_nco_set_frequency_arguments"]}
{"id": "C29", "title": "Stitched pulses put out what they stand for", "statement": "Replacing the long square and ramp pulses of an operation by voltage offsets and short waveforms keeps the output on every port and clock at every time, for ramps whose duration is a whole number of nanoseconds and whose offset is zero or less than 1e8 times the amplitude, if the long pulses of the operation overlap neither each other nor a voltage offset; all other pulses are kept and no long pulse is left; other ramps are refused. A stitched pulse built by hand puts out its pulses and, at each time, the offset asked for, and zero after its end; overlapping offsets are refused; a staircase holds equally spaced values. (Witnesses show that each exception is a real violation: flat ramps with an offset, overlapping long pulses, an offset held during a long pulse.)", "quantifier": "every list of pulses, every sequence of builder calls, every time", "why_tests_cant": "every instant of every waveform of every arrangement", "anchors": ["quantify_scheduler/backends/qblox/operations/pulse_factories.py:long_square_pulse", "quantify_scheduler/backends/qblox/operations/pulse_factories.py:long_ramp_pulse", "quantify_scheduler/backends/qblox/operations/pulse_factories.py:staircase_pulse", "quantify_scheduler/backends/qblox/operations/stitched_pulse.py:StitchedPulseBuilder", "quantify_scheduler/backends/qblox_backend.py:compile_long_pulses_to_awg_offsets"]}
{"id": "C30", "title": "Overlapping pulses with voltage offsets are rejected", "statement": "A schedule in which a pulse containing a voltage offset overlaps another pulse on the same port and clock is rejected. (Violated by the code; soundness of the rejection is proved, and the missed cases with witnesses.)", "quantifier": "every timed list of operations", "why_tests_cant": "all arrangements", "anchors": ["quantify_scheduler/backends/qblox_backend.py:validate_non_overlapping_stitched_pulse"]}
{"id": "C31", "title": "Expanded timing of nested schedules and loops", "statement": "The list of operations handed to sequencers contains for nested schedules and loops each operation at its nested absolute offset, every operation on a port-clock reaches the sequencer of that port-clock exactly once with its own acquisition indices, unknown port-clocks are rejected, and control-flow begin and end markers are well bracketed after the stable sort by time if loops and conditionals overlap nothing else on the port-clock. (Findings with witnesses: an operation added before a conditional but starting at its end is captured by it; clock operations in a loop escape it on other ports; loops over waits or inline assembly are rejected.)", "quantifier": "every nesting of schedules, loops and conditionals", "why_tests_cant": "unbounded nesting", "anchors": ["quantify_scheduler/backends/qblox/helpers.py:_get_list_of_operations_for_op_info_creation", "quantify_scheduler/backends/qblox/helpers.py:assign_pulse_and_acq_info_to_devices"]}
{"id": "C32", "title": "Append-mode acquisitions fill consecutive bins", "statement": "In append bin mode the acquisition of repetition r goes to a bin no other (repetition, acquisition) of the same hardware index uses, and the bins used over all repetitions are exactly 0..n*R-1.", "quantifier": "every number of repetitions, acquisitions, loops", "why_tests_cant": "unbounded repetitions", "anchors": ["quantify_scheduler/backends/qblox/compiler_abc.py:SequencerCompiler._initialize_append_mode_registers", "quantify_scheduler/backends/qblox/operation_handling/acquisitions.py"]}
{"id": "C33", "title": "Logical inversion of trigger operators is negation", "statement": "Inverting a feedback trigger condition is an involution and is true exactly when the original is false, for every set of latched addresses.", "quantifier": "every operator, mask and latch state", "why_tests_cant": "all masks and latch states", "anchors": ["quantify_scheduler/backends/qblox/enums.py:FeedbackTriggerOperator", "quantify_scheduler/backends/qblox/conditional.py:FeedbackTriggerCondition"]}
{"id": "C34", "title": "Normalised amplitude expansion stays in the register range", "statement": "Amplitude or offset values in [-1,1] are mapped monotonically to 16-bit signed integers with error of at most half a step (at most one step where clipped at the top); others rejected.", "quantifier": "every rational value", "why_tests_cant": "all values", "anchors": ["quantify_scheduler/backends/qblox/qasm_program.py:QASMProgram.expand_awg_from_normalised_range"]}
{"id": "C35", "title": "Sequencers of one schedule stay in step", "statement": "Any two sequencers of one schedule, whatever operations they have, start every repetition at the same time after synchronisation up to the difference of their latency corrections, and finish likewise.", "quantifier": "every pair of programs, number of repetitions and trigger history", "why_tests_cant": "unbounded repetitions and arbitrary programs", "anchors": ["quantify_scheduler/backends/qblox/compiler_abc.py:SequencerCompiler.generate_qasm_program"]}
{"id": "C36", "title": "Mixer frequencies add up to the clock frequency", "statement": "With mixing, the local oscillator and the intermediate frequency determined for a port-clock add up to the (possibly downconverted) clock frequency, a frequency given by the user is kept, and exactly the underconstrained, contradictory or negative settings are rejected; without mixing the oscillator is the clock.", "quantifier": "every combination of given and missing rational frequencies", "why_tests_cant": "all values", "anchors": ["quantify_scheduler/backends/qblox/helpers.py:determine_clock_lo_interm_freqs"]}
{"id": "C37", "title": "Fine delays are in the register range", "statement": "An accepted timetag fine delay is converted to an 11-bit integer within half a step of the requested delay; every delay in the documented range is accepted.", "quantifier": "every rational delay", "why_tests_cant": "all values", "anchors": ["quantify_scheduler/backends/qblox/helpers.py:convert_qtm_fine_delay_to_int"]}
{"id": "C38", "title": "A pulse is played with the requested samples", "statement": "Each waveform path is stored normalised to its peak and played with the peak as gain: each played sample is within one gain step (1/32768 of full scale) of the requested sample, paths that are not played are below one step everywhere, amplitudes above full scale are rejected.", "quantifier": "every non-empty list of samples for the two paths", "why_tests_cant": "The claim is an error bound over all real-valued waveforms.", "anchors": ["quantify_scheduler/backends/qblox/helpers.py:normalize_waveform_data", "quantify_scheduler/backends/qblox/operation_handling/pulses.py:GenericPulseStrategy", "quantify_scheduler/backends/qblox/qasm_program.py:expand_awg_from_normalised_range"]}
{"id": "C39", "title": "Operations closer than the hardware minimum are rejected", "statement": "If a sequencer program compiles, any two acquisitions it executes are at least 300 ns apart and any two pulses it plays at least 4 ns apart.", "quantifier": "every list of operations, times, nesting of loops", "why_tests_cant": "all distances and programs; a test only tries some", "anchors": ["quantify_scheduler/backends/qblox/operation_handling/acquisitions.py:AcquisitionStrategyPartial.insert_qasm", "quantify_scheduler/backends/qblox/operation_handling/pulses.py:GenericPulseStrategy.insert_qasm"]}
{"id": "C40", "title": "Retrieved data is what the hardware measured", "statement": "The dataset returned after a run has, for every acquisition channel, acquisition index and (in append mode) repetition, exactly the value that the hardware has in the bin that was assigned to it, converted as documented for the protocol; nothing is lost or invented, and two values for the same place are refused. Trigger count distributions are histograms of the counts, timetag traces are the times of events since the opening of their window.", "quantifier": "every number of sequencers, channels, acquisition indices, repetitions and all contents of the bins", "why_tests_cant": "all mappings and all bin contents, unbounded", "anchors": ["quantify_scheduler/instrument_coordinator/components/qblox.py:_AcquisitionManagerBase", "quantify_scheduler/instrument_coordinator/components/qblox.py:_QRMAcquisitionManager", "quantify_scheduler/instrument_coordinator/components/qblox.py:_QTMAcquisitionManager", "quantify_scheduler/instrument_coordinator/utility.py:check_already_existing_acquisition"]}
{"id": "C41", "title": "Gates store the rotations they are asked for", "statement": "For all angles, a rotation gate stores an angle in ]-180, 180] that differs from the given one by full turns (up to rounding to 8 digits for Rxy), the matrix it stores is unitary and the one of the requested rotation up to sign (and 2e-10), rotations that differ by full turns are the same operation, named gates store the documented matrices, and replacing composite gates (H, CNOT) in any circuit on any register changes the state by a sign at most.", "quantifier": "every angle, every circuit, every number of qubits and state", "why_tests_cant": "all angles, circuits and states", "anchors": ["quantify_scheduler/operations/gate_library.py:Rxy", "quantify_scheduler/operations/gate_library.py:Rz", "quantify_scheduler/operations/gate_library.py:_modulo_360_with_mapping", "quantify_scheduler/operations/composite_factories.py:hadamard_as_y90z", "quantify_scheduler/operations/composite_factories.py:cnot_as_h_cz_h"]}
{"id": "C42", "title": "The pulses of a circuit do what its gates do", "statement": "For every circuit of Rxy, Rz, H, CZ and CNOT gates, on calibrated qubits and edges, the pulses and clock phase shifts selected by the device configuration leave the qubits in the state given by the gates' matrices, up to a rotation of each qubit about z: all measurement results have the predicted probabilities.", "quantifier": "every circuit, number of qubits, state, calibrated amplitudes and phase corrections", "why_tests_cant": "all circuits and states", "anchors": ["quantify_scheduler/operations/pulse_factories.py:rxy_drag_pulse", "quantify_scheduler/operations/pulse_factories.py:phase_shift", "quantify_scheduler/operations/pulse_factories.py:composite_square_pulse", "quantify_scheduler/device_under_test/transmon_element.py:BasicTransmonElement._generate_config", "quantify_scheduler/device_under_test/composite_square_edge.py:CompositeSquareEdge.generate_edge_config"]}
{"id": "C43", "title": "Gates become what the device configuration says", "statement": "Compiling a schedule of gates to device level keeps schedules, their order and timing constraints, loops and conditionals; every gate gets the pulses (or the compiled schedule) that the factory of its element or edge makes from the configured parameters, the gate's own parameters and the overrides, where overrides of enclosing schedules win and only existing parameters can be overridden; gates on several elements act on each element at the same time; compilation succeeds exactly if the configuration has what is needed, everything is at device level afterwards, and device-level operations are not changed.", "quantifier": "every schedule, nesting, configuration, factory function and override", "why_tests_cant": "all nestings and configurations; unbounded", "anchors": ["quantify_scheduler/backends/circuit_to_device.py:compile_circuit_to_device_with_config_validation", "quantify_scheduler/backends/circuit_to_device.py:_compile_circuit_to_device", "quantify_scheduler/backends/circuit_to_device.py:_compile_multiplexed", "quantify_scheduler/backends/circuit_to_device.py:_get_device_repr_from_cfg"]}
{"id": "C44", "title": "Every clock has a frequency where it is used", "statement": "After the clocks are assigned, every clock used by an operation is a resource of the innermost schedule around it, with the frequency that the schedule defines anywhere, else with the one of the device; resources are kept and nothing else changes; a clock has one frequency in the whole schedule; exactly operations that are not at device level, unknown or undefined frequencies and contradictory definitions are errors.", "quantifier": "every schedule, nesting, set of resources and device configuration", "why_tests_cant": "all nestings and sets of definitions", "anchors": ["quantify_scheduler/backends/circuit_to_device.py:set_pulse_and_acquisition_clock", "quantify_scheduler/backends/circuit_to_device.py:_extract_clock_freqs", "quantify_scheduler/backends/circuit_to_device.py:_set_pulse_and_acquisition_clock", "quantify_scheduler/backends/circuit_to_device.py:_valid_clock_in_schedule"]}
{"id": "C45", "title": "What is written to JSON is read back the same", "statement": "For every schedule, compiled schedule, operation, resource or timing constraint made of the usual values (numbers, strings, complex and numpy numbers, arrays, lists, tuples, dictionaries with string keys, nested objects), from_json(to_json(x)) succeeds and returns an object of the same class with the same data, the same duration, and the schedulables in the same order; only tuples become lists and string enumeration members become strings. A document naming an unknown class is refused.", "quantifier": "every value tree of any depth and size", "why_tests_cant": "round trip over arbitrarily nested objects; tests save a few examples", "anchors": ["quantify_scheduler/json_utils.py:SchedulerJSONEncoder.default", "quantify_scheduler/json_utils.py:SchedulerJSONDecoder.decode_dict", "quantify_scheduler/json_utils.py:SchedulerJSONDecoder._get_type_from_string", "quantify_scheduler/schedules/schedule.py:ScheduleBase.__getstate__", "quantify_scheduler/schedules/schedule.py:ScheduleBase.__setstate__", "quantify_scheduler/schedules/schedule.py:CompiledSchedule.__getstate__", "quantify_scheduler/schedules/schedule.py:CompiledSchedule.__setstate__", "quantify_scheduler/operations/operation.py:Operation.__setstate__"]}
{"id": "C46", "title": "Equality and identity of operations", "statement": "Operations with the same entries are equal whatever the order of the entries and whether sequences are tuples or lists; an operation read back from JSON equals the one written.", "quantifier": "every operation, every order of its entries, every hash of strings", "why_tests_cant": "equality must hold for all contents", "anchors": ["quantify_scheduler/helpers/collections.py:make_hash", "quantify_scheduler/operations/operation.py:Operation.__eq__", "quantify_scheduler/operations/operation.py:Operation.__hash__"]}
{"id": "C47", "title": "A measurement acquires when and for as long as configured", "statement": "A dispersive measurement plays its reset, its readout pulse and its acquisition at the configured times: the pulse at the start, the acquisition after the acquisition delay and for the integration time of its protocol, voltage offsets around it if no pulse is played, and a set clock frequency that is undone at the end; the next operation starts when the acquisition window is over. Measurements of several elements at once start together. An optical measurement plays all pulses and the acquisition relative to the earliest one, and inconsistent argument lists are refused.", "quantifier": "every protocol, amplitude, duration, delay, frequency and number of elements", "why_tests_cant": "real-valued parameters and unbounded numbers of elements", "anchors": ["quantify_scheduler/operations/measurement_factories.py:dispersive_measurement_transmon", "quantify_scheduler/operations/measurement_factories.py:_dispersive_measurement", "quantify_scheduler/operations/measurement_factories.py:optical_measurement", "quantify_scheduler/backends/circuit_to_device.py:_compile_multiplexed"]}
{"id": "C48", "title": "Standard experiment schedules play the experiment they are named after", "statement": "Each experiment function of the library (T1, Ramsey, echo, CPMG, Rabi, AllXY, readout calibration, (two-tone) spectroscopy with and without NCO sweeps, trace, time traces, Chevron, multiplexed staircase readout, NV dark ESR) returns a schedule that plays exactly the named sequence once for each set point: for the i-th set point reset, the gates or pulses with the requested angles, amplitudes and delays at the right times, then a measurement with acquisition index i, one turn after the other. Arguments for which this is impossible are refused.", "quantifier": "every list of set points, every duration, amplitude, and repetition number", "why_tests_cant": "unbounded lists of arbitrary real set points; tests use a few", "anchors": ["quantify_scheduler/schedules/timedomain_schedules.py:t1_sched", "quantify_scheduler/schedules/timedomain_schedules.py:ramsey_sched", "quantify_scheduler/schedules/timedomain_schedules.py:echo_sched", "quantify_scheduler/schedules/timedomain_schedules.py:cpmg_sched", "quantify_scheduler/schedules/timedomain_schedules.py:rabi_sched", "quantify_scheduler/schedules/timedomain_schedules.py:rabi_pulse_sched", "quantify_scheduler/schedules/timedomain_schedules.py:allxy_sched", "quantify_scheduler/schedules/timedomain_schedules.py:readout_calibration_sched", "quantify_scheduler/schedules/spectroscopy_schedules.py:heterodyne_spec_sched", "quantify_scheduler/schedules/spectroscopy_schedules.py:heterodyne_spec_sched_nco", "quantify_scheduler/schedules/spectroscopy_schedules.py:two_tone_spec_sched", "quantify_scheduler/schedules/spectroscopy_schedules.py:two_tone_spec_sched_nco", "quantify_scheduler/schedules/spectroscopy_schedules.py:nv_dark_esr_sched", "quantify_scheduler/schedules/spectroscopy_schedules.py:nv_dark_esr_sched_nco", "quantify_scheduler/schedules/trace_schedules.py:trace_schedule", "quantify_scheduler/schedules/verification.py:multiplexing_staircase_schedule"]}
{"id": "C49", "title": "Pulse shapes have the documented form", "statement": "Every waveform function of the library returns one sample for each given time, of the documented shape: constant squares, ramps that rise linearly from the offset by the amplitude, staircases with equal steps, chirps whose frequency goes linearly from start to end at constant magnitude, DRAG pulses with a Gaussian and its scaled derivative whose ends have the requested offset, skewed Hermite pulses, soft squares that rise and fall monotonically to the full amplitude, sudden net zero pulses whose samples add up to zero, interpolated samples; a phase rotates the samples and keeps their magnitude.", "quantifier": "every list of real times, every amplitude, duration, phase and width", "why_tests_cant": "real-valued parameters and sample lists of any length", "anchors": ["quantify_scheduler/waveforms.py:square", "quantify_scheduler/waveforms.py:ramp", "quantify_scheduler/waveforms.py:staircase", "quantify_scheduler/waveforms.py:soft_square", "quantify_scheduler/waveforms.py:chirp", "quantify_scheduler/waveforms.py:drag", "quantify_scheduler/waveforms.py:sudden_net_zero", "quantify_scheduler/waveforms.py:interpolated_complex_waveform", "quantify_scheduler/waveforms.py:rotate_wave", "quantify_scheduler/waveforms.py:skewed_hermite"]}
{"id": "C50", "title": "Waveforms are sampled, padded, shifted and mixed without distortion", "statement": "A pulse of n sample periods is sampled at exactly the n times k/rate, for both sampling functions; durations between are rounded to the nearest number of samples (Qblox) or up (general); padding adds the fewest zeros that reach a multiple of the granularity; shifting keeps the samples and starts within half a sample of the requested time; modulation multiplies with the carrier; areas are sums of samples times the period; mixer corrections apply the documented linear map and keep the peak.", "quantifier": "every pulse, duration, sampling rate, granularity and waveform", "why_tests_cant": "all durations and rates", "anchors": ["quantify_scheduler/backends/qblox/helpers.py:generate_waveform_data", "quantify_scheduler/helpers/waveforms.py:get_waveform", "quantify_scheduler/helpers/waveforms.py:resize_waveform", "quantify_scheduler/helpers/waveforms.py:shift_waveform", "quantify_scheduler/helpers/waveforms.py:modulate_waveform", "quantify_scheduler/helpers/waveforms.py:area_pulses", "quantify_scheduler/helpers/waveforms.py:apply_mixer_skewness_corrections", "quantify_scheduler/math.py:closest_number_ceil"]}
{"id": "C51", "title": "Distortion corrections change exactly the pulses they are for", "statement": "With software distortion corrections, every pulse on a configured port-clock, at any depth of the schedule, is replaced once by its samples filtered and clipped as configured, at the same port, clock, time and for the same duration; all other pulses, the order and the structure of the schedule stay; operations with voltage offsets are left alone; compilation fails exactly if a pulse cannot be corrected. What the hardware plays stays within the clipping values.", "quantifier": "every schedule, nesting, configuration, filter and waveform", "why_tests_cant": "all nestings, filters and waveforms", "anchors": ["quantify_scheduler/backends/corrections.py:apply_software_distortion_corrections", "quantify_scheduler/backends/corrections.py:distortion_correct_pulse", "quantify_scheduler/backends/corrections.py:_is_distortion_correctable"]}
{"id": "C52", "title": "A port drives and reads exactly the channels it is wired to", "statement": "If a schedule compiles for a cluster, every used port is wired to channels of one module only, and the sequencer of each of its port-clocks is on that module and uses precisely the channels of the wiring: one channel, or an output and inputs; ports behind an IQ mixer use the channel the mixer is wired to. Ports without wires, or with wires to several modules, are refused.", "quantifier": "every connectivity graph, cluster description and set of port-clocks", "why_tests_cant": "arbitrary graphs and orders of wires", "anchors": ["quantify_scheduler/backends/qblox_backend.py:_extract_instrument_compilation_configs", "quantify_scheduler/backends/qblox_backend.py:_get_all_portclock_to_path_and_lo_name_to_path", "quantify_scheduler/backends/qblox_backend.py:_extract_module_compilation_configs", "quantify_scheduler/backends/qblox_backend.py:ChannelPath.add_channel_name_measure", "quantify_scheduler/backends/qblox_backend.py:_add_support_input_channel_names"]}
{"id": "C53", "title": "Each port-clock gets a suitable sequencer of its own", "statement": "On every module no two port-clocks share a sequencer and every sequencer can drive and read the channels of its port-clock; the assignment does not depend on the order of the configuration and is found whenever every port-clock can be served and there are enough sequencers (6, on a QTM 8).", "quantifier": "every set of port-clocks, module type and configuration order", "why_tests_cant": "all sets of port-clocks and channels", "anchors": ["quantify_scheduler/backends/qblox_backend.py:_sequencer_to_portclock", "quantify_scheduler/backends/qblox_backend.py:_extract_module_compilation_configs", "quantify_scheduler/backends/qblox/compiler_abc.py:ClusterModuleCompiler._construct_all_sequencer_compilers"]}
{"id": "C54", "title": "Every operation reaches the sequencer of its port-clock", "statement": "Every pulse and acquisition of the schedule reaches precisely the sequencer of its port-clock, once for each time it is played, with the time at which it is played, and no sequencer gets operations of others; acquisitions on modules that cannot acquire are refused.", "quantifier": "every schedule, nesting, connectivity and cluster", "why_tests_cant": "unbounded schedules and hardware configurations", "anchors": ["quantify_scheduler/backends/qblox_backend.py:hardware_compile", "quantify_scheduler/backends/qblox/compiler_abc.py:ClusterModuleCompiler.distribute_data", "quantify_scheduler/backends/qblox/helpers.py:assign_pulse_and_acq_info_to_devices", "quantify_scheduler/backends/qblox/helpers.py:generate_port_clock_to_device_map", "quantify_scheduler/backends/qblox/instrument_compilers.py:ClusterCompiler.prepare"]}
{"id": "C55", "title": "Ports emit at the frequency of their clock", "statement": "If compilation succeeds, then with the frequencies that the local oscillators and the sequencers' oscillators are set to in the end, every analog output emits at the frequency of its clock after mixing and downconversion (up to a relative error of 1e-9 where both frequencies are configured); configured frequencies are used if the port-clocks that share an oscillator agree; if all local oscillators are configured and the configured frequencies fit, compilation does not fail; setting a clock frequency during the schedule moves the emitted frequency to the new one up to an eighth of a Hertz.", "quantifier": "every set of modules, sequencers, oscillators shared between them, clocks and configured frequencies", "why_tests_cant": "oscillators are shared between port-clocks and modules, so the claim is about the end of a loop over all of them", "anchors": ["quantify_scheduler/backends/qblox/analog.py:AnalogModuleCompiler.prepare", "quantify_scheduler/backends/qblox/analog.py:RFModuleCompiler.assign_frequencies", "quantify_scheduler/backends/qblox/analog.py:BasebandModuleCompiler.assign_frequencies", "quantify_scheduler/backends/qblox/analog.py:AnalogSequencerCompiler.frequency", "quantify_scheduler/backends/qblox/instrument_compilers.py:LocalOscillatorCompiler.frequency", "quantify_scheduler/backends/types/qblox.py:RFModuleSettings.extract_settings_from_mapping", "quantify_scheduler/backends/qblox_backend.py:_extract_instrument_compilation_configs", "quantify_scheduler/backends/qblox/operation_handling/virtual.py:NcoSetClockFrequencyStrategy"]}
{"id": "C56", "title": "Configured gains, attenuations, offsets and filters are what the instrument is set to", "statement": "Gains, attenuations, mixer offsets, latency compensation and hardware distortion filters that are configured for a port-clock (or described for a channel) end up, in the unit and range of the instrument, in the parameters of the inputs and outputs of that port-clock, each parameter is written once, and parameters nothing was configured for are left alone; conflicting gains are refused.", "quantifier": "every set of port-clocks, channels and configured values", "why_tests_cant": "arbitrary sets of port-clocks that share outputs, in any order", "anchors": ["quantify_scheduler/backends/qblox/analog.py:AnalogModuleCompiler._configure_input_gains", "quantify_scheduler/backends/qblox/analog.py:AnalogModuleCompiler._configure_mixer_offsets", "quantify_scheduler/backends/qblox/analog.py:AnalogModuleCompiler._configure_distortion_correction_latency_compensations", "quantify_scheduler/backends/qblox/analog.py:RFModuleCompiler.assign_attenuation", "quantify_scheduler/backends/qblox/instrument_compilers.py:QCMCompiler._configure_hardware_distortion_corrections", "quantify_scheduler/instrument_coordinator/components/qblox.py:_configure_global_settings"]}
{"id": "C57", "title": "The settings of a sequencer fit all of its acquisitions", "statement": "If the acquisitions of a port-clock are accepted, the settings of its sequencer fit all of them: the integration length, rotation and threshold are those of every acquisition that uses them, a signal is classified 1 exactly if its rotated mean is above the threshold of the acquisition, triggers are counted at the only input of the port-clock, results are sent to the address of the label, and only if there is one, a timetag module sends a trigger exactly if the condition on the number of counts holds, times are recorded with the source and reference of all acquisitions; a sequencer with conditional parts reads exactly their addresses and plays them exactly if the condition holds. Acquisitions whose settings differ are refused, as are traces on two sequencers of a module.", "quantifier": "every list of acquisitions, protocols, durations, thresholds and addresses, every number of counts", "why_tests_cant": "arbitrary combinations of acquisitions on a sequencer, and all numbers of counts", "anchors": ["quantify_scheduler/backends/qblox/analog.py:AnalogSequencerCompiler._prepare_acq_settings", "quantify_scheduler/backends/qblox/analog.py:AnalogSequencerCompiler._prepare_thresholded_acquisition_settings", "quantify_scheduler/backends/qblox/analog.py:AnalogSequencerCompiler._get_integration_length_from_acquisitions", "quantify_scheduler/backends/qblox/analog.py:_ensure_single_scope_mode_acquisition_sequencer", "quantify_scheduler/backends/qblox/timetag.py:TimetagSequencerCompiler._prepare_acq_settings", "quantify_scheduler/backends/qblox/compiler_abc.py:SequencerCompiler._prepare_threshold_settings", "quantify_scheduler/backends/qblox/instrument_compilers.py:QTMCompiler._set_time_ref_channel"]}
{"id": "C58", "title": "Preparing a module sets it to what was compiled", "statement": "When a compiled program is loaded on a module, whatever was loaded on it before, every sequencer of the program gets its sequence, its synchronisation, its modulation, its connections to precisely the inputs and outputs of its port-clock, its mixer corrections and its acquisition settings; sequencers that are not used are not synchronised and not connected; the settings of the module are written; calibrations are run precisely for the outputs and sequencers they are configured for and whose frequencies changed; parameters nothing was compiled for keep their value; writing only the parameters that changed has the same effect as writing all of them. A program is refused exactly if it does not fit the module.", "quantifier": "every program, module type, history of the module, and result of the calibrations", "why_tests_cant": "the state left by every earlier program matters", "anchors": ["quantify_scheduler/instrument_coordinator/components/qblox.py:_QCMComponent.prepare", "quantify_scheduler/instrument_coordinator/components/qblox.py:_AnalogReadoutComponent.prepare", "quantify_scheduler/instrument_coordinator/components/qblox.py:_AnalogModuleComponent._configure_sequencer_settings", "quantify_scheduler/instrument_coordinator/components/qblox.py:_AnalogModuleComponent._configure_nco_mixer_calibration", "quantify_scheduler/instrument_coordinator/components/qblox.py:_QTMComponent.prepare", "quantify_scheduler/instrument_coordinator/utility.py:lazy_set"]}
{"id": "C59", "title": "The compiled schedule runs, and nothing else", "statement": "After any history of calls, some of which may have failed: a schedule is accepted for preparation exactly if there are components for all of its instructions and its programs fit the modules. After preparing and starting it, the sequencers that run in its instruments are exactly those the schedule uses, each runs its compiled sequence and synchronises as compiled; other instruments are not touched. After a stop nothing runs or synchronises, and if a schedule is stopped, prepared and started, no sequencer waits for one that does not run. External triggers are set up before the start, or the start is refused; parameters of other instruments are set.", "quantifier": "every history of prepare, start, stop, wait and retrieve calls, every set of instruments and every compiled schedule", "why_tests_cant": "the state left by earlier calls matters, and there are unboundedly many histories", "anchors": ["quantify_scheduler/instrument_coordinator/instrument_coordinator.py:InstrumentCoordinator", "quantify_scheduler/instrument_coordinator/components/qblox.py:ClusterComponent.prepare", "quantify_scheduler/instrument_coordinator/components/qblox.py:ClusterComponent.start", "quantify_scheduler/instrument_coordinator/components/qblox.py:ClusterComponent.stop", "quantify_scheduler/instrument_coordinator/components/qblox.py:ClusterComponent._sync_on_external_trigger", "quantify_scheduler/instrument_coordinator/components/generic.py:GenericInstrumentCoordinatorComponent._set_params_to_devices"]}
{"id": "C60", "title": "Retrieved data are those of this run", "statement": "The data returned after preparing and starting a schedule are all and only the values measured in this one run by the sequencers that the schedule has for the acquisition channels, merged over all modules of all clusters, whatever was measured before. A schedule gettable that initialises runs the schedule compiled in this call and returns its data, from whatever state the instruments were in. With repeated acquisition the data returned differ from the ones before, and the number of repetitions is bounded.", "quantifier": "every history of calls, set of instruments, schedule and behaviour of the hardware", "why_tests_cant": "depends on all earlier runs and on all combinations of modules", "anchors": ["quantify_scheduler/instrument_coordinator/instrument_coordinator.py:InstrumentCoordinator.retrieve_acquisition", "quantify_scheduler/instrument_coordinator/components/qblox.py:ClusterComponent.retrieve_acquisition", "quantify_scheduler/instrument_coordinator/components/qblox.py:ClusterComponent.start", "quantify_scheduler/gettables.py:ScheduleGettable.get", "quantify_scheduler/instrument_coordinator/instrument_coordinator.py:ZIInstrumentCoordinator.retrieve_acquisition", "quantify_scheduler/instrument_coordinator/utility.py:check_already_existing_acquisition"]}
{"id": "C61", "title": "Digital outputs are high during their pulses only", "statement": "The digital output of a sequencer (a marker of an analog module or an output of a QTM) has its high level exactly while one of its pulses is on, in every repetition of every loop and whatever conditionals decide, no matter what else the sequencer does; otherwise it has the level it had before the program started. The high level is the low level with exactly the bit of this output added, no level of another output contains this bit, and with rf_output_on the RF switches stay on; pulses on anything that is not a digital output or a switchable RF output are refused.", "quantifier": "every list of operations of a sequencer with nested loops and conditionals, every point in time, every module type and channel", "why_tests_cant": "unbounded nesting of loops and pulses, combined with the removal of redundant updates", "anchors": ["quantify_scheduler/backends/qblox/compiler_abc.py:SequencerCompiler._replace_digital_pulses", "quantify_scheduler/backends/qblox/operation_handling/pulses.py:MarkerPulseStrategy.insert_qasm", "quantify_scheduler/backends/qblox/operation_handling/pulses.py:DigitalPulseStrategy.insert_qasm", "quantify_scheduler/backends/qblox/analog.py:AnalogSequencerCompiler._write_pre_wait_sync_instructions", "quantify_scheduler/backends/qblox/instrument_compilers.py"]}
{"id": "C62", "title": "Operations too close together are refused", "statement": "A QTM sequencer is accepted exactly if consecutive edges of its pulses, and of its acquisitions, including their fine delays, are a whole number of nanoseconds or at least 7 ns apart (then any two are, if they are in order); on the hardware this holds to within one step of 1/128 ns. A sequencer of an analog module is accepted exactly if any two frequency updates, and any two phase shifts or resets, are at least 4 ns apart, in whatever order they were added.", "quantifier": "every list of operations with any times, durations and fine delays", "why_tests_cant": "all pairs of operations and all values of the delays", "anchors": ["quantify_scheduler/backends/qblox/timetag.py:TimetagSequencerCompiler._assert_fine_delays_executable", "quantify_scheduler/backends/qblox/analog.py:AnalogSequencerCompiler._assert_enough_time_between_freq_phase_updates", "quantify_scheduler/backends/qblox/helpers.py:convert_qtm_fine_delay_to_int"]}
{"id": "C63", "title": "Operations start at samples of Zurich Instruments devices, acquisitions at clock cycles", "statement": "An operation is accepted exactly if it starts, within 0.017 % of a sample, at a sample of its device; if all start at samples, the schedule is accepted. Acquisitions are moved to the start of a clock cycle of the UHFQA: all operations between two acquisitions are moved by the same time, no operation by less than an earlier one, every acquisition adds at most 7 / 600 MHz, and all operations still start at samples of their devices.", "quantifier": "every list of operations with any times on any UHFQAs and HDAWGs", "why_tests_cant": "all times and all lists of acquisitions; corrections accumulate", "anchors": ["quantify_scheduler/backends/zhinst_backend.py:_determine_clock_sample_start", "quantify_scheduler/backends/zhinst_backend.py:_add_clock_sample_starts", "quantify_scheduler/backends/zhinst_backend.py:_determine_measurement_fixpoint_correction", "quantify_scheduler/backends/zhinst_backend.py:_apply_measurement_fixpoint_correction"]}
{"id": "C64", "title": "Programs of Zurich Instruments sequencers play their instructions at their clock cycles", "statement": "If the program of an HDAWG output or of a UHFQA is made, then every repetition starts the waveform of every instruction, or the acquisition, at its clock cycle, in order, and nothing else. A program is made exactly if instructions are far enough apart (3 clock cycles on an HDAWG, 7 after an acquisition of a UHFQA), the first is late enough, the trigger exists and, without trigger, the schedule is long enough. An HDAWG without trigger repeats every int(duration * 300 MHz) clock cycles, so HDAWGs stay synchronous; a UHFQA whose instructions fit into this time starts its repetition r with repetition r of the HDAWG.", "quantifier": "every list of instructions, every table of waveforms, all markers and triggers, every number of repetitions", "why_tests_cant": "unbounded lists of instructions and repetitions; all intervals between them", "anchors": ["quantify_scheduler/backends/zhinst_backend.py:_assemble_hdawg_sequence", "quantify_scheduler/backends/zhinst_backend.py:_assemble_uhfqa_sequence", "quantify_scheduler/backends/zhinst_backend.py:_add_wave_nodes", "quantify_scheduler/backends/zhinst/seqc_il_generator.py:add_wait", "quantify_scheduler/backends/zhinst/seqc_il_generator.py:add_set_trigger", "quantify_scheduler/backends/zhinst/seqc_il_generator.py:add_execute_table_entry", "quantify_scheduler/backends/zhinst/seqc_il_generator.py:add_play_wave", "quantify_scheduler/backends/zhinst/seqc_il_generator.py:add_start_qa"]}
{"id": "C65", "title": "Every output of a Zurich Instruments device plays its own pulses", "statement": "Every output of an HDAWG in the hardware configuration gets a program and its own settings; its program plays exactly the pulses of the schedule on its port and clock, at their clock cycles and with their own samples, and starts with the markers of the output or waits for its trigger; a UHFQA likewise. Acquisitions of an output that overlap are refused.", "quantifier": "every timing table and every hardware configuration of HDAWGs and UHFQAs", "why_tests_cant": "all combinations of outputs, groupings and operations", "anchors": ["quantify_scheduler/backends/zhinst_backend.py:_compile_for_hdawg", "quantify_scheduler/backends/zhinst_backend.py:_compile_for_uhfqa", "quantify_scheduler/backends/zhinst_backend.py:construct_waveform_table", "quantify_scheduler/backends/zhinst_backend.py:_add_waveform_ids", "quantify_scheduler/backends/zhinst_backend.py:_get_instruction_list", "quantify_scheduler/backends/zhinst_backend.py:ensure_no_operations_overlap", "quantify_scheduler/backends/types/zhinst.py:Device"]}
{"id": "C66", "title": "Results of a UHFQA are the integrals of its acquisitions", "statement": "The dataset that is retrieved from a UHFQA has an array for every acquisition channel, with an entry for every acquisition on this channel: the integral, over the duration of the acquisition, of its weights times the conjugate of the input signal; averaged over the repetitions with bin mode average, one row for every repetition with bin mode append. Acquisitions that the UHFQA cannot do are refused: other protocols and bin modes, channels above 4, different durations, more than 4096 samples, different acquisitions on one channel.", "quantifier": "every list of acquisitions, all weights, every number of repetitions and all input signals", "why_tests_cant": "all lists of acquisitions and repetitions, all signals", "anchors": ["quantify_scheduler/backends/zhinst_backend.py:_compile_for_uhfqa", "quantify_scheduler/backends/zhinst/helpers.py:extract_acquisition_metadata_from_schedule", "quantify_scheduler/backends/zhinst/resolvers.py:result_acquisition_resolver", "quantify_scheduler/backends/zhinst/settings.py:ZISettingsBuilder", "quantify_scheduler/instrument_coordinator/components/zhinst.py:UHFQAInstrumentCoordinatorComponent.retrieve_acquisition"]}
{"id": "C67", "title": "The timing table lists everything that is played, when it is played", "statement": "The timing table of a compiled schedule has exactly one row for every pulse and every acquisition of every operation, in nested schedules, loops and conditionals, and for every repetition of a loop; the time in the row is the absolute time: that of the schedulables around it, plus the repetitions of loops that are over, plus its own delay. The rows are in the order of time. All of them lie within the duration of the schedule, which is the end of its last schedulable times the repetitions, and repetitions of a loop do not overlap. A schedule without times is refused.", "quantifier": "all schedules, any nesting and any number of repetitions", "why_tests_cant": "all nestings, all repetitions, any number of operations", "anchors": ["quantify_scheduler/schedules/schedule.py:ScheduleBase._generate_timing_table_list", "quantify_scheduler/schedules/schedule.py:ScheduleBase.timing_table", "quantify_scheduler/schedules/schedule.py:ScheduleBase.get_schedule_duration", "quantify_scheduler/operations/operation.py:Operation.duration", "quantify_scheduler/operations/control_flow_library.py:LoopOperation.duration"]}
{"id": "C68", "title": "A pulse diagram shows what is played, and only shows it", "statement": "For every schedule, the pulse diagram shows every pulse, offset and acquisition of every repetition on the chosen ports once, at its time: at its samples the curve of a pulse has the values of its waveform and it is 0 outside of the pulse; the curve of the voltage offsets of a port and clock has the value of the last offset that was set. This also holds if only a part of the time axis is drawn. Drawing a diagram does not change the schedule.", "quantifier": "all schedules, ports, sampling rates and parts of the time axis", "why_tests_cant": "all schedules and all limits", "anchors": ["quantify_scheduler/schedules/_visualization/pulse_diagram.py:sample_schedule", "quantify_scheduler/schedules/_visualization/pulse_diagram.py:get_sampled_pulses", "quantify_scheduler/schedules/_visualization/pulse_diagram.py:get_sampled_pulses_from_voltage_offsets", "quantify_scheduler/schedules/_visualization/pulse_diagram.py:get_sampled_acquisitions", "quantify_scheduler/schedules/_visualization/pulse_diagram.py:_extract_schedule_infos"]}
{"id": "C69", "title": "A pulse converted to a numerical pulse is played as it was", "statement": "For every operation with pulses and voltage offsets on one port and clock, the numerical pulse it is converted to is on the same port and clock, starts and ends when the operation's pulses do, and playing it gives at every sample the value of the operation's output: the voltage offset that was set last plus all pulses that are played then. Operations without pulses are not changed.", "quantifier": "all operations, any number of pulses and offsets, all times and sampling rates", "why_tests_cant": "all lists of pulses and offsets and all times", "anchors": ["quantify_scheduler/backends/qblox/operations/stitched_pulse.py:convert_to_numerical_pulse", "quantify_scheduler/backends/qblox/operations/stitched_pulse.py:StitchedPulseBuilder.build", "quantify_scheduler/operations/pulse_library.py:NumericalPulse", "quantify_scheduler/waveforms.py:interpolated_complex_waveform"]}
{"id": "C70", "title": "The hardware does what the schedule says, when it says so", "statement": "When a timed schedule is compiled for a Qblox cluster and the program of a sequencer is executed, then, apart from parameter updates and bin numbers, exactly the following happens: the set-up and synchronization of the sequencer, and in every repetition of the schedule every pulse and acquisition on the port and clock of the sequencer, at its time in the schedule counted from the start of the repetition, once for each iteration of the loops that it is in (delayed by the duration of the body per iteration), and, in a conditional, only if the condition holds. Each pulse is done by a sequencer that is connected to the channels its port is wired to.", "quantifier": "all timed schedules with nested loops and conditionals, all hardware configurations, trigger values and repetition counts", "why_tests_cant": "all schedules, all nestings of loops, all wirings and all runs of the program", "anchors": ["quantify_scheduler/backends/qblox/compiler_abc.py:ClusterCompiler.distribute_data", "quantify_scheduler/backends/qblox/compiler_abc.py:SequencerCompiler.add_operation_strategy", "quantify_scheduler/backends/qblox/compiler_abc.py:SequencerCompiler._remove_redundant_update_parameters", "quantify_scheduler/backends/qblox/compiler_abc.py:SequencerCompiler.generate_qasm_program", "quantify_scheduler/backends/qblox/operation_handling/factory_common.py:try_get_operation_strategy_common", "quantify_scheduler/backends/qblox_backend.py:_assign_pulse_and_acq_info_to_devices"]}
{"id": "C71", "title": "Each library operation does on the hardware what it asks for", "statement": "When a schedule of library operations is compiled for a Qblox module and executed, each operation has the effect it asks for, at its time: a waveform pulse is played from the waveform memory with gains such that every sample is right to within the resolution (or is silently nothing only if every sample is below a step), also when waveforms are shared with other pulses; a voltage offset, a phase shift, a new clock frequency are set to within half a step of the hardware; an acquisition is started on its channel with its own weights, integration window and time; a combination of protocol and bin mode is accepted exactly if the module supports it.", "quantifier": "all schedules of library operations with loops and conditionals, all waveforms, offsets, phases, frequencies, weights and durations, all hardware configurations and runs", "why_tests_cant": "all values, all sets of waveforms sharing the memory, all schedules and runs", "anchors": ["quantify_scheduler/backends/qblox/operation_handling/factory_analog.py:get_operation_strategy", "quantify_scheduler/backends/qblox/operation_handling/factory_timetag.py:get_operation_strategy", "quantify_scheduler/backends/qblox/operation_handling/factory_common.py:try_get_pulse_strategy_common", "quantify_scheduler/backends/qblox/operation_handling/bin_mode_compat.py:QRM_COMPATIBLE_BIN_MODES", "quantify_scheduler/backends/qblox/operation_handling/pulses.py:GenericPulseStrategy", "quantify_scheduler/backends/qblox/operation_handling/acquisitions.py:WeightedAcquisitionStrategy", "quantify_scheduler/backends/qblox/operation_handling/virtual.py:NcoSetClockFrequencyStrategy", "quantify_scheduler/backends/qblox/compiler_abc.py:SequencerCompiler._generate_awg_dict"]}
{"id": "C72", "title": "Inline assembly does in the program what it does alone", "statement": "A block of assembly put into a schedule as InlineQ1ASM (with safe labels) does, from the place where it was put, exactly what it does alone, for any meaning of the instructions: the same steps, contents of its registers and effects on the world, in registers that are free at that place, leaving all others untouched; several blocks, or the same block used several times, do not disturb one another or the rest of the program. A block is accepted exactly if enough registers are free; its waveforms keep the indices the user gave; a line of text has one meaning, and well-formed lines are accepted with any spacing.", "quantifier": "all blocks, programs around them, numbers of blocks, sets of free registers, meanings of instructions, contents of registers, runs, lines of text", "why_tests_cant": "all programs and runs, and any semantics of the instructions", "anchors": ["quantify_scheduler/backends/qblox/operation_handling/q1asm_injection_strategy.py:Q1ASMInjectionStrategy.insert_qasm", "quantify_scheduler/backends/qblox/operation_handling/q1asm_injection_strategy.py:Q1ASMInjectionStrategy.generate_data", "quantify_scheduler/backends/qblox/operations/inline_q1asm.py:InlineQ1ASM", "quantify_scheduler/backends/qblox/qasm_program.py:QASMProgram.parse_program_line", "quantify_scheduler/backends/qblox/register_manager.py:RegisterManager", "quantify_scheduler/backends/qblox/compiler_abc.py:SequencerCompiler._generate_awg_dict"]}
{"id": "C73", "title": "Compiling leaves the schedule as it was, and does not depend on what was compiled before", "statement": "When a schedule is compiled with keep_original_schedule (the default), no object of the schedule, nor of any other schedule that shares operations with it, is changed, whatever the compilation passes do and also if compilation fails; the compiled schedule shares no object with the original. The result is the same, up to the identity of objects, as when compiling in place. Each pass of the configuration runs exactly once, in order, the device passes first, each on what the one before returned; what was compiled before with the same compiler object makes no difference.", "quantifier": "all schedules (with shared and cyclic references), configurations, lists of passes, passes (any deterministic programs), compiler states, histories of compilations", "why_tests_cant": "all object graphs, all passes and all histories", "anchors": ["quantify_scheduler/backends/graph_compilation.py:QuantifyCompiler.compile", "quantify_scheduler/backends/graph_compilation.py:SerialCompiler.construct_graph", "quantify_scheduler/backends/graph_compilation.py:SerialCompiler._compilation_func", "quantify_scheduler/schedules/schedule.py:CompiledSchedule"]}
{"id": "C74", "title": "The device configuration says what the parameters of the elements say", "statement": "After any sequence of making, closing, setting, adding and removing instruments, the generated device configuration has an entry for exactly the elements and edges of the device; every argument of an operation is the value that the documented parameter was last set to (or was given to the constructor); the amplitude reference is the only one that is defined; each clock that an operation is played on has the frequency of the documented parameter. It is generated exactly if all instruments involved are open.", "quantifier": "all sequences of commands on transmons, NV centres, spins, charge sensors, edges and the quantum device; all values", "why_tests_cant": "all histories of a session", "anchors": ["quantify_scheduler/device_under_test/quantum_device.py:QuantumDevice", "quantify_scheduler/device_under_test/transmon_element.py:BasicTransmonElement", "quantify_scheduler/device_under_test/nv_element.py:BasicElectronicNVElement", "quantify_scheduler/device_under_test/spin_element.py", "quantify_scheduler/device_under_test/composite_square_edge.py", "quantify_scheduler/device_under_test/spin_edge.py", "quantify_scheduler/helpers/validators.py"]}
{"id": "C75", "title": "A quantum device that is written to JSON and read back is the same device", "statement": "A device can be written exactly if it has members and all of them are open. What is read in a new session has the same name, elements, edges, repetitions and settings, of the same classes, with the same values of their parameters, and generates the same device configuration. Reading never replaces an instrument that is open.", "quantifier": "all sessions, all values, all sessions to read in", "why_tests_cant": "all histories of a session", "anchors": ["quantify_scheduler/device_under_test/quantum_device.py:QuantumDevice.to_json", "quantify_scheduler/device_under_test/quantum_device.py:QuantumDevice.__json_setstate__", "quantify_scheduler/device_under_test/device_element.py:DeviceElement.__json_getstate__", "quantify_scheduler/device_under_test/edge.py:Edge.__json_getstate__", "quantify_scheduler/json_utils.py:SchedulerJSONDecoder"]}
{"id": "C76", "title": "The circuit diagram shows the schedule", "statement": "For every schedule of gates, pulses, acquisitions, loops and conditional operations, the diagram has one line per device element, in alphabetical order, and a line for ports that belong to no device element; each operation is drawn with its symbol on the lines of its device elements or ports; operations that start at the same time are in the same column and later operations are in later columns, all inside the picture; loops have brackets and conditional operations have arrows from the latest measurement with their label, around what is inside them.", "quantifier": "all schedules, with any nesting of sub-schedules, loops and conditional operations; all orders in which the set of ports is traversed", "why_tests_cant": "all schedules and nestings, all orders of a set", "anchors": ["quantify_scheduler/schedules/_visualization/circuit_diagram.py:circuit_diagram_matplotlib", "quantify_scheduler/schedules/_visualization/circuit_diagram.py:_walk_schedule", "quantify_scheduler/schedules/_visualization/circuit_diagram.py:_draw_operation", "quantify_scheduler/schedules/_visualization/circuit_diagram.py:_draw_loop", "quantify_scheduler/schedules/_visualization/circuit_diagram.py:_draw_conditional", "quantify_scheduler/schedules/_visualization/circuit_diagram.py:_get_device_element_and_port_map_from_schedule", "quantify_scheduler/compilation.py:_get_start_time"]}
{"id": "C77", "title": "Zurich Instruments devices are configured when prepare returns", "statement": "For every history of prepare, start and stop, when prepare of an HDAWG or UHFQA returns, also if it skips the configuration because it is the same as before, every node has the value that the last matching setting gives it: outputs, gains, offsets, clocks, command tables, waveforms, integration weights, results and monitor are those of this configuration and unused outputs are off; each AWG that is used has its program, compiled with the waveforms of this configuration; start runs exactly these AWGs, the first one last, and stop stops them.", "quantifier": "all configurations, all previous states of the device and the component, all histories of prepare, start and stop, all points at which the data server or the file system fails", "why_tests_cant": "all histories and failure points; wildcards in paths; settings are compared by their dictionaries", "anchors": ["quantify_scheduler/instrument_coordinator/components/zhinst.py:ZIInstrumentCoordinatorComponent.prepare", "quantify_scheduler/instrument_coordinator/components/zhinst.py:HDAWGInstrumentCoordinatorComponent", "quantify_scheduler/instrument_coordinator/components/zhinst.py:UHFQAInstrumentCoordinatorComponent.prepare", "quantify_scheduler/backends/zhinst/settings.py:ZISettings.apply", "quantify_scheduler/backends/zhinst/settings.py:ZISettings.as_dict", "quantify_scheduler/backends/zhinst/settings.py:ZISettings.serialize", "quantify_scheduler/backends/zhinst/settings.py:ZISettingsBuilder", "quantify_scheduler/backends/zhinst_backend.py:_compile_for_hdawg", "quantify_scheduler/backends/zhinst_backend.py:_compile_for_uhfqa"]}
{"id": "C78", "title": "Zurich Instruments outputs emit at the frequency of their clock", "statement": "If a schedule compiles for Zurich Instruments devices, every port and clock is played on exactly the channels to which the port is wired, directly or through an IQ mixer, and no channel has two of them; every channel behind a mixer is modulated with the intermediate frequency that is configured for it, its local oscillator is set such that both add up to the frequency of the clock, and pulses keep their phase with respect to the clock; configurations with which this is not possible are refused.", "quantifier": "every connectivity graph, every set of ports and clocks in every order, all local oscillators shared or not, all combinations of given and missing frequencies, all start times", "why_tests_cant": "all graphs and iteration orders of sets; local oscillators that channels share", "anchors": ["quantify_scheduler/backends/zhinst_backend.py:_generate_legacy_hardware_config", "quantify_scheduler/backends/zhinst_backend.py:_add_lo_config", "quantify_scheduler/backends/zhinst_backend.py:_parse_devices", "quantify_scheduler/backends/zhinst_backend.py:_parse_local_oscillators", "quantify_scheduler/backends/zhinst_backend.py:apply_waveform_corrections", "quantify_scheduler/backends/types/zhinst.py:Output", "quantify_scheduler/backends/types/zhinst.py:Modulation", "quantify_scheduler/helpers/collections.py:find_port_clock_path"]}
{"id": "C79", "title": "DC compensation pulses cancel what was played, decomposed pulses are the long pulse", "statement": "create_dc_compensation_pulse returns a baseband square pulse on the given port, with the given duration or (up to the sign) the given amplitude, such that the areas of all baseband pulses on that port in the given operations and of the new pulse add up to zero; it refuses an empty list, both or neither of amplitude and duration, and a duration that is not positive. decompose_long_square_pulse returns non-empty pieces of at most the maximal duration, all but the last of exactly that, which played one after the other are the long pulse at every time; with single_duration all have the maximal duration and the total is the least multiple of it that is long enough.", "quantifier": "all lists of operations, waveforms, sampling rates, amplitudes and durations", "why_tests_cant": "sums over lists of any length; all durations", "anchors": ["quantify_scheduler/operations/pulse_library.py:create_dc_compensation_pulse", "quantify_scheduler/operations/pulse_library.py:decompose_long_square_pulse", "quantify_scheduler/helpers/waveforms.py:area_pulses", "quantify_scheduler/helpers/waveforms.py:area_pulse"]}
{"id": "C80", "title": "Results of the mock readout module", "statement": "After compiling a schedule for the mock readout module, preparing and starting it, whatever was done before, retrieve_acquisition returns for every averaged SSBIntegrationComplex of the schedule one value of its own, drawn in this execution, at an acquisition index of its own in its channel and with its coordinates, and nothing else; the indices of a channel have no gaps. For every Trace it returns the pulse that is played, on its carrier, times the gain configured for the port and clock, with one sample per nanosecond, and with the coordinates of the acquisition. Schedules the backend does not support are refused when compiling.", "quantifier": "all schedules, hardware configurations, random numbers and earlier uses of the component", "why_tests_cant": "any number of acquisitions, channels and pulses, all sampling rates and all histories of the component", "anchors": ["quantify_scheduler/backends/mock/mock_rom.py:hardware_compile", "quantify_scheduler/backends/mock/mock_rom.py:MockReadoutModule.execute", "quantify_scheduler/backends/mock/mock_rom.py:MockROMGettable.get", "quantify_scheduler/backends/mock/mock_rom.py:MockROMInstrumentCoordinatorComponent", "quantify_scheduler/helpers/generate_acq_channels_data.py:generate_acq_channels_data"]}
{"id": "C81", "title": "Every used instrument gets its program, made with the settings that concern it", "statement": "Compiling for Qblox hardware gives instructions for exactly the clusters to which a port-clock of the schedule is connected (none of which is named generic) and for the local oscillators with a frequency. Those of a cluster contain its settings, the data of the acquisitions, the repetitions and the nonempty programs of its used modules, and nothing else. Each module is compiled with exactly the options given for its port-clocks, with exactly the port-clocks and local oscillators connected to it, and with every clock that the schedule or a schedule inside it defines. Compilation is refused exactly if a module cannot be compiled, an option is set to nothing, a slot is not described, or the external trigger contradicts the configuration of the module that receives it.", "quantifier": "all schedules, hardware options, clusters, modules, port-clocks, local oscillators and all programs of modules", "why_tests_cant": "any number of clusters, modules, options, port-clocks and nested schedules in any order", "anchors": ["quantify_scheduler/backends/qblox/compiler_container.py:CompilerContainer", "quantify_scheduler/backends/qblox/compiler_container.py:_extract_all_resources", "quantify_scheduler/backends/qblox_backend.py:QbloxHardwareCompilationConfig._extract_instrument_compilation_configs", "quantify_scheduler/backends/qblox_backend.py:_ClusterCompilationConfig._extract_module_compilation_configs", "quantify_scheduler/backends/qblox/instrument_compilers.py:ClusterCompiler.compile", "quantify_scheduler/backends/qblox/instrument_compilers.py:ClusterCompiler._validate_external_trigger_sync", "quantify_scheduler/backends/qblox/instrument_compilers.py:LocalOscillatorCompiler.compile", "quantify_scheduler/backends/qblox_backend.py:hardware_compile"]}
{"id": "C82", "title": "A pulse or acquisition holds exactly the arguments it was made with", "statement": "Making a pulse or an acquisition gives one entry that holds every argument (or its documented default) under its name, the constants of the class, and nothing else; the operation lasts until the start plus the duration. Arguments that are not held under their name are where they should be: weights, samples, thresholds, labels, waveforms of square windows. The call is refused exactly if a keyword is unknown or missing, a duration or start is no number, an acquisition has a phase, a name of a mode does not exist, a reference port is missing, or averaged thresholded counts have another index than 0. An acquisition is conditional exactly if a label was given.", "quantifier": "all 32 classes of pulses and acquisitions and all keyword arguments", "why_tests_cant": "any values of any type for any subset of up to 17 parameters of each class", "anchors": ["quantify_scheduler/operations/pulse_library.py:SquarePulse", "quantify_scheduler/operations/pulse_library.py:NumericalPulse", "quantify_scheduler/operations/acquisition_library.py:SSBIntegrationComplex", "quantify_scheduler/operations/acquisition_library.py:NumericalSeparatedWeightedIntegration", "quantify_scheduler/operations/acquisition_library.py:TriggerCount", "quantify_scheduler/operations/acquisition_library.py:ThresholdedTriggerCount", "quantify_scheduler/operations/acquisition_library.py:DualThresholdedTriggerCount", "quantify_scheduler/operations/acquisition_library.py:Timetag", "quantify_scheduler/backends/qblox/operations/pulse_library.py:SimpleNumericalPulse", "quantify_scheduler/backends/qblox/operations/rf_switch_toggle.py:RFSwitchToggle", "quantify_scheduler/operations/operation.py:Operation"]}
{"id": "C83", "title": "The text of an operation makes it again", "statement": "The string of a pulse or acquisition is a constructor call. Evaluating it makes an operation that is equal to the printed one, whatever was printed before; so operations with the same text are equal.", "quantifier": "all 32 classes, all arguments that have a Python literal, and all histories of printed operations", "why_tests_cant": "any arguments, and any sequence of operations printed before (signatures are cached in class attributes that subclasses inherit)", "anchors": ["quantify_scheduler/operations/operation.py:Operation._get_signature", "quantify_scheduler/operations/acquisition_library.py:NumericalSeparatedWeightedIntegration.__str__", "quantify_scheduler/operations/acquisition_library.py:ThresholdedTriggerCount.__str__", "quantify_scheduler/operations/acquisition_library.py:DualThresholdedTriggerCount.__str__", "quantify_scheduler/operations/acquisition_library.py:WeightedIntegratedSeparated.__str__", "quantify_scheduler/operations/pulse_library.py:NumericalPulse.__str__", "quantify_scheduler/backends/qblox/operations/pulse_library.py:SimpleNumericalPulse"]}
{"id": "C84", "title": "Settings of Zurich Instruments devices written to files are read back", "statement": "After the settings of a device were written to the data directory, reading its settings file gives a builder with the same programs for the same AWGs and with the same nodes, values and ways of sending them, however many other instruments wrote to the same directory before and after.", "quantifier": "all names, serial numbers, device types, lists of settings, programs and previous contents of the directory", "why_tests_cant": "The round trip depends on all settings at once: which nodes are set twice, which files they share and which other instruments write to the directory.", "anchors": ["quantify_scheduler/backends/zhinst/settings.py:ZISettings.serialize", "quantify_scheduler/backends/zhinst/settings.py:ZISettings.deserialize", "quantify_scheduler/instrument_coordinator/components/zhinst.py:ZIInstrumentCoordinatorComponent.prepare"]}
{"id": "C85", "title": "Old-style Qblox hardware configurations mean what they meant", "statement": "When a hardware configuration in the old style is compiled with, the configuration it is converted to says the same: every key of a channel or of one of its port-clocks (local oscillator frequency, intermediate frequency, gains, attenuations, mixer corrections, sequencer options, digitization threshold) is set for the port-clocks it was given for and for no others, ports are connected to the channels they were given in, through a mixer with the local oscillator of the channel if there is one, and the descriptions of clusters, modules, channels and local oscillators and the corrections are kept.", "quantifier": "all configurations in the old style: any number of clusters, modules, channels of all kinds, local oscillators, port-clocks and keys in any order", "why_tests_cant": "The conversion writes into shared dictionaries from every channel: whether what one channel writes survives depends on all others, on the order of the keys, and on which options are given together.", "anchors": ["quantify_scheduler/backends/qblox/helpers.py:_generate_new_style_hardware_compilation_config", "quantify_scheduler/backends/qblox_backend.py:hardware_compile"]}
{"id": "C86", "title": "Old-style Zurich Instruments hardware configurations mean what they meant", "statement": "When a hardware configuration of Zurich Instruments devices in the old style is compiled with, the configuration it is converted to says the same: local oscillator and intermediate frequencies, mixer corrections and gains of every channel are set for its port-clock and for no other, ports are connected to their channels, through a mixer with the local oscillator if there is one, and the descriptions of devices, channels and local oscillators are kept.", "quantifier": "all configurations in the old style: any number of devices, channels, local oscillators and corrections", "why_tests_cant": "The conversion collects settings of all channels in shared dictionaries; whether one survives depends on the type of the device and on all other channels.", "anchors": ["quantify_scheduler/backends/zhinst_backend.py:_generate_new_style_hardware_compilation_config", "quantify_scheduler/backends/zhinst_backend.py:ZIHardwareCompilationConfig.from_old_style_hardware_config"]}
{"id": "C87", "title": "Initialisation of a pair of spins plays its pulses when it says", "statement": "The schedule made for the initialisation of two spins starts both square pulses together; then it plays a ramp to the given amplitude at the given rate on each port, the child's ramp_diff after the parent's (before it if negative), the first of them exactly when the squares end; whatever the scheduling strategy.", "quantifier": "all amplitudes, rates, durations, time differences, ports, clocks and both scheduling strategies", "why_tests_cant": "The times follow from defaults of the timing pass that depend on the strategy and on signs of arguments; tests fix one strategy and a few numbers.", "anchors": ["quantify_scheduler/operations/pulse_factories.py:spin_init_pulse", "quantify_scheduler/compilation.py:_determine_absolute_timing_schedule"]}
{"id": "C88", "title": "Conflicting clock frequencies are reported and the schedule wins", "statement": "A clock that the schedule defines keeps its frequency, whatever the device configuration says, and a clock that only the device configuration has gets the frequency there; a warning is emitted exactly for those clocks that both define inconsistently: NaN in the device configuration agrees with everything, numbers with equal numbers, arrays one by one.", "quantifier": "all device configurations and schedules, with frequencies that are numbers, NaN or arrays", "why_tests_cant": "The comparison relies on broadcasting and on NaN; tests compare a few single numbers.", "anchors": ["quantify_scheduler/backends/circuit_to_device.py:_clocks_compatible", "quantify_scheduler/backends/circuit_to_device.py:set_pulse_and_acquisition_clock"]}
{"id": "C89", "title": "Timetags relative to a timestamp that is missing are reported", "statement": "For every port-clock of a timetag module a warning is emitted if an acquisition of timetags is relative to a timestamp and no Timestamp operation is there, and another if there is a Timestamp operation that no such acquisition refers to; and only then.", "quantifier": "all sequences of operations on a port-clock", "why_tests_cant": "Only the first acquisition is looked at, which is enough only because of a requirement that is enforced elsewhere.", "anchors": ["quantify_scheduler/backends/qblox/timetag.py:TimetagSequencerCompiler._assert_correct_time_ref_used_with_timestamp", "quantify_scheduler/backends/qblox/timetag.py:TimetagSequencerCompiler._prepare_acq_settings"]}
