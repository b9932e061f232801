# Formal model of quantify-scheduler in Lean 4

## 1. Trusted base

* Lean 4.33.0's kernel. Every theorem is accepted by it; `vcheck` replays all modules.
* Axioms: only Lean's own `propext`, `Classical.choice` and `Quot.sound` (some theorems need fewer).
  No axiom is added here, no `native_decide`, no `bv_decide`. Concrete cases are evaluated by
  `decide` / `decide +kernel` / `rfl`, i.e. by the kernel.
* Mathlib is used as a library (ordered fields, lists, tactics); it adds no axioms either.
* The translation from Python to Lean, which was done by hand. Each definition cites the file and
  lines it models; simplifications are listed at the head of each `Model.lean` and in section 3.
* Semantics of the environment, which no code in the repository defines:
  * `Q1/Machine.lean`: the Q1 sequence processor (what `loop`, `wait`, `set_cond`, `play`, `acquire`,
    ... do, how much time each takes). It is the meaning quantify-scheduler documents and counts on.
  * `Redundant/Spec.lean`: parameters (offsets, gains, phases, markers) are latched and become
    effective at the next real-time instruction or `upd_param`.
  * `Long/Spec.lean`: the output of a port-clock at time t is the offset set last plus the
    waveforms that are being played, in continuous time.
  * `Timing/Model.lean`: `networkx.topological_sort` returns some topological order, and raises if
    there is none (theorems hold for every topological order).

## 2. Conventions

* Every Python float (time, amplitude, phase, frequency) is modelled as an exact rational (`Rat`).
  Floating-point rounding error is outside the model; tolerances in the code are kept as they are.
* Times inside sequencer programs are integers (ns), as in the code.
* Python exceptions are values: functions return `Except Err α` or `Option`; where the state after
  an exception is observable the model returns it as well (AcqBins, Build).
* Python dicts with insertion order are association lists (`Common/Dict.lean`), or functions to
  `Option` where only lookup is used; hashes and uuid labels are values of an arbitrary type.
* In-place mutation is modelled by returning the new state; where aliasing matters (C09, C10, C23)
  objects have an identity and live in a heap.
* Each area has `Model.lean` (the code, with file:line citations), `Spec.lean` (what the English
  says, without reference to the code), lemma files, and `Props.lean` (the theorems named in
  MANIFEST.json, with non-vacuity examples beside them). Where the specification is short, it is
  in the statement of the theorem or at the head of `Props.lean`.
* A violation of a property by the code is itself a theorem (a "finding"): a concrete input on
  which the model of the code does not do what the property says. The property is then proved
  under the weakest hypotheses found, in a theorem with suffix `_partial`.

## 3. What is modelled and how each property is proved

| id | code (under `quantify_scheduler/`) | model | method |
|----|------|-------|-------|
| C01-C08 | `compilation.py:116-406`, durations in `schedules/schedule.py`, `operations/control_flow_library.py` | `Timing/` | the pass as fold over any topological order; induction over the order; progress (C06) by a counting argument on Kahn's algorithm |
| C09 | `schedules/schedule.py` (`add`, `_add`, `add_resource`, repetitions, `__getstate__`/`__setstate__`) | `Build/` | state machine, invariant over arbitrary histories of calls, including changes of objects by the user |
| C10 | `compilation.py:418-464` | `MergeRz/` | heap of Rz objects, refinement to accumulated phase; induction over schedulables |
| C11 | `backends/qblox/register_manager.py` | `Q1/Registers` | invariant over histories |
| C12-C15, C32, C33, C35, C39 | `backends/qblox/qasm_program.py`, `operation_handling/*.py` (`insert_qasm`), `conditional.py`, `enums.py`, `compiler_abc.py:526-947` | `Q1/` | the emitted instruction list is executed on the machine model; simulation of the recursive parse of the operation list against the tree semantics of `Q1/Spec` |
| C16, C17 | `backends/qblox_backend.py:241-267, 297-681` | `Conditional/` | exact characterisation of acceptance; induction over nested schedules |
| C18 | `backends/qblox/qblox_acq_index_manager.py` | `AcqBins/` | invariant over histories of requests, failing ones included |
| C19 | `helpers/generate_acq_channels_data.py`, `helpers/schedule.py` | `AcqIndices/` | mutual induction over schedule trees |
| C20 | `backends/qblox/compiler_abc.py:957-1066` | `Redundant/` | trace equivalence for well-bracketed programs |
| C21 | `backends/qblox/stack_pulses.py` | `Stack/` | sweep line invariant, per-instant sum |
| C22 | `backends/qblox/auto_rf_switch.py` | `RfSwitch/` | interval lists |
| C23 | `backends/qblox/crosstalk_compensation.py` | `Crosstalk/` | finite sums over an arbitrary field |
| C24 | `backends/corrections.py:32-98` | `Latency/` | order reasoning |
| C25 | `pulse_compensation.py`, `operations/pulse_compensation_library.py`, `helpers/waveforms.py:515-552` | `Compensation/` | mutual induction over trees |
| C26, C28, C34, C36, C37 | `backends/qblox/helpers.py` (grid time, NCO, frequencies, fine delay), `qasm_program.py` (amplitudes) | `Numeric/` | rational arithmetic |
| C27, C38 | `backends/qblox/helpers.py` (waveform dictionaries, normalisation), `operation_handling/pulses.py` | `Waves/` | invariant over histories, rational arithmetic |
| C29 | `backends/qblox/operations/stitched_pulse.py:187-560`, `operations/pulse_factories.py`, `qblox_backend.py:110-238` | `Long/` | output function before and after, induction over lists of entries |
| C30 | `qblox_backend.py:1940-1962, 1988-2136` | `Overlap/` | scan over a stably sorted list |
| C31 | `backends/qblox/helpers.py:540-985`, `compiler_abc.py:752-757, 1479-1501` | `Flatten/` | mutual induction, bracket language, stable sorting |
| C40 | `instrument_coordinator/components/qblox.py:1647-2743`, `instrument_coordinator/utility.py:114-239` | `Retrieve/` | invariant over sequencers and channels; composed with C18 |
| C41, C42 | `operations/gate_library.py`, `operations/composite_factories.py`, `operations/pulse_factories.py:18-232`, configurations in `device_under_test/transmon_element.py`, `composite_square_edge.py`, `spin_edge.py` | `Gates/` | complex matrices on state vectors of arbitrary registers; commutation of the frame rotation with gates, induction over circuits |
| C43, C44 | `backends/circuit_to_device.py` | `Circuit/` | inductive specification `Impl` (what a gate must become) shown sound and complete for the compiler (depth-bounded recursion, as in Python); `WithClocks` for the clock pass by mutual induction |
| C45, C46 | `json_utils.py`, `schedules/schedule.py`, `operations/operation.py`, `resources.py`, `pulse_library.py` (`__getstate__`/`__setstate__`), `helpers/collections.py:make_hash` | `Json/` | value trees and JSON trees; induction over the inductive predicate `Ok` (what can be written); `make_hash` over arbitrary hashes of strings, tuples and sets, with CPython's number hash |
| C47, C48 | `operations/measurement_factories.py`, `schedules/*.py` (timedomain, spectroscopy, trace, verification) | `Experiments/` | schedules as lists of add calls (sequences, loops over set points), timing pass as in `Timing/`; specification `Spec.inSequence`: parts one after the other; induction over the set points |
| C49, C50 | `waveforms.py`, `helpers/waveforms.py`, `math.py`, `backends/qblox/helpers.py` (generate_waveform_data) | `Shapes/` | waveform functions over real and complex numbers; statements about the function of time that is sampled (values, derivatives from Mathlib, monotonicity, sums) |
| C51 | `backends/corrections.py` (distortion corrections) | `Distortion/` | `pulse_info` lists on a heap (shared lists!), operations as trees; relation between what is played before and after; mutual induction over the tree; samples played via `Shapes/` |
| C52, C53, C54 | `backends/qblox_backend.py` (`hardware_compile`, `_extract_instrument_compilation_configs`, `_get_all_portclock_to_path_and_lo_name_to_path`, `_extract_module_compilation_configs`, `_sequencer_to_portclock`), `backends/qblox/compiler_abc.py` (`_construct_all_sequencer_compilers`, `distribute_data`), `backends/qblox/helpers.py:generate_port_clock_to_device_map` | `Connect/` | wiring as a list of edges, paths as objects on a heap (shared between clocks of a port); frame lemmas for the loops; sequencers by counting; composed with `Flatten/` |
| C55 | `backends/qblox/analog.py` (`prepare` 679–694, `assign_frequencies`, `frequency`, `_set_lo_frequency`), `backends/qblox/instrument_compilers.py:LocalOscillatorCompiler`, `backends/types/qblox.py` (`RFModuleSettings`, `nco_en`), `backends/qblox_backend.py:1001-1067`, `operation_handling/virtual.py:117-161` | `Settings/Freq*.lean` | state of all oscillators; frequencies once set never change; invariant over all modules and sequencers, composed with C36 |
| C56 | `backends/qblox/analog.py` (701–901, 1204–1278), `backends/qblox/instrument_compilers.py:186-275`, `backends/qblox/helpers.py:calc_from_units_volt`, `instrument_coordinator/components/qblox.py` (`_configure_global_settings`, `_configure_lo_settings`) | `Settings/Options*.lean` | invariants of the loops over port-clocks and descriptions (exact iff for gains and offsets); composed with the list of parameters that are written |
| C57 | `backends/qblox/analog.py` (227–416, 903–937), `backends/qblox/timetag.py` (266–436), `backends/qblox/compiler_abc.py` (309–320, 484–524, 1234–1281), `backends/qblox/instrument_compilers.py:462-503` | `AcqSet/*.lean` | characterise when each step accepts and what it sets; compose with C16's label settings |
| C58 | `instrument_coordinator/components/qblox.py` (`prepare` of the QCM, QRM, QRC and QTM components and everything they call), `instrument_coordinator/utility.py` (`lazy_set`) | `Prepare/*.lean` | a run is a list of writes; the last write to each parameter decides; lazy writes equal forced ones as long as the remembered values are right |
| C59 | `instrument_coordinator/instrument_coordinator.py` (`prepare`, `start`, `stop`, `wait_done`), `components/qblox.py` (`ClusterComponent`, arming, clearing, `disable_sync`, `wait_done`), `components/generic.py` | `Lifecycle/{Model,Spec,Lemmas,Steps,Props,More,Examples}.lean` | loops over components and modules with exceptions, an invariant of all calls, composition with C58 |
| C60 | `retrieve_acquisition` of coordinator, clusters and modules, `gettables.py` (`ScheduleGettable.get`), `ZIInstrumentCoordinator` | `Lifecycle/{Merge,Data,More,Zi,Examples}.lean` | an invariant of merged datasets, over modules and clusters, composition with C40 and C59 |
| C61 | `compiler_abc.py` (`_replace_digital_pulses`), `operation_handling/pulses.py` (`MarkerPulseStrategy`, `DigitalPulseStrategy`), `analog.py` (`_write_pre_wait_sync_instructions`), marker tables of `instrument_compilers.py` | `Digital/*.lean` | a forest of level changes is recovered from the sorted list, executed, and compared with the intervals of the pulses; composition with C20 |
| C62 | `timetag.py` (`_assert_fine_delays_executable`), `analog.py` (`_assert_enough_time_between_freq_phase_updates`) | `Spacing/*.lean` | induction over the list; the phases of a sorted list are permutation invariant |
| C63 | `zhinst_backend.py` (`_determine_clock_sample_start`, `_apply_measurement_fixpoint_correction`) | `Zi/Time*.lean` | arithmetic modulo 8 and bounds on rounding; an invariant of the loop over acquisitions |
| C64 | `zhinst_backend.py` (`_assemble_hdawg_sequence`, `_assemble_uhfqa_sequence`), `seqc_il_generator.py` | `Zi/Seqc*.lean` | a machine executes commands and counts clock cycles; induction over the instructions; induction over repetitions for triggers |
| C65 | `zhinst_backend.py` (`_compile_for_hdawg`, `_compile_for_uhfqa`, `construct_waveform_table`, `ensure_no_operations_overlap`), `types/zhinst.py` | `Zi/Device*.lean`, `Zi/Examples.lean` | composition of C63 and C64; induction over the outputs |
| C66 | `zhinst_backend.py` (`_compile_for_uhfqa`), `zhinst/helpers.py`, `zhinst/resolvers.py`, `zhinst/settings.py`, `components/zhinst.py` (`retrieve_acquisition`) | `Zi/Acq*.lean` | the last write to every node wins; linearity of the integrals; the reshape of a range |
| C67 | `schedule.py` (`timing_table`, `get_schedule_duration`), `operation.py`, `control_flow_library.py` (`duration`) | `Table/*.lean` | ways from the schedule to its pulses; induction over nested schedules; any permutation that is sorted |
| C68 | `pulse_diagram.py` (`sample_schedule` and what it calls) | `Diagram/*.lean` | as C67 for the rows; linear interpolation between points in the order of time |
| C69 | `stitched_pulse.py` (`convert_to_numerical_pulse`) | `Sampled/*.lean` | sample by sample on a grid, against the output of C29; played with the interpolation of C50 |
| C70 | `compiler_abc.py` (`distribute_data`, `add_operation_strategy`, `_remove_redundant_update_parameters`, program generation) | `EndToEnd/*.lean` | composition of `Connect`, `Flatten`, `Redundant` and `Q1`: the trace of the machine is, up to order, the unrolled schedule |
| C71 | `operation_handling/{factory_*,bin_mode_compat,pulses,acquisitions,virtual}.py`, `compiler_abc.py:387-466` | `Strategies/*.lean` | strategies on the final memory equal those made while it grows (`Settled`); each does what the library operation asks for; composed with C70 |
| C72 | `operation_handling/q1asm_injection_strategy.py`, `qasm_program.py:601-671`, `register_manager.py`, `compiler_abc.py:387-405` | `Asm/*.lean` | bisimulation between block and program under the renaming of registers and labels, for an arbitrary machine; distinctness of prefixes; the regular expression determines its groups |
| C73 | `backends/graph_compilation.py:228-636`, `schedules/schedule.py:1042-1060`, `copy.deepcopy` | `Compile/*.lean` | heap of objects; invariant of deepcopy with memo; frame and parametricity of arbitrary pass programs by induction; uniqueness of the path in a linear graph |
| C74 | `device_under_test/*.py`, `helpers/validators.py` | `Device/{Model,Spec,Gen,Lemmas,Props*,Examples}.lean` | tables of parameters and operations per class; invariant of a session by induction; frame lemma per command; independent tables of the documented arguments |
| C75 | `quantum_device.py:140-267`, `device_element.py:36-57`, `edge.py:43-69`, `json_utils.py:183-189` | `Device/{Saving,Props4,Props5,Examples2}.lean` | construction from the saved values gives the same values; congruence of the generated configuration |
| C76 | `_visualization/circuit_diagram.py` | `CircuitDiagram/{Model,Spec,Lemmas,Lines,Draw,Props,Props2,Examples}.lean` | induction over the nesting with an invariant of the walk (column, latest time, measurements); the lines are characterised by the number of names before in the alphabet; independent relation of the symbols that are due |
| C77 | `components/zhinst.py`, `zhinst/settings.py`, `zhinst/helpers.py`, `zhinst_backend.py` (`_compile_for_hdawg`, `_compile_for_uhfqa`) | `ZiPrepare/{Model,Spec,Lemmas,Effect,Built,Hd,Uh,UhNodes,Props,UhProps,Examples}.lean` | a device is the list of writes to paths; the value of a node is the last write to a path that covers it; settings in which wildcards come first depend only on their dictionary; invariant over histories |
| C78 | `zhinst_backend.py` (`_generate_legacy_hardware_config`, `_add_lo_config`, `apply_waveform_corrections`), `types/zhinst.py`, `helpers/collections.py` | `ZiFreq/{Model,Spec,Lemmas,Wiring,Props,Emission,Examples}.lean` | loops over ports and clocks with invariants; a local oscillator's parameter keeps the value of the first channel; wiring is specified as a relation on the graph |
| C79 | `pulse_library.py` (`create_dc_compensation_pulse`, `decompose_long_square_pulse`), `helpers/waveforms.py` (`area_pulses`) | `DcComp/{Model,Spec,Props}.lean` | induction over the list of pulses; floor of rationals; the signal of the pieces by induction |
| C80 | `backends/mock/mock_rom.py` | `MockRom/{Model,Spec,Props,Results,Claims,Trace,Examples}.lean` | invariants of the loops of compilation, execution and retrieval (locations are distinct and used by instructions of one kind); indices from C19 (`AcqIndices`); arithmetic of ceilings for the sampling |
| C81 | `backends/qblox/compiler_container.py`, `qblox_backend.py:740-775, 964-1068, 1775-1830`, `instrument_compilers.py:619-740` | `Instruments/{Model,Spec,Lemmas,Props,Claims,Examples}.lean` | nested dictionaries as functional relations; the loops that distribute settings are one generic loop (`route`) whose result at a key is the fold over the elements with that key; induction on nested schedules |
| C82 | `operations/pulse_library.py`, `operations/acquisition_library.py`, `qblox/operations/{pulse_library,rf_switch_toggle}.py`, `operation.py:66-137, 318-331` | `Ops/{Model,Spec,Lemmas,Entry,Holds,Props,Accepted,Contents,Examples}.lean` | parameters with documented defaults and constants as separate tables; case analysis over the 32 constructors with arbitrary arguments |
| C83 | `operation.py:65, 168-217`, `__str__` of all pulses and acquisitions | `Ops/{Text,RoundTrip,Exceptions,Numeric,Simple,Examples}.lean` | texts as lists of printed keywords, `eval` as a relation; an operation made from the printed values is the same; invariants of the cache of signatures by induction on the history |
| C84 | `backends/zhinst/settings.py:157-312` | `ZiFiles/{Model,Spec,Lemmas,Fold,Props,Compiled,Examples}.lean` | files as a dictionary; invariant of the loop over settings (keys in the order of first occurrences, last values, their files hold what was written, injectivity of file names); then each entry is read back |
| C85 | `backends/qblox/helpers.py:1074-1528` | `OldConfig/{Model,Spec,Lemmas,Fold,Props,Described,Examples}.lean` | the conversion equals one write of lists of options, edges and descriptions (invariant: sequencer options come from port-clocks that were converted); membership in these lists is the relation `Wants`, and uniqueness gives the values |
| C86 | `backends/zhinst_backend.py:987-1187` | `ZiOld/{Model,Spec,Fold,Props,Examples}.lean` | the conversion equals one write of lists (invariant: options so far are for port-clocks of earlier channels); membership in these lists is the relation `Wants`, single-valued because port-clocks differ |
| C87 | `operations/pulse_factories.py:378-438`, with the timing pass of `Timing/Model.lean` | `SpinInit/{Model,Spec,Props}.lean` | the timing pass is evaluated on the four schedulables with symbolic durations; what is meant is unique (`meant_unique`) |
| C88 | `backends/circuit_to_device.py:216-222, 387-445` | `Warnings/{Model,Props}.lean` | induction over the clocks; broadcasting by cases on the shapes |
| C89 | `backends/qblox/timetag.py:116-156`, with `_prepare_acq_settings` of `AcqSet/Model.lean` | `Warnings/{Model,Props}.lean` | that looking at the first Timetag is enough follows from the theorem of C57 on unique time references |

`Common/` holds helpers that model nothing: Python dicts, lists, stable sorting (shown unique).

### Simplifications worth knowing

* Timing: only duration and `next_operation_delay` of each operation are kept; the recursion into
  sub-schedules is the same function and enters through the duration.
* Q1: comments and rendering of instructions as text, inline Q1ASM and `qasm_hook_func` are not
  modelled; numeric arguments of instructions are arbitrary here (they are the subject of
  C27, C28, C34).
* C14 holds for conditionals whose body is plain, within the limits of C15, which are real.
* C16/C17: each schedulable has its own operation. (In the code a sub-schedule used by two
  schedulables gets its latch resets twice; noted from reading, not modelled.)
* C20: inline assembly is assumed not to set parameters; the theorem `asm_update_lost` shows why.
* C22: the inserted schedulables are the list of windows.
* C23: the matrix inverse is a parameter; "inverse" is a hypothesis of the theorem.
* C25: the timing pass is a parameter that keeps operations. The code computes its sums with ASAP
  timing even if ALAP is configured (`_determine_absolute_timing(deepcopy(op), None)`).
* C27: the hash used as a key is assumed injective on the rounded samples.
* C31: no `-` in port and clock names; modules without acquisitions are left out; the log of
  `add_op_info` calls stands for the per-sequencer lists.
* C10: `device_overrides` of merged gates (which the code drops) are not modelled.
* C40: data arrays are indices and rows; the order of merged indices and names and attributes of
  arrays are not modelled; the truth value of a numpy array with several elements is an exception.
* C41/C42: exact reals and complex numbers; C42 is relative to the physical model in `Gates/Spec.lean`
  (what a calibrated pulse does), with the sign of clock phases as a parameter.
* C43/C44: factories are arbitrary functions of their keyword arguments; equal operations of a schedule are compiled
  one by one; names of elements have no underscore; frequencies are numbers or NaN.
* C45/C46: JSON text and number formatting are Python's (`Text` requires that what is written is read back); floats are
  finite; `o in DEFAULT_TYPES` does not raise; array dtype only through the items; qcodes instruments, pydantic models and
  constructors other than those the encoder writes are not modelled.
* C47/C48: operations are played by label (their name, arguments and duration); only `ref_pt` start/end/center timing with
  relative times as these functions use it; number formatting inside labels is a parameter.
* C49, C50: exact real and complex numbers; a division by zero or NaN is an error; interpolation is linear with increasing sample times; staircases have real amplitudes; `subtract_offset=None` (an AttributeError in the code) is not modelled.
* C51: filters return real samples and are arbitrary functions; a single-entry or invalid configuration (model validation) is not modelled; warnings are not modelled.
* C52–C54: node names given by their parts between dots; no `-` or dots in port and clock names; whether a name contains the text of a mixer or laser is a predicate; descriptions of instruments reduced to module types; validation of the configuration by pydantic is not modelled; `pulse_played` leaves out QTMs; `compile_accepts`, `mixer_sound` and `pulse_played` are for configuration version 0.2.
* C55: rational frequencies without NaN; channel descriptions reduced to `downconverter_freq` and `mix_lo`.
* C56: rational values; `None` and an empty option are the same; the set `model_fields_set` is a list in an arbitrary order; `marker_debug_mode_enable` of an output is any function; filter parameters are structured instead of strings.
* C57: numbers are rational, acquisition channels are numbers; an acquisition has rotation and threshold or none; if acquisitions of a QTM lack an entry and differ as well, the exception may be another one.
* C58: numbers are rational, a sequence is a value of any type, every parameter of the driver exists, `seq{n}` is n; the driver's calibrations are arbitrary but only change what they calibrate (`Spec.CalOk`).
* C59, C60: components are named like their instruments, acquisition channels and repetitions are the same for all clusters (as `hardware_compile` makes them), setting a parameter of another instrument always succeeds; what a failed `prepare` of a module leaves is arbitrary except that its program was replaced and the remembered values are right (`Spec.EnvOk`); the driver starts, stops and synchronises sequencers as documented, and a running sequencer adds to its stored data.
* C61: times on the grid; the parameters of a sequencer are the level and the rest, of an arbitrary type; inline assembly sets no parameters.
* C62: floats are rationals; `nco_iff` is about times on the grid.
* C63–C65: floats are rationals; sequencer programs are lists of commands, whose clock cycles are those the code assumes; waveforms are arbitrary.
* C66: the quantum analyser integrates exactly, keeps the integrals of both inputs apart (as the code says) and averages over passes; floats are rationals.
* C67: floats are rationals; a schedulable holds its operation; `sort_values` may permute rows of the same time.
* C68: floats are rationals; no modulation; curves are not combined; a waveform is any function of the time since its start.
* C69: exact rational times and amplitudes; the rate is positive; only the ends of acquisitions.
* C70: no inline assembly, debug markers or digital pulses; the strategies of pulses and acquisitions are arbitrary; bins and parameter updates are left out of the compared traces.
* C71: digital pulses, markers and inline assembly refused; samples are exact rationals; waveform hashes do not collide.
* C72: names are lists of characters; the regular expression is a relation; blanks other than space and tab at the ends of comments are kept.
* C73: passes are terminating deterministic programs over references they know; attributes outside `data` and `__getstate__` are left out (C45).
* C74, C75: QCoDeS instruments are names with validated parameters; labels, units, snapshots, restrictions on names and garbage collection are left out; ports are strings; JSON keeps values except that tuples become lists.
* C76: absolute times of the drawing schedule are data (all gates of equal length); matplotlib is left out: a figure is a list of symbols with positions; colours, fonts, title and size of the figure are left out; the order in which the set of ports is traversed is an argument.
* C77: nodes are lists of segments; `make_hash` has no collisions; settings with `set_value` that follow each other are sent in one step; a fault is an exception after any number of steps; the lengths, weights and programs that the compiler chooses are arguments (they are in C63-C66); reading settings back from files is left out.
* C78: nodes are split at dots, `port-clock` and `instrument.parameter` are pairs, channels are a flat list in the order in which devices are traversed; a device that is called `generic`, old-style configurations, gains, mixer corrections and channel descriptions (except whether they exist) are left out; phases are in turns.
* C79: exact rationals with `nan` and `inf` as separate values; real waveforms, given by their samples at the sampling rate; `amp` and `duration` are numbers of Python.
* C80: samples of an arbitrary type with a product; a waveform with its carrier is a function of frequency and time; `random()` is a stream; names of inputs as far as the parsing of instructions looks at them; exact time (with floats, `np.arange(0, n * 1e-9, 1e-9)` has n + 1 elements for some n, such as 15, 30 or 500, and retrieving such a trace raises, which this model does not show).
* C81: the compilation of a single module is an arbitrary function of clocks, cluster, slot and settings; port-clocks are strings; values of options are not changed by validation; warnings are not modelled.
* C82, C83: numbers are rationals (a printed float evaluates to itself); positional arguments are keywords; warnings are not modelled; what numpy's text of an array evaluates to is an arbitrary partial function.
* C84: numbers are written to and read from texts exactly; a node is the list of its segments; different instruments, AWGs and waveforms have different files (names of instruments do not end in `_awg<n>` and the like); values other than those the builder makes for a node are a TypeError.
* C85: values are of an arbitrary type; port-clocks are pairs; the type of a channel and the slot of a module are given instead of the start and the number of their names; every channel has `portclock_configs`; values are not validated; warnings are not modelled.
* C86: values are of an arbitrary type with a test for truth; port-clocks are pairs; corrections of latencies and distortions, which are copied, are left out; names of devices, local oscillators and mixers differ; warnings are not modelled.
* C87: labels of schedulables are indices; entries of pulses with the same value in all pulses are left out; the schedule is timed on its own, with the strategy of the whole compilation.
* C88, C89: frequencies are NaN or rational; arrays have at most one dimension; warnings are values without texts; strategies are acquisitions, timestamps or others.
* C30: dictionary keys are pairs, the code uses `port_clock` strings (ambiguous with underscores).

### Findings (violations proved as theorems)

| theorem | what the code does |
|---|---|
| `Timing.retiming_not_idempotent`, `retiming_adds_delay_again` | running the timing pass again changes times |
| `Q1.free_R64_accepted` | the non-existent register R64 can be freed and is then handed out |
| `Q1.auto_wait_short_rest` | a wait of 65533 ns ends in `wait 1` |
| `Q1.loop_zero_runs` | a loop with zero repetitions runs 2^32 times |
| `Q1.conditional_long_differs`, `_loop_differs`, `_short_gap_differs`, `_ttl_differs` | both branches of a conditional take different times |
| `Q1.loop_spacing_not_checked` | acquisitions of successive iterations are closer than 300 ns |
| `AcqBins.two_traces_granted`, `more_bins_than_memory`, `trace_after_bins_overlaps`, `empty_request_shares_index` | limits and disjointness of bins violated |
| `AcqIndices.not_global_time_order`, `append_index_ignored` | order and explicit indices |
| `Build.add_redirects_other_schedulable`, `repetitions_zero` | adding changes what another label plays |
| `MergeRz.shared_gate_wrong`, `shared_elsewhere_wrong`, `insertion_order_matters` | angles are wrong after merging |
| `Conditional.weighted_gets_no_address`, `added_first_gets_no_settings`, `last_acquisition_unused`, `acquisition_in_conditional_ignored`, `reset_outside_of_loop`, `dual_reset_rounded` | conditional playback |
| `Redundant.asm_update_lost` | an update needed by inline assembly is removed |
| `Stack.near_end_wrong`, `near_end_fails`, `two_ports_wrong` | stacking changes the output or fails |
| `RfSwitch.loop_not_covered`, `plain_body_not_covered`, `open_offset_not_covered` | pulses without open RF switch |
| `Crosstalk.shared_operation_wrong`, `numerical_pulse_time_axis_scaled` | compensation wrong |
| `Compensation.loop_over_schedule_fails`, `other_clock_not_counted`, `negative_maximum` | pulse compensation |
| `Latency.keys_collide` | ports with dashes share latency keys |
| `Waves.dummy_waveform_played`, `negative_weights_accepted` | wrong path is played; weights below -1 pass the check |
| `Numeric.grid_time_not_additive` | two accepted times whose sum is rejected |
| `Flatten.pulse_captured`, `clock_operation_escapes`, `portless_loop_rejected`, `asm_in_loop_rejected` | control flow markers |
| `Long.flat_ramp_wrong`, `offset_during_square_lost`, `overlapping_squares_wrong`, `order_of_offsets_matters` | stitched pulses |
| `Retrieve.append_two_sequencers_fail`, `distribution_coordinates_fail`, `sum_truncated`, `nan_count_refused` | data that cannot be retrieved; sums that are too low |
| `Gates.rounding_leaves_range`, `same_sign_wrong` | angles outside of their ranges; sign of virtual Z rotations |
| `Circuit.overridden_delay_wrong`, `mux_next_before_window`, `unknown_first_element_keyError`, `elementless_gate_stays`, `compensation_hides_frequency`, `compensation_clock_unknown`, `compensation_without_settings` | overridden acquisition delay ignored for the next operation; multiplexed delays; raw `KeyError`; clocks inside compensations |
| `Json.second_add_replaces_first`, `Json.minus_one_equals_minus_two` | `hash(-1.0) == hash(-2.0)` in CPython: two operations that differ only there have the same id, the second `add` silently replaces the first operation |
| `Json.legacy_qubits_lost` | `Operation.__setstate__`: the test is inverted and the assignment goes to the dictionary that is thrown away, the qubits of legacy files are lost |
| `Json.class_objects_not_read`, `other_numpy_scalars_lost`, `array0_lost`, `tuple_channel_not_read`, `int_keys_become_strings`, `reserved_key_not_read` | values that are written to JSON without error and cannot be read back |
| `Experiments.multiplexed_next_too_early` | the operation after a multiplexed measurement starts before the longest window is over, contrary to the comment in the code |
| `Experiments.cpmg_plays` | everything after the first pi/2 pulse of CPMG is 4 ns late (a CPMG with one pulse is not an echo) |
| `Experiments.nv_dark_esr_nco_rejects`, `chevron_same_qubit`, `duplicate_rejected` | labels lack the index: frequencies with the same `:e` text and a Chevron on one qubit are refused |
| `Experiments.chevron_flux_too_early` | the flux pulse starts before the longer pi pulse ends |
| `Experiments.allxy_21` | index 21 passes the check and is an `IndexError` |
| `Experiments.Measure` (model) | with a frequency and without acquisition delay the frequency is set back before the acquisition is over; a long time trace plays pulse and offset and uses acquisition channel 0; `Trace` ignores the bin mode |
| `Shapes.falling_staircase_flat` | a staircase with final below start amplitude is played flat at the final amplitude |
| `Shapes.softSquare_short` | soft squares of 4 or 5 samples are NaN |
| `Shapes.net_zero_short_not_zero`, `net_zero_uncorrected` | short sudden net zero pulses do not add up to zero |
| `Distortion.identity_filter_changes`, `played_samples` | corrected samples are stretched: an identity filter changes the played pulse |
| `Distortion.acquisition_lost` | acquisitions of an operation whose first pulse is corrected are lost |
| `Distortion.shared_corrected_twice` | an operation object used twice is corrected twice |
| `Connect.input_first_one_clock`, `inputs_first_refused` | a readout port whose inputs are listed before its output is refused with two clocks or two inputs |
| `Connect.qtm_same_channel_lost` | two port-clocks on one QTM channel: the operations of the first are lost without an error |
| `Connect.qrc_names_matter` | on a QRC the names of the ports decide whether there are enough sequencers |
| `Connect.shared_lo_forgotten` | two mixers at one local oscillator: only the channel of the last keeps it |
| `Connect.v01_adds_inputs` | version 0.1 adds inputs that are not wired |
| `Settings.downconverter_set_frequency_wrong` | with a downconverter `SetClockFrequency` moves the frequency in the wrong direction |
| `Settings.configured_lo_forgotten`, `different_lo_accepted` | RF output: only the last port-clock's `lo_freq` counts, even if it has none |
| `Settings.named_lo_frequency_ignored`, `first_port_clock_counts`, `lo_without_frequencies_key_error` | external LO: `lo_freq` ignored if it has an `instrument_name`, taken from the first port-clock only, KeyError if no port-clock has modulation frequencies |
| `Settings.mix_lo_false_cannot_override` | the announced overriding of the LO frequency is refused |
| `Settings.forgotten_lo_full_frequency` | an LO for two mixers: one sequencer's oscillator is set to the full frequency of the clock |
| `Settings.qrc_attenuation_true` | the attenuation that is written to a QRC is `True` (`if out_att := getattr(..) is not None`) |
| `Settings.qrc_attenuation_ignored`, `qrc_offsets_ignored`, `qrc_description_fails` | QRC outputs 2–5 and input 1: attenuations and offsets ignored, descriptions are an `IndexError` |
| `Settings.attenuation_cleared`, `attenuation_conflict`, `input_attenuation_refused` | a later port-clock on an output clears or replaces the attenuation; two clocks with the same input attenuation are refused |
| `Settings.gain_on_wrong_input` | a real input gain is set on the input with the number of the port-clock's output |
| `Settings.fir_range_unchecked` | FIR coefficients are not range checked (`np.any(value) < -2`) |
| `Settings.single_on_complex`, `pairs_refused`, `pairs_overwritten` | hardware corrections on complex channels: wrong output, refused or overwritten depending on the order |
| `Settings.rf_latency_not_written`, `descriptions_conflict` | latency compensation on RF modules never reaches the instrument; complex and real descriptions of an output overwrite each other in set order |
| `AcqSet.Examples.threshold_out_of_range` | the range of `acq_threshold` is checked before multiplication by the integration length |
| `AcqSet.Examples.unlabelled_count`, `timetag_and_count` | QTM: `ThresholdedTriggerCount` without label, or `Timetag` with `TriggerCount`, is a `KeyError` |
| `AcqSet.Examples.trace_duration_of_other` | QTM: the duration of traces is that of the first acquisition of any protocol |
| `AcqSet.Examples.counts_not_validated`, `distribution_and_append` | QRM: thresholds of counts are not compared if there is a thresholded acquisition; a distribution changes the binning of other counts |
| `Prepare.calibration_lost`, `Ex.calibration_overwritten` | automatic sideband calibration: preparing again with the same frequency overwrites the corrections found with the defaults (ratio 1, phase 0) |
| `Prepare.trigger_left_on`, `Ex.trigger_stays` | trigger settings of an earlier program are left on |
| `Prepare.second_output_unconnected` | QRM-RF: `complex_output_1` is accepted and not connected |
| `Prepare.qrc_mixer_ignored`, `Ex.qrc_refused` | QRC: mixer corrections are not written; a sequencer without NCO is refused |
| `Lifecycle.stop_start_unsynced`, `get_again_unsynced`, `Ex.again_unsynced` | `stop` switches off the synchronisation of what is loaded: `start` without another `prepare`, and a `ScheduleGettable` with `always_initialize=False` from its second `get` on, run unsynchronised |
| `Lifecycle.Ex.other_schedule` | such a gettable returns the data of another schedule if one was prepared in between |
| `Lifecycle.Ex.hangs_without_stop` | without `stop`, modules of an earlier schedule stay in the synchronisation and are waited for forever |
| `Lifecycle.Ex.failed_prepare_runs` | `start` after a failed `prepare` is not refused and runs part of the schedule |
| `Lifecycle.Zi.first_repeated`, `Zi.same_result_fails` | `ZIInstrumentCoordinator`: the first acquisition is always repeated; `max_num_reacquisitions` ≤ 1 always fails; so do measurements with equal results |
| `Digital.pulse_lost` | two back-to-back marker pulses that are listed out of order (with `t0`): the second one is lost |
| `Digital.overlap_cut` | overlapping marker pulses are accepted, the end of one ends the other |
| `Digital.pulse_at_end_refused` | a marker pulse that ends when the schedule ends is refused |
| `Digital.debug_switches_on` | marker debug mode ignores `rf_output_on=False` and leaves the RF output on |
| `Spacing.rounding_accepts` | fine delays are checked after rounding to 1 ps, not to the 1/128 ns of the hardware |
| `Spacing.unordered` | fine delays are checked in the order of the list: pulses not listed in order are accepted or refused wrongly |
| `Spacing.loop_unchecked` | fine delays are not checked across repetitions of a loop |
| `Zi.Examples.not_listed_in_order` | acquisitions that were not listed in the order of time do not start at a clock cycle: row labels are used as positions |
| `Zi.Examples.trigger_missed` | a UHFQA program longer than the schedule misses every other trigger; nothing checks it |
| `Zi.Examples.period_cut` | the period of an HDAWG is cut to whole clock cycles |
| `Zi.Examples.marker_and_trigger` | an HDAWG output with markers and a trigger neither waits for the trigger nor until the schedule is over |
| `Zi.Examples.gap_not_played` | with `channel_0` and `channel_2` only, AWG 1 gets the settings of `channel_2`, whose pulses are not played |
| `Zi.Examples.group_not_played` | with `channelgrouping` 1, only the first sequencer gets a program; the pulses of the other groups are not played |
| `Zi.Examples.starts_early` | a pulse that does not start at the start of a clock cycle is played at that start: the shift of the waveform is always 0 |
| `Zi.Examples.weights_mixed_up` | pulse and acquisition 0 of an operation share a waveform name; the weights become the waveform of the pulse |
| `Zi.Examples.overlapping_pulses` | `ensure_no_operations_overlap` only looks at acquisitions |
| `Zi.Examples.other_channels` | UHFQA: the array of an acquisition channel also has the acquisitions of all other channels; `acq_index` is ignored |
| `Zi.monitor_off` | UHFQA: the input monitor is enabled for a trace, and disabled again afterwards |
| `Zi.Examples.no_acquisition` | UHFQA: a schedule without acquisitions raises an `IndexError` |
| `Table.Examples.same_waveform_op_id` | the timing table gives the first pulse and the first acquisition of an operation the same `waveform_op_id` |
| `Table.Examples.repeated_subschedule` | a subschedule with repetitions is listed once, but takes the time of all repetitions |
| `Diagram.Examples.cut_pulse_wrong` | pulse diagram with `x_range`: a pulse that starts before the left limit is drawn as if it started at the limit |
| `Diagram.Examples.offsets_out_of_order` | pulse diagram: voltage offsets are drawn in the order in which they were added to the schedule |
| `Diagram.Examples.offsets_limit` | pulse diagram with `x_range`: raises `StopIteration` if all offsets are before the left limit |
| `Diagram.Examples.drawing_changes` | drawing a `NumericalPulse` changes its `t_samples` in the schedule |
| `Sampled.late_start_refused`, `Sampled.late_example_too_long` | `convert_to_numerical_pulse` of an operation whose first pulse starts late: the result cannot be played (interpolation out of bounds), and is too long by the delay |
| `Sampled.two_samples_per_ns` | `convert_to_numerical_pulse` with a sampling rate of 2 GHz fails or misplaces samples, as times are rounded to nanoseconds |
| `Strategies.setFrequency_name` | a `SetClockFrequency` pulse inside an operation of another name is always refused: analog.py:428-436 looks at the name of the operation |
| `Strategies.clock_timetag` | a QTM silently ignores phase shifts, phase resets and frequency changes of clocks |
| `Asm.twice_refused` | an `InlineQ1ASM` block with waveforms can be used only once per sequencer: the second use is refused as a duplicate |
| `Asm.negative_refused` | negative arguments are refused in inline assembly, although the instructions take them |
| `Asm.no_comma_needed` | `move R1R2,R3` is accepted, with the single argument `R1R2` (and mapped to one new register) |
| `Compile.Examples.others_changed` | `keep_original_schedule=False` changes other schedules that share operations with the compiled one |
| `Compile.empty_refused` | a configuration without passes fails with `AttributeError` or `NodeNotFound`, the latter because of a node left over from an earlier compilation |
| `Device.Examples.nv_compensation` | the pulse compensation of an NV centre is on the clock `f_larmor`, which an NV centre does not have |
| `Device.Examples.dangling_edge` | `remove_element` leaves the edges of the element in the device, with clocks without frequencies |
| `Device.Examples.weight_type_ignored` | `measure.acq_weight_type` has no effect on the configuration |
| `Device.references_lost` | writing a device to JSON loses `rxy.reference_magnitude` and `measure.reference_magnitude` |
| `Device.Examples.settings_lost` | writing a device to JSON loses the scheduling strategy, the hardware configuration and `keep_original_schedule` |
| `Device.Examples.tuple_unreadable`, `port_renamed` | a tuple as acquisition channel makes the written device unreadable; an empty port name becomes the default |
| `CircuitDiagram.Examples.out_of_sight` | in a circuit diagram, an operation that is simultaneous with an earlier one after a repeated loop in a sub-schedule is drawn in another column, outside the picture |
| `CircuitDiagram.Examples.first_loop` | the brackets of a loop that comes first start after its content |
| `CircuitDiagram.Examples.misplaced` | ports that are traversed before the first port without device element are drawn on the wrong line, depending on the order of a set |
| `CircuitDiagram.Examples.nested_loop` | of a loop directly inside a loop, only one is drawn, with the wrong repetitions |
| `CircuitDiagram.Examples.idle_loop` | a loop over a pulse without port cannot be drawn |
| `CircuitDiagram.Examples.acquisition_not_drawn`, `element_other` | an acquisition with a pulse is not drawn; a device element named `other` is confused with the line of other ports |
| `ZiPrepare.Examples.retry_skipped`, `retry_skipped_files` | after `prepare` of a Zurich Instruments device failed, the same `prepare` does nothing and the device stays unconfigured |
| `ZiPrepare.Examples.stale_waves` | `prepare` of a UHFQA passes over a failure to write waveform files and returns that the device was configured |
| `ZiPrepare.monitor_off`, `Examples.trace_unmonitored` | for a trace with a UHFQA, the monitor is switched off by a later setting |
| `ZiPrepare.Examples.outside_kept`, `monitor_not_reset` | a `prepare` that is skipped keeps changes by others, and does not reset the monitor |
| `ZiPrepare.Examples.left_running` | AWGs of the previous configuration are not stopped |
| `ZiPrepare.Examples.gain_accepted` | gains above 1 are accepted (`gain >= -1 <= 1`) |
| `ZiFreq.Examples.shared_wrong`, `shared_lo` | Zurich Instruments channels that share a local oscillator: only the first emits at the frequency of its clock, nothing is reported (example configuration of the repository) |
| `ZiFreq.Examples.unchecked`, `given_frequencies` | if `lo_freq` and `interm_freq` are both given, they are never compared with the clock |
| `ZiFreq.Examples.order_matters` | two values of `lo_freq` for one local oscillator: the iteration order of a set decides |
| `ZiFreq.lo_only_refused` | only `lo_freq` given, as in the documentation of `ModulationFrequencies`: always refused by the Zurich Instruments backend |
| `ZiFreq.Examples.wrong_channel` | a port whose name is part of the name of another node is played on the channel of that node |
| `ZiFreq.Examples.second_unmodulated` | of several channels that are wired to a port, only the first is modulated |
| `ZiFreq.phase_coherent`, `Examples.phase_lost` | software modulation starts at phase 0 with every pulse |
| `ZiFreq.Examples.generic_refused`, `no_frequencies` | a local oscillator called `generic` that two channels use is refused; missing modulation frequencies end in an `AttributeError` |
| `DcComp.reference_dropped` | `create_dc_compensation_pulse` ignores `reference_magnitude` |
| `DcComp.bodies_ignored` | pulses in loops and conditionals are not compensated, without a warning |
| `DcComp.zero_amplitude`, `no_samples` | a compensation pulse of infinite duration, or with amplitude `nan` |
| `DcComp.short_refused` | `decompose_long_square_pulse` refuses a pulse shorter than `duration_max` |
| `MockRom.second_pulse_lost` | mock ROM: every trace shows the first pulse of the schedule |
| `MockRom.wrong_time_axis`, `slow_rate` | mock ROM: wrong time axis unless the sampling rate is a multiple of 1 GHz, ZeroDivisionError below |
| `MockRom.trace_coords_lost` | mock ROM: coordinates of a trace are not in the dataset |
| `MockRom.acquisition_dropped` | mock ROM: acquisitions of operations with pulses are dropped without an error |
| `MockRom.underscore_fails`, `other_port_fails` | mock ROM: an underscore in the name of an input, or a readout port other than q0:res, fails |
| `MockRom.stale_data` | mock ROM: results of an earlier schedule are returned after a new `prepare` |
| `Instruments.Examples.inner_clock_wins` | `_extract_all_resources`: a clock defined differently in an inner schedule takes that frequency everywhere |
| `Instruments.Examples.option_none_fails` | a hardware option explicitly set to None crashes with AttributeError |
| `Instruments.Examples.cluster_generic` | a cluster named generic is mixed up with the local oscillators |
| `Instruments.Examples.threshold_in_options_refused` | external trigger: threshold in the hardware options alone is refused, although the message recommends it |
| `Instruments.Examples.trigger_wrong_module` | external trigger at a module that is no QTM is only refused if the schedule uses the module |
| `Ops.Examples.average_is_distribution` | `TriggerCount`: the average bin mode is silently replaced by distribution |
| `Ops.Examples.average_index_refused` | `ThresholdedTriggerCount`: the average bin mode is refused with the default acquisition index |
| `Ops.Examples.unequal_weights` | numerical integrations accept weights of different lengths |
| `Ops.separated_unprintable`, `Ops.dual_unprintable` | `str(WeightedIntegratedSeparated(…))` and `str(DualThresholdedTriggerCount(…))` raise KeyError |
| `Ops.numeric_unprintable` | `str` of numerical integrations raises if the bin mode was given as a string or there are fewer than two weights |
| `Ops.threshold_not_printed` | the text of `WeightedThresholdedAcquisition` drops threshold and label |
| `Ops.simple_grows`, `Ops.simple_after_numerical` | the text of `SimpleNumericalPulse` makes a longer pulse, or cannot be evaluated after a `NumericalPulse` was printed |
| `ZiFiles.uhfqa_unreadable` | the settings file of a compiled UHFQA cannot be read back (`int("*")`) |
| `ZiFiles.wave_differs` | waveforms are read back as fractions of full scale, not as they were written |
| `ZiFiles.twice`, `ZiFiles.reordered` | of a node that is set twice only the last setting is read back, at the place of the first |
| `OldConfig.key_after` | in old-style configurations a key of a real channel after `portclock_configs` is a KeyError |
| `OldConfig.gain_lost` | in old-style configurations initial gains of a real channel are lost if another sequencer option is given |
| `OldConfig.gain_overwritten` | in old-style configurations with `input_gain_0` and `input_gain_1` only the later is kept |
| `OldConfig.option_dropped` | in old-style configurations sequencer options of real channels that are not in a list are dropped |
| `OldConfig.mixer_shared` | in old-style configurations two channels with one local oscillator get one mixer: each leads to the ports of both |
| `ZiOld.uhfqa_capital` | old-style mixer corrections of a UHFQA keep names such as `dc_offset_I`, which are then refused |
| `ZiOld.parameter_lost` | the parameter name in an old-style LO frequency is ignored, unlike that of its power |
| `ZiOld.modulation_dropped`, `ZiOld.channel_dropped` | old-style `modulate` modulations and further UHFQA channels are dropped silently |
| `ZiOld.mixed` | of two old-style channels with one port-clock, gains of one and corrections of the other are kept |
| `SpinInit.alap_never_meant` | with the ALAP strategy `spin_init_pulse` plays the child's square after the parent's, not with it |
| `SpinInit.negative_duration` | `spin_init_pulse` makes ramps of negative duration when amplitude and rate differ in sign |
| `Warnings.lengths_not_warned`, `Warnings.broadcast_compatible` | clock frequencies given as arrays of different lengths: no warning, or called compatible |
| `Warnings.only_timetag` | `TimetagTrace` relative to a missing timestamp, or a lone `Timestamp`, is not reported |
| `Overlap.missed_*` | overlaps with voltage offsets that are accepted |

## 4. Not modelled

Of the Zurich Instruments backend: the conversion of configurations, local oscillators, the
numerical corrections and the `.csv` files of waveforms, and everything that is not listed
under C63-C66. The instrument coordinator's communication with hardware and scope traces, circuit
diagrams and the drawing of figures, JSON/YAML (de)serialisation except what C45
and C46 cover, most parameters of device elements, the mock backend, and
mixer calibration. In the
modelled functions: warnings, log messages and the texts of exceptions.

## 5. Tests of the theorems

`seeded/LOG.jsonl` lists the edits of the model that were tried in a scratch copy, the theorems
that failed because of each, and those that were tightened after an edit survived.
