/-
Pulses and acquisitions: what their constructors store and what `str` prints.

Models `operations/pulse_library.py`, `operations/acquisition_library.py`,
`backends/qblox/operations/{rf_switch_toggle,pulse_library}.py` (constructors and `__str__`) and
`operations/operation.py:66-225` (`Operation.__init__`, `_update`, `_get_signature`).

Simplifications, for the whole file: numbers are rationals (integers and floats are the same numbers);
positional arguments are keywords; warnings are not modelled; an argument that is used in a computation
and is not a number is a TypeError; a dictionary that is keyed by members of an enumeration is keyed by
their strings (members are equal to and hash as their strings, `enums.py:9-14`).
-/
import Verif.Common.Dict
import Mathlib.Algebra.Order.Field.Rat

namespace Verif.Ops

/-- A value that an operation stores. `enum s` is the member with value `s` of an enumeration of
`enums.py` (all of them are `StrEnum`); `type` is a Python type; `ref` is a `ReferenceMagnitude`
(`pulse_library.py:18-60`); `array` is a numpy array. -/
inductive Val
  | none
  | bool (b : Bool)
  | num (q : Rat)
  | cplx (re im : Rat)
  | str (s : String)
  | enum (s : String)
  | type (s : String)
  | ref (value : Rat) (unit : String)
  | list (l : List Val)
  | array (l : List Val)
  | dict (l : List (String × Val))

/-- One entry of `pulse_info` or `acquisition_info`. -/
abbrev Info := List (String × Val)

/-- The exceptions. -/
inductive Err
  | typeError | valueError | notImplemented | zeroDivision | indexError | keyError | attributeError
deriving DecidableEq, Repr

/-- The classes of `pulse_library.py`, `rf_switch_toggle.py`, `qblox/operations/pulse_library.py` and
`acquisition_library.py`. -/
inductive Cls
  | ShiftClockPhase | ResetClockPhase | SetClockFrequency | VoltageOffset | IdlePulse | RampPulse
  | StaircasePulse | MarkerPulse | SquarePulse | SuddenNetZeroPulse | SoftSquarePulse | ChirpPulse
  | DRAGPulse | GaussPulse | WindowOperation | NumericalPulse | SkewedHermitePulse | Timestamp
  | RFSwitchToggle | SimpleNumericalPulse
  | Trace | WeightedIntegratedSeparated | SSBIntegrationComplex | ThresholdedAcquisition
  | NumericalSeparatedWeightedIntegration | NumericalWeightedIntegration
  | WeightedThresholdedAcquisition | TriggerCount | TimetagTrace | Timetag | ThresholdedTriggerCount
  | DualThresholdedTriggerCount
deriving DecidableEq, Repr

/-- `cls.__name__`. -/
def Cls.pyName : Cls → String
  | .ShiftClockPhase => "ShiftClockPhase" | .ResetClockPhase => "ResetClockPhase"
  | .SetClockFrequency => "SetClockFrequency" | .VoltageOffset => "VoltageOffset"
  | .IdlePulse => "IdlePulse" | .RampPulse => "RampPulse" | .StaircasePulse => "StaircasePulse"
  | .MarkerPulse => "MarkerPulse" | .SquarePulse => "SquarePulse"
  | .SuddenNetZeroPulse => "SuddenNetZeroPulse" | .SoftSquarePulse => "SoftSquarePulse"
  | .ChirpPulse => "ChirpPulse" | .DRAGPulse => "DRAGPulse" | .GaussPulse => "GaussPulse"
  | .WindowOperation => "WindowOperation" | .NumericalPulse => "NumericalPulse"
  | .SkewedHermitePulse => "SkewedHermitePulse" | .Timestamp => "Timestamp"
  | .RFSwitchToggle => "RFSwitchToggle" | .SimpleNumericalPulse => "SimpleNumericalPulse"
  | .Trace => "Trace" | .WeightedIntegratedSeparated => "WeightedIntegratedSeparated"
  | .SSBIntegrationComplex => "SSBIntegrationComplex"
  | .ThresholdedAcquisition => "ThresholdedAcquisition"
  | .NumericalSeparatedWeightedIntegration => "NumericalSeparatedWeightedIntegration"
  | .NumericalWeightedIntegration => "NumericalWeightedIntegration"
  | .WeightedThresholdedAcquisition => "WeightedThresholdedAcquisition"
  | .TriggerCount => "TriggerCount" | .TimetagTrace => "TimetagTrace" | .Timetag => "Timetag"
  | .ThresholdedTriggerCount => "ThresholdedTriggerCount"
  | .DualThresholdedTriggerCount => "DualThresholdedTriggerCount"

/-- Whether the class describes itself in `acquisition_info` (`class … (Acquisition)`). -/
def Cls.isAcq : Cls → Bool
  | .Trace | .WeightedIntegratedSeparated | .SSBIntegrationComplex | .ThresholdedAcquisition
  | .NumericalSeparatedWeightedIntegration | .NumericalWeightedIntegration
  | .WeightedThresholdedAcquisition | .TriggerCount | .TimetagTrace | .Timetag
  | .ThresholdedTriggerCount | .DualThresholdedTriggerCount => true
  | _ => false

/-- `BasebandClockResource.IDENTITY` and `DigitalClockResource.IDENTITY` (`resources.py:133, 159`). -/
def baseband : Val := .str "cl0.baseband"
/-- See `baseband`. -/
def digital : Val := .str "digital"

/-- A parameter without default. -/
abbrev req (p : String) : String × Option Val := (p, Option.none)
/-- A parameter with default. -/
abbrev opt (p : String) (v : Val) : String × Option Val := (p, some v)

/-- The parameters after `weights_a` and `weights_b` of the numerical integrations
(`acquisition_library.py:579-592, 725-738, 844-857`). -/
def numericParams : List (String × Option Val) :=
  [req "port", req "clock", req "weights_a", req "weights_b",
   opt "weights_sampling_rate" (.num 1000000000), opt "interpolation" (.str "linear"),
   opt "acq_channel" (.num 0), opt "coords" .none, opt "acq_index" .none,
   opt "bin_mode" (.enum "append"), opt "phase" (.num 0), opt "t0" (.num 0)]

/-- `inspect.signature(cls)`: the parameters of `__init__` and their defaults. -/
def params : Cls → List (String × Option Val)
  -- pulse_library.py:75-80
  | .ShiftClockPhase => [req "phase_shift", req "clock", opt "t0" (.num 0)]
  -- pulse_library.py:107
  | .ResetClockPhase => [req "clock", opt "t0" (.num 0)]
  -- pulse_library.py:150-155
  | .SetClockFrequency => [req "clock", req "clock_freq_new", opt "t0" (.num 0)]
  -- pulse_library.py:204-212
  | .VoltageOffset => [req "offset_path_I", req "offset_path_Q", req "port", opt "clock" baseband,
      opt "t0" (.num 0), opt "reference_magnitude" .none]
  -- pulse_library.py:246
  | .IdlePulse => [req "duration"]
  -- pulse_library.py:296-305
  | .RampPulse => [req "amp", req "duration", req "port", opt "clock" baseband,
      opt "reference_magnitude" .none, opt "offset" (.num 0), opt "t0" (.num 0)]
  -- pulse_library.py:356-366
  | .StaircasePulse => [req "start_amp", req "final_amp", req "num_steps", req "duration", req "port",
      opt "clock" baseband, opt "reference_magnitude" .none, opt "t0" (.num 0)]
  -- pulse_library.py:428-436
  | .MarkerPulse => [req "duration", req "port", opt "t0" (.num 0), opt "clock" digital,
      opt "fine_start_delay" (.num 0), opt "fine_end_delay" (.num 0)]
  -- pulse_library.py:482-490
  | .SquarePulse => [req "amp", req "duration", req "port", opt "clock" baseband,
      opt "reference_magnitude" .none, opt "t0" (.num 0)]
  -- pulse_library.py:548-560
  | .SuddenNetZeroPulse => [req "amp_A", req "amp_B", req "net_zero_A_scale", req "t_pulse",
      req "t_phi", req "t_integral_correction", req "port", opt "clock" baseband,
      opt "reference_magnitude" .none, opt "t0" (.num 0)]
  -- pulse_library.py:660-668
  | .SoftSquarePulse => [req "amp", req "duration", req "port", opt "clock" baseband,
      opt "reference_magnitude" .none, opt "t0" (.num 0)]
  -- pulse_library.py:715-725
  | .ChirpPulse => [req "amp", req "duration", req "port", req "clock", req "start_freq",
      req "end_freq", opt "reference_magnitude" .none, opt "t0" (.num 0)]
  -- pulse_library.py:785-796
  | .DRAGPulse => [req "G_amp", req "D_amp", req "phase", req "duration", req "port", req "clock",
      opt "reference_magnitude" .none, opt "sigma" .none, opt "t0" (.num 0)]
  -- pulse_library.py:855-865
  | .GaussPulse => [req "G_amp", req "phase", req "duration", req "port", opt "clock" baseband,
      opt "reference_magnitude" .none, opt "sigma" .none, opt "t0" (.num 0)]
  -- pulse_library.py:1009-1014
  | .WindowOperation => [req "window_name", req "duration", opt "t0" (.num 0)]
  -- pulse_library.py:1067-1076
  | .NumericalPulse => [req "samples", req "t_samples", req "port", opt "clock" baseband,
      opt "reference_magnitude" .none, opt "t0" (.num 0), opt "interpolation" (.str "linear")]
  -- pulse_library.py:1142-1152
  | .SkewedHermitePulse => [req "duration", req "amplitude", req "skewness", req "phase", req "port",
      req "clock", opt "reference_magnitude" .none, opt "t0" (.num 0)]
  -- pulse_library.py:1196-1201
  | .Timestamp => [req "port", opt "t0" (.num 0), opt "clock" digital]
  -- rf_switch_toggle.py:46-51
  | .RFSwitchToggle => [req "duration", req "port", req "clock"]
  -- qblox/operations/pulse_library.py:99-106
  | .SimpleNumericalPulse => [req "samples", req "port", opt "clock" baseband,
      opt "reference_magnitude" .none, opt "t0" (.num 0)]
  -- acquisition_library.py:106-116
  | .Trace => [req "duration", req "port", req "clock", opt "acq_channel" (.num 0), opt "coords" .none,
      opt "acq_index" .none, opt "bin_mode" (.enum "average"), opt "t0" (.num 0)]
  -- acquisition_library.py:206-219
  | .WeightedIntegratedSeparated => [req "waveform_a", req "waveform_b", req "port", req "clock",
      req "duration", opt "acq_channel" (.num 0), opt "coords" .none, opt "acq_index" .none,
      opt "bin_mode" (.enum "append"), opt "phase" (.num 0), opt "t0" (.num 0)]
  -- acquisition_library.py:301-312
  | .SSBIntegrationComplex => [req "port", req "clock", req "duration", opt "acq_channel" (.num 0),
      opt "coords" .none, opt "acq_index" .none, opt "bin_mode" (.enum "average"),
      opt "phase" (.num 0), opt "t0" (.num 0)]
  -- acquisition_library.py:445-459
  | .ThresholdedAcquisition => [req "port", req "clock", req "duration", opt "acq_channel" (.num 0),
      opt "coords" .none, opt "acq_index" .none, opt "bin_mode" (.enum "average"),
      opt "feedback_trigger_label" .none, opt "phase" (.num 0), opt "t0" (.num 0),
      opt "acq_rotation" (.num 0), opt "acq_threshold" (.num 0)]
  | .NumericalSeparatedWeightedIntegration => numericParams
  | .NumericalWeightedIntegration => numericParams
  -- acquisition_library.py:844-860
  | .WeightedThresholdedAcquisition => numericParams ++
      [opt "feedback_trigger_label" .none, opt "acq_rotation" .none, opt "acq_threshold" (.num 0)]
  -- acquisition_library.py:944-956
  | .TriggerCount => [req "port", req "clock", req "duration", opt "acq_channel" (.num 0),
      opt "coords" .none, opt "acq_index" .none, opt "bin_mode" (.enum "append"), opt "t0" (.num 0),
      opt "fine_start_delay" (.num 0), opt "fine_end_delay" (.num 0)]
  -- acquisition_library.py:1076-1090
  | .TimetagTrace => [req "duration", req "port", opt "clock" digital, opt "acq_channel" (.num 0),
      opt "coords" .none, opt "acq_index" .none, opt "bin_mode" (.enum "append"),
      opt "time_ref" (.enum "start"), opt "time_ref_port" .none, opt "t0" (.num 0),
      opt "fine_start_delay" (.num 0), opt "fine_end_delay" (.num 0)]
  -- acquisition_library.py:1218-1233
  | .Timetag => [req "duration", req "port", opt "clock" digital, opt "acq_channel" (.num 0),
      opt "coords" .none, opt "acq_index" .none, opt "bin_mode" (.enum "append"),
      opt "time_source" (.enum "first"), opt "time_ref" (.enum "start"), opt "time_ref_port" .none,
      opt "t0" (.num 0), opt "fine_start_delay" (.num 0), opt "fine_end_delay" (.num 0)]
  -- acquisition_library.py:1334-1350
  | .ThresholdedTriggerCount => [req "port", req "clock", req "duration", req "threshold",
      opt "feedback_trigger_label" .none,
      opt "feedback_trigger_condition" (.enum "greater_than_equal_to"), opt "acq_channel" (.num 0),
      opt "coords" .none, opt "acq_index" .none, opt "bin_mode" (.enum "append"), opt "t0" (.num 0)]
  -- acquisition_library.py:1469-1487
  | .DualThresholdedTriggerCount => [req "port", req "clock", req "duration", req "threshold_low",
      req "threshold_high", opt "label_low" .none, opt "label_mid" .none, opt "label_high" .none,
      opt "label_invalid" .none, opt "acq_channel" (.num 0), opt "coords" .none,
      opt "acq_index" .none, opt "bin_mode" (.enum "append"), opt "t0" (.num 0)]

/-- Binding keyword arguments to the parameters: an unknown keyword and a missing argument are
TypeErrors. -/
def bind (c : Cls) (kw : List (String × Val)) : Except Err (String → Val) :=
  if kw.all (fun e => (params c).any (fun p => p.1 == e.1)) then
    if (params c).all (fun p => p.2.isSome || (Dict.get? kw p.1).isSome) then
      .ok (fun p => (Dict.get? kw p).getD (((Dict.get? (params c) p).bind id).getD .none))
    else .error .typeError
  else .error .typeError

/-- Using a value as a number. -/
def asNum : Val → Except Err Rat
  | .num q => .ok q
  | _ => .error .typeError

/-- `v == Member`, where the member has the value `s`. -/
def eqText (s : String) : Val → Bool
  | .str t => t == s
  | .enum t => t == s
  | _ => false

/-- `v != 0`. -/
def neZero : Val → Bool
  | .num q => q != 0
  | .bool b => b
  | .cplx a b => a != 0 || b != 0
  | _ => true

/-- `v is None`. -/
def isNone : Val → Bool
  | .none => true
  | _ => false

/-- `if isinstance(v, str): v = Enumeration(v)` for the enumeration with the values `names`. -/
def asEnum (names : List String) : Val → Except Err Val
  | .str s => if names.contains s then .ok (.enum s) else .error .valueError
  | .enum s => if names.contains s then .ok (.enum s) else .error .valueError
  | v => .ok v

/-- `enums.py:18-47`. -/
def binModes : List String := ["append", "average", "first", "distribution", "sum"]
/-- `enums.py:50-60`. -/
def timeSources : List String := ["first", "second", "last"]
/-- `enums.py:63-75`. -/
def timeRefs : List String := ["start", "end", "first", "timestamp", "port"]

/-- A list or an array, as a list (`make_list_from_array`, `pulse_library.py:1077-1081`, and
`np.array`). -/
def asList : Val → Except Err (List Val)
  | .list l => .ok l
  | .array l => .ok l
  | _ => .error .typeError

/-- `t_samples[-1] - t_samples[0]` (`pulse_library.py:1083`). -/
def span (ts : List Val) : Except Err Rat :=
  match ts.getLast?, ts.head? with
  | some b, some a => do .ok ((← asNum b) - (← asNum a))
  | _, _ => .error .indexError

/-- `waveform_i` and `waveform_q` (`acquisition_library.py:314-331, 461-478`). -/
def squareWeights (a : String → Val) : Val :=
  .list [.dict [("port", a "port"), ("clock", a "clock"), ("t0", a "t0"), ("duration", a "duration"),
      ("wf_func", .str "quantify_scheduler.waveforms.square"), ("amp", .num 1)],
    .dict [("port", a "port"), ("clock", a "clock"), ("t0", a "t0"), ("duration", a "duration"),
      ("wf_func", .str "quantify_scheduler.waveforms.square"), ("amp", .cplx 0 1)]]

/-- `float if bin_mode == BinMode.AVERAGE else np.int32` (`acquisition_library.py:495, 889`). -/
def thresholdType (a : String → Val) : Val :=
  if eqText "average" (a "bin_mode") then .type "float" else .type "numpy.int32"

/-- `WeightedIntegratedSeparated.__init__` (`acquisition_library.py:220-247`), given the two waveforms
and the duration. The last lines (242-245) never apply. -/
def separated (a : String → Val) (wa wb duration : Val) : Except Err Info :=
  if neZero (a "phase") then .error .notImplemented else
  .ok [("waveforms", .list [wa, wb]), ("t0", a "t0"), ("clock", a "clock"), ("port", a "port"),
    ("duration", duration), ("phase", a "phase"), ("acq_channel", a "acq_channel"),
    ("coords", a "coords"), ("acq_index", a "acq_index"), ("bin_mode", a "bin_mode"),
    ("protocol", .str "WeightedIntegratedSeparated"), ("acq_return_type", .type "complex")]

/-- `NumericalSeparatedWeightedIntegration.__init__` (`acquisition_library.py:593-628`). -/
def numeric (a : String → Val) : Except Err Info := do
  let wa ← asList (a "weights_a")
  let wb ← asList (a "weights_b")
  let rate ← asNum (a "weights_sampling_rate")
  if rate = 0 then .error .zeroDivision else
  let ts := .array ((List.range wa.length).map fun i : Nat => .num ((i : Rat) / rate))
  let wave := fun w => .dict
    [("wf_func", .str "quantify_scheduler.waveforms.interpolated_complex_waveform"),
     ("samples", .array w), ("t_samples", ts), ("interpolation", a "interpolation")]
  let d ← separated a (wave wa) (wave wb) (.num ((wa.length : Rat) / rate))
  .ok (Dict.set d "protocol" (.str "NumericalSeparatedWeightedIntegration"))

/-- `NumericalPulse.__init__` (`pulse_library.py:1083-1104`). -/
def numericalPulse (a : String → Val) : Except Err Info := do
  let ts ← asList (a "t_samples")
  let duration ← span ts
  let samples ← asList (a "samples")
  .ok [("wf_func", .str "quantify_scheduler.waveforms.interpolated_complex_waveform"),
    ("samples", .list samples), ("t_samples", .list ts),
    ("reference_magnitude", a "reference_magnitude"), ("duration", .num duration),
    ("interpolation", a "interpolation"), ("clock", a "clock"), ("port", a "port"), ("t0", a "t0")]

/-- The entry that the constructor stores, given its arguments. -/
def entry : Cls → (String → Val) → Except Err Info
  -- pulse_library.py:81-92
  | .ShiftClockPhase, a => .ok [("wf_func", .none), ("t0", a "t0"), ("phase_shift", a "phase_shift"),
      ("clock", a "clock"), ("port", .none), ("duration", .num 0)]
  -- pulse_library.py:108-120
  | .ResetClockPhase, a => .ok [("wf_func", .none), ("clock", a "clock"), ("t0", a "t0"),
      ("duration", .num 0), ("port", .none), ("reset_clock_phase", .bool true)]
  -- pulse_library.py:156-171
  | .SetClockFrequency, a => .ok [("wf_func", .none), ("t0", a "t0"), ("clock", a "clock"),
      ("clock_freq_new", a "clock_freq_new"), ("clock_freq_old", .none), ("interm_freq_old", .none),
      ("port", .none), ("duration", .num 0)]
  -- pulse_library.py:213-229
  | .VoltageOffset, a => .ok [("wf_func", .none), ("t0", a "t0"), ("offset_path_I", a "offset_path_I"),
      ("offset_path_Q", a "offset_path_Q"), ("clock", a "clock"), ("port", a "port"),
      ("duration", .num 0), ("reference_magnitude", a "reference_magnitude")]
  -- pulse_library.py:247-258
  | .IdlePulse, a => .ok [("wf_func", .none), ("t0", .num 0), ("duration", a "duration"),
      ("clock", baseband), ("port", .none)]
  -- pulse_library.py:306-322
  | .RampPulse, a => .ok [("wf_func", .str "quantify_scheduler.waveforms.ramp"), ("amp", a "amp"),
      ("reference_magnitude", a "reference_magnitude"), ("duration", a "duration"),
      ("offset", a "offset"), ("t0", a "t0"), ("clock", a "clock"), ("port", a "port")]
  -- pulse_library.py:367-384
  | .StaircasePulse, a => .ok [("wf_func", .str "quantify_scheduler.waveforms.staircase"),
      ("start_amp", a "start_amp"), ("final_amp", a "final_amp"),
      ("reference_magnitude", a "reference_magnitude"), ("num_steps", a "num_steps"),
      ("duration", a "duration"), ("t0", a "t0"), ("clock", a "clock"), ("port", a "port")]
  -- pulse_library.py:437-452
  | .MarkerPulse, a => .ok [("wf_func", .none), ("marker_pulse", .bool true), ("t0", a "t0"),
      ("clock", a "clock"), ("port", a "port"), ("duration", a "duration"),
      ("fine_start_delay", a "fine_start_delay"), ("fine_end_delay", a "fine_end_delay")]
  -- pulse_library.py:491-504
  | .SquarePulse, a => .ok [("wf_func", .str "quantify_scheduler.waveforms.square"), ("amp", a "amp"),
      ("reference_magnitude", a "reference_magnitude"), ("duration", a "duration"), ("t0", a "t0"),
      ("clock", a "clock"), ("port", a "port")]
  -- pulse_library.py:561-582
  | .SuddenNetZeroPulse, a => do
      let duration := (← asNum (a "t_pulse")) + (← asNum (a "t_phi"))
        + (← asNum (a "t_integral_correction"))
      .ok [("wf_func", .str "quantify_scheduler.waveforms.sudden_net_zero"), ("amp_A", a "amp_A"),
        ("amp_B", a "amp_B"), ("reference_magnitude", a "reference_magnitude"),
        ("net_zero_A_scale", a "net_zero_A_scale"), ("t_pulse", a "t_pulse"), ("t_phi", a "t_phi"),
        ("t_integral_correction", a "t_integral_correction"), ("duration", .num duration),
        ("phase", .num 0), ("t0", a "t0"), ("clock", a "clock"), ("port", a "port")]
  -- pulse_library.py:669-682
  | .SoftSquarePulse, a => .ok [("wf_func", .str "quantify_scheduler.waveforms.soft_square"),
      ("amp", a "amp"), ("reference_magnitude", a "reference_magnitude"), ("duration", a "duration"),
      ("t0", a "t0"), ("clock", a "clock"), ("port", a "port")]
  -- pulse_library.py:726-741
  | .ChirpPulse, a => .ok [("wf_func", .str "quantify_scheduler.waveforms.chirp"), ("amp", a "amp"),
      ("reference_magnitude", a "reference_magnitude"), ("duration", a "duration"),
      ("start_freq", a "start_freq"), ("end_freq", a "end_freq"), ("t0", a "t0"), ("clock", a "clock"),
      ("port", a "port")]
  -- pulse_library.py:797-815
  | .DRAGPulse, a => .ok [("wf_func", .str "quantify_scheduler.waveforms.drag"), ("G_amp", a "G_amp"),
      ("D_amp", a "D_amp"), ("reference_magnitude", a "reference_magnitude"),
      ("duration", a "duration"), ("phase", a "phase"),
      ("nr_sigma", if isNone (a "sigma") then .num 4 else .none), ("sigma", a "sigma"),
      ("clock", a "clock"), ("port", a "port"), ("t0", a "t0")]
  -- pulse_library.py:866-883
  | .GaussPulse, a => .ok [("wf_func", .str "quantify_scheduler.waveforms.drag"), ("G_amp", a "G_amp"),
      ("D_amp", .num 0), ("reference_magnitude", a "reference_magnitude"),
      ("duration", a "duration"), ("phase", a "phase"),
      ("nr_sigma", if isNone (a "sigma") then .num 4 else .none), ("sigma", a "sigma"),
      ("clock", a "clock"), ("port", a "port"), ("t0", a "t0")]
  -- pulse_library.py:1015-1027
  | .WindowOperation, a => .ok [("wf_func", .none), ("window_name", a "window_name"),
      ("duration", a "duration"), ("t0", a "t0"), ("port", .none)]
  | .NumericalPulse, a => numericalPulse a
  -- pulse_library.py:1153-1168
  | .SkewedHermitePulse, a => .ok [("wf_func", .str "quantify_scheduler.waveforms.skewed_hermite"),
      ("duration", a "duration"), ("amplitude", a "amplitude"),
      ("reference_magnitude", a "reference_magnitude"), ("skewness", a "skewness"),
      ("phase", a "phase"), ("clock", a "clock"), ("port", a "port"), ("t0", a "t0")]
  -- pulse_library.py:1202-1214
  | .Timestamp, a => .ok [("wf_func", .none), ("t0", a "t0"), ("duration", .num 0),
      ("clock", a "clock"), ("port", a "port"), ("timestamp", .bool true)]
  -- rf_switch_toggle.py:52-65
  | .RFSwitchToggle, a => .ok [("wf_func", .none), ("marker_pulse", .bool true), ("t0", .num 0),
      ("clock", a "clock"), ("port", a "port"), ("duration", a "duration")]
  -- qblox/operations/pulse_library.py:107-121 (`constants.SAMPLING_RATE = 1e9`)
  | .SimpleNumericalPulse, a => do
      let samples ← asList (a "samples")
      let samples := samples ++ [.num 0]
      let ts := (List.range samples.length).map fun i : Nat => Val.num ((i : Rat) / 1000000000)
      numericalPulse fun p =>
        if p = "samples" then .array samples else if p = "t_samples" then .array ts
        else if p = "interpolation" then .str "linear" else a p
  -- acquisition_library.py:117-139
  | .Trace, a => do
      let duration ← asNum (a "duration")
      let binMode ← asEnum binModes (a "bin_mode")
      .ok [("waveforms", .list []), ("duration", .num duration), ("t0", a "t0"), ("port", a "port"),
        ("clock", a "clock"), ("acq_channel", a "acq_channel"), ("coords", a "coords"),
        ("acq_index", a "acq_index"), ("bin_mode", binMode), ("protocol", .str "Trace"),
        ("acq_return_type", .type "numpy.ndarray")]
  | .WeightedIntegratedSeparated, a => separated a (a "waveform_a") (a "waveform_b") (a "duration")
  -- acquisition_library.py:313-357
  | .SSBIntegrationComplex, a =>
      if neZero (a "phase") then .error .notImplemented else
      .ok [("waveforms", squareWeights a), ("t0", a "t0"), ("clock", a "clock"), ("port", a "port"),
        ("duration", a "duration"), ("phase", a "phase"), ("acq_channel", a "acq_channel"),
        ("coords", a "coords"), ("acq_index", a "acq_index"), ("bin_mode", a "bin_mode"),
        ("acq_return_type", .type "complex"), ("protocol", .str "SSBIntegrationComplex")]
  -- acquisition_library.py:460-506
  | .ThresholdedAcquisition, a =>
      if neZero (a "phase") then .error .notImplemented else
      .ok [("waveforms", squareWeights a), ("t0", a "t0"), ("clock", a "clock"), ("port", a "port"),
        ("duration", a "duration"), ("phase", a "phase"), ("acq_channel", a "acq_channel"),
        ("coords", a "coords"), ("acq_index", a "acq_index"), ("bin_mode", a "bin_mode"),
        ("acq_return_type", thresholdType a), ("protocol", .str "ThresholdedAcquisition"),
        ("feedback_trigger_label", a "feedback_trigger_label"), ("acq_threshold", a "acq_threshold"),
        ("acq_rotation", a "acq_rotation")]
  | .NumericalSeparatedWeightedIntegration, a => numeric a
  -- acquisition_library.py:739-754
  | .NumericalWeightedIntegration, a => do
      .ok (Dict.set (← numeric a) "protocol" (.str "NumericalWeightedIntegration"))
  -- acquisition_library.py:861-892
  | .WeightedThresholdedAcquisition, a => do
      let d ← numeric a
      let d := Dict.set d "protocol" (.str "WeightedThresholdedAcquisition")
      let d := Dict.set d "feedback_trigger_label" (a "feedback_trigger_label")
      let d := Dict.set d "acq_threshold" (a "acq_threshold")
      let d := Dict.set d "acq_rotation" (.num (360 - 45))
      .ok (Dict.set d "acq_return_type" (thresholdType a))
  -- acquisition_library.py:957-999
  | .TriggerCount, a =>
      .ok [("waveforms", .list []), ("t0", a "t0"), ("clock", a "clock"), ("port", a "port"),
        ("duration", a "duration"), ("acq_channel", a "acq_channel"), ("coords", a "coords"),
        ("acq_index", a "acq_index"),
        ("bin_mode", if eqText "average" (a "bin_mode") then .enum "distribution" else a "bin_mode"),
        ("acq_return_type", .type "int"), ("protocol", .str "TriggerCount"),
        ("fine_start_delay", a "fine_start_delay"), ("fine_end_delay", a "fine_end_delay")]
  -- acquisition_library.py:1091-1132
  | .TimetagTrace, a => do
      let duration ← asNum (a "duration")
      let binMode ← asEnum binModes (a "bin_mode")
      if eqText "port" (a "time_ref") && isNone (a "time_ref_port") then .error .valueError else
      .ok [("waveforms", .list []), ("duration", .num duration), ("t0", a "t0"), ("port", a "port"),
        ("clock", a "clock"), ("acq_channel", a "acq_channel"), ("coords", a "coords"),
        ("acq_index", a "acq_index"), ("bin_mode", binMode), ("time_source", .enum "first"),
        ("time_ref", a "time_ref"), ("time_ref_port", a "time_ref_port"), ("time_ref_channel", .none),
        ("protocol", .str "TimetagTrace"), ("acq_return_type", .type "numpy.ndarray"),
        ("fine_start_delay", a "fine_start_delay"), ("fine_end_delay", a "fine_end_delay")]
  -- acquisition_library.py:1234-1273
  | .Timetag, a => do
      let source ← asEnum timeSources (a "time_source")
      let ref ← asEnum timeRefs (a "time_ref")
      if eqText "port" ref && isNone (a "time_ref_port") then .error .valueError else
      .ok [("waveforms", .list []), ("t0", a "t0"), ("clock", a "clock"), ("port", a "port"),
        ("duration", a "duration"), ("acq_channel", a "acq_channel"), ("coords", a "coords"),
        ("acq_index", a "acq_index"), ("bin_mode", a "bin_mode"), ("time_source", source),
        ("time_ref", ref), ("time_ref_port", a "time_ref_port"), ("time_ref_channel", .none),
        ("acq_return_type", .type "float"), ("protocol", .str "Timetag"),
        ("fine_start_delay", a "fine_start_delay"), ("fine_end_delay", a "fine_end_delay")]
  -- acquisition_library.py:1351-1387
  | .ThresholdedTriggerCount, a =>
      if eqText "average" (a "bin_mode") && neZero (a "acq_index") then .error .notImplemented else
      .ok [("waveforms", .list []), ("t0", a "t0"), ("clock", a "clock"), ("port", a "port"),
        ("duration", a "duration"), ("acq_channel", a "acq_channel"), ("coords", a "coords"),
        ("acq_index", a "acq_index"), ("bin_mode", a "bin_mode"),
        ("thresholded_trigger_count", .dict [("threshold", a "threshold"),
          ("condition", a "feedback_trigger_condition")]),
        ("feedback_trigger_label", a "feedback_trigger_label"), ("acq_return_type", .type "int"),
        ("protocol", .str "ThresholdedTriggerCount")]
  -- acquisition_library.py:1488-1525
  | .DualThresholdedTriggerCount, a =>
      if eqText "average" (a "bin_mode") && neZero (a "acq_index") then .error .notImplemented else
      .ok [("waveforms", .list []), ("t0", a "t0"), ("clock", a "clock"), ("port", a "port"),
        ("duration", a "duration"), ("acq_channel", a "acq_channel"), ("coords", a "coords"),
        ("acq_index", a "acq_index"), ("bin_mode", a "bin_mode"),
        ("thresholded_trigger_count", .dict [("threshold_low", a "threshold_low"),
          ("threshold_high", a "threshold_high")]),
        ("feedback_trigger_labels", .dict [("low", a "label_low"), ("mid", a "label_mid"),
          ("high", a "label_high"), ("invalid", a "label_invalid")]),
        ("acq_return_type", .type "int"), ("protocol", .str "DualThresholdedTriggerCount")]

/-- An operation: class, `data["name"]`, `data["pulse_info"]`, `data["acquisition_info"]` and
`duration` (`operation.py:66-76`). -/
structure Op where
  cls : Cls
  name : String
  pulses : List Info
  acqs : List Info
  duration : Rat

/-- `info["t0"] + info["duration"]` (`operation.py:129-131`). -/
def endOf (i : Info) : Except Err Rat := do
  .ok ((← asNum ((Dict.get? i "t0").getD .none)) + (← asNum ((Dict.get? i "duration").getD .none)))

/-- `_update` (`operation.py:126-137`): the latest end, 0 if there is no entry. -/
def latest (l : List Info) : Except Err Rat := do
  match ← l.mapM endOf with
  | [] => .ok 0
  | t :: ts => .ok (ts.foldl max t)

/-- Calling the class with keyword arguments. -/
def create (c : Cls) (kw : List (String × Val)) : Except Err Op := do
  let a ← bind c kw
  let i ← entry c a
  let p := if c.isAcq then [] else [i]
  let q := if c.isAcq then [i] else []
  .ok { cls := c, name := c.pyName, pulses := p, acqs := q, duration := ← latest (p ++ q) }

/-! ### The text -/

/-- How the value of a keyword is printed: between single quotes, without escaping
(`operation.py:211`), as Python's representation of the value, or as numpy prints an array. -/
inductive Token
  | quoted (s : String)
  | repr (v : Val)
  | numbers (l : List Val)

/-- `to_kwarg` (`operation.py:191-212`): a member of an enumeration is printed as its value. -/
def token : Val → Token
  | .enum s => .quoted s
  | .str s => .quoted s
  | v => .repr v

/-- A printed constructor call: the name of the class and the printed keywords. -/
structure Text where
  cls : Cls
  kwargs : List (String × Token)

/-- `_get_signature` (`operation.py:168-217`) with the parameters `ps`: each must be a key. -/
def signature (c : Cls) (ps : List String) (i : Info) : Except Err Text := do
  let ks ← ps.mapM fun p => match Dict.get? i p with
    | some v => .ok (p, token v)
    | none => .error .keyError
  .ok ⟨c, ks⟩

/-- The classes whose `_class_signature` has been set, as a set (`operation.py:65, 186-189`). -/
abbrev Cache := List Cls

/-- The class whose signature `cls._class_signature` yields: its own, or that of the only parent that
prints itself with `_get_signature` if only that has been set (class attributes are inherited). -/
def cachedFor (k : Cache) (c : Cls) : Cls :=
  if k.contains c then c
  else if c = .SimpleNumericalPulse ∧ k.contains .NumericalPulse then .NumericalPulse else c

/-- `_get_signature` with the cache of signatures: the call and the cache afterwards. -/
def cachedSignature (k : Cache) (c : Cls) (i : Info) : Except Err Text × Cache :=
  let s := cachedFor k c
  (signature c ((params s).map Prod.fst) i, if s = c ∧ ¬ k.contains c then c :: k else k)

/-- The value of an entry under a key (KeyError if it is missing). -/
def item (i : Info) (k : String) : Except Err Val :=
  match Dict.get? i k with
  | some v => .ok v
  | none => .error .keyError

/-- The value under a key of a dictionary. -/
def subitem (v : Val) (k : String) : Except Err Val :=
  match v with
  | .dict d => item d k
  | _ => .error .typeError

/-- `NumericalSeparatedWeightedIntegration.__str__` (`acquisition_library.py:630-654`), for the class and
its subclasses. `bin_mode.value` exists only for members of an enumeration. -/
def numericText (c : Cls) (i : Info) : Except Err Text := do
  let (wa, wb) ← match ← item i "waveforms" with
    | .list [wa, wb] => .ok (wa, wb)
    | _ => .error .indexError
  let sa ← asList (← subitem wa "samples")
  let sb ← asList (← subitem wb "samples")
  let rate ← match ← asList (← subitem wa "t_samples") with
    | t0 :: t1 :: _ => .ok (1 / ((← asNum t1) - (← asNum t0)))
    | _ => .error .indexError
  let interpolation ← subitem wa "interpolation"
  let binMode ← match ← item i "bin_mode" with
    | .enum s => .ok s
    | _ => .error .attributeError
  .ok ⟨c, [("weights_a", .numbers sa), ("weights_b", .numbers sb),
    ("weights_sampling_rate", .repr (.num rate)), ("port", .repr (← item i "port")),
    ("clock", .repr (← item i "clock")), ("interpolation", .repr interpolation),
    ("acq_channel", .repr (← item i "acq_channel")), ("coords", .repr (← item i "coords")),
    ("acq_index", .repr (← item i "acq_index")), ("bin_mode", .repr (.str binMode)),
    ("phase", .repr (← item i "phase")), ("t0", .repr (← item i "t0"))]⟩

/-- `ThresholdedTriggerCount.__str__` (`acquisition_library.py:1389-1394`): the entry with the keys added
that the parameters are called. -/
def countInfo (i : Info) : Except Err Info := do
  let v ← item i "thresholded_trigger_count"
  let i := Dict.set i "threshold" (← subitem v "threshold")
  .ok (Dict.set i "feedback_trigger_condition" (← subitem v "condition"))

/-- `DualThresholdedTriggerCount.__str__` (`acquisition_library.py:1527-1534`). -/
def dualInfo (i : Info) : Except Err Info := do
  let v ← item i "thresholded_trigger_count"
  let i := Dict.set i "threshold_low" (← subitem v "threshold_low")
  let i := Dict.set i "threshold_high" (← subitem v "threshold_high")
  ["low", "mid", "high", "invalid"].foldlM (fun i s => do
    .ok (Dict.set i ("label_" ++ s) (← item i ("feedback_trigger_label_" ++ s)))) i

/-- `__str__` of an operation, with the cache of signatures: the text and the cache afterwards. All
classes but `SquarePulse` (`pulse_library.py:506-509`, the first entry with `amp`) use the first entry. -/
def text (k : Cache) (o : Op) : Except Err Text × Cache :=
  let first := if o.cls.isAcq then o.acqs.head? else
    if o.cls = .SquarePulse then (o.pulses.filter fun i => (Dict.get? i "amp").isSome).head?
    else o.pulses.head?
  match first with
  | none => (.error .indexError, k)
  | some i =>
    match o.cls with
    | .NumericalSeparatedWeightedIntegration => (numericText o.cls i, k)
    | .NumericalWeightedIntegration => (numericText o.cls i, k)
    | .WeightedThresholdedAcquisition => (numericText o.cls i, k)
    | .ThresholdedTriggerCount =>
      match countInfo i with
      | .ok i => cachedSignature k o.cls i
      | .error e => (.error e, k)
    | .DualThresholdedTriggerCount =>
      match dualInfo i with
      | .ok i => cachedSignature k o.cls i
      | .error e => (.error e, k)
    | _ => cachedSignature k o.cls i

/-- Printing operations one after the other: the cache afterwards. -/
def printAll (k : Cache) (l : List Op) : Cache := l.foldl (fun k o => (text k o).2) k

/-- `is_conditional_acquisition` (`operation.py:318-331`). -/
def isConditional (o : Op) : Bool :=
  match o.acqs with
  | [] => false
  | i :: _ => !isNone ((Dict.get? i "feedback_trigger_label").getD .none)
      || (match Dict.get? i "feedback_trigger_labels" with
          | some (.dict l) => decide (0 < l.length)
          | _ => false)

end Verif.Ops
