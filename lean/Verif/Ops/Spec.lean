/-
Specification for C82 and C83: what pulses and acquisitions hold, when they are refused, and what it
means that the text of an operation makes it again.

Only the vocabulary (values, classes, operations, printed calls) is that of the model.
-/
import Verif.Ops.Model

namespace Verif.Ops

/-! ### Documented parameters -/

/-- The arguments that must be given. -/
def required : Cls → List String
  | .ShiftClockPhase => ["phase_shift", "clock"]
  | .ResetClockPhase => ["clock"]
  | .SetClockFrequency => ["clock", "clock_freq_new"]
  | .VoltageOffset => ["offset_path_I", "offset_path_Q", "port"]
  | .IdlePulse => ["duration"]
  | .RampPulse | .SquarePulse | .SoftSquarePulse => ["amp", "duration", "port"]
  | .StaircasePulse => ["start_amp", "final_amp", "num_steps", "duration", "port"]
  | .MarkerPulse | .TimetagTrace | .Timetag => ["duration", "port"]
  | .SuddenNetZeroPulse =>
    ["amp_A", "amp_B", "net_zero_A_scale", "t_pulse", "t_phi", "t_integral_correction", "port"]
  | .ChirpPulse => ["amp", "duration", "port", "clock", "start_freq", "end_freq"]
  | .DRAGPulse => ["G_amp", "D_amp", "phase", "duration", "port", "clock"]
  | .GaussPulse => ["G_amp", "phase", "duration", "port"]
  | .WindowOperation => ["window_name", "duration"]
  | .NumericalPulse => ["samples", "t_samples", "port"]
  | .SimpleNumericalPulse => ["samples", "port"]
  | .SkewedHermitePulse => ["duration", "amplitude", "skewness", "phase", "port", "clock"]
  | .Timestamp => ["port"]
  | .RFSwitchToggle | .Trace | .SSBIntegrationComplex | .ThresholdedAcquisition | .TriggerCount =>
    ["port", "clock", "duration"]
  | .WeightedIntegratedSeparated => ["waveform_a", "waveform_b", "port", "clock", "duration"]
  | .NumericalSeparatedWeightedIntegration | .NumericalWeightedIntegration
  | .WeightedThresholdedAcquisition => ["port", "clock", "weights_a", "weights_b"]
  | .ThresholdedTriggerCount => ["port", "clock", "duration", "threshold"]
  | .DualThresholdedTriggerCount => ["port", "clock", "duration", "threshold_low", "threshold_high"]

/-- The arguments that say where the data of an acquisition goes. -/
def placing : List String := ["acq_channel", "coords", "acq_index", "bin_mode", "t0"]

/-- The arguments that may be given. -/
def optional : Cls → List String
  | .ShiftClockPhase | .ResetClockPhase | .SetClockFrequency | .WindowOperation => ["t0"]
  | .IdlePulse | .RFSwitchToggle => []
  | .VoltageOffset | .StaircasePulse | .SquarePulse | .SuddenNetZeroPulse | .SoftSquarePulse
  | .SimpleNumericalPulse => ["clock", "reference_magnitude", "t0"]
  | .RampPulse => ["clock", "reference_magnitude", "offset", "t0"]
  | .MarkerPulse => ["clock", "t0", "fine_start_delay", "fine_end_delay"]
  | .ChirpPulse | .SkewedHermitePulse => ["reference_magnitude", "t0"]
  | .DRAGPulse => ["reference_magnitude", "sigma", "t0"]
  | .GaussPulse => ["clock", "reference_magnitude", "sigma", "t0"]
  | .NumericalPulse => ["clock", "reference_magnitude", "t0", "interpolation"]
  | .Timestamp => ["clock", "t0"]
  | .Trace => placing
  | .WeightedIntegratedSeparated | .SSBIntegrationComplex => "phase" :: placing
  | .ThresholdedAcquisition =>
    ["feedback_trigger_label", "acq_rotation", "acq_threshold", "phase"] ++ placing
  | .NumericalSeparatedWeightedIntegration | .NumericalWeightedIntegration =>
    ["weights_sampling_rate", "interpolation", "phase"] ++ placing
  | .WeightedThresholdedAcquisition =>
    ["weights_sampling_rate", "interpolation", "feedback_trigger_label", "acq_rotation",
     "acq_threshold", "phase"] ++ placing
  | .TriggerCount => ["fine_start_delay", "fine_end_delay"] ++ placing
  | .TimetagTrace =>
    ["clock", "time_ref", "time_ref_port", "fine_start_delay", "fine_end_delay"] ++ placing
  | .Timetag =>
    ["clock", "time_source", "time_ref", "time_ref_port", "fine_start_delay", "fine_end_delay"]
      ++ placing
  | .ThresholdedTriggerCount => ["feedback_trigger_label", "feedback_trigger_condition"] ++ placing
  | .DualThresholdedTriggerCount => ["label_low", "label_mid", "label_high", "label_invalid"] ++ placing

/-- The documented defaults: the same for all classes, except that clocks are digital for what digital
modules do and baseband otherwise, and that traces, integrations and thresholded integrations are
averaged while everything else is appended. -/
def defaultOf (c : Cls) : String → Val
  | "clock" => if c ∈ [.MarkerPulse, .Timestamp, .TimetagTrace, .Timetag] then .str "digital"
      else .str "cl0.baseband"
  | "bin_mode" => if c ∈ [.Trace, .SSBIntegrationComplex, .ThresholdedAcquisition]
      then .enum "average" else .enum "append"
  | "acq_rotation" => if c = .WeightedThresholdedAcquisition then .none else .num 0
  | "t0" | "offset" | "phase" | "acq_channel" | "acq_threshold" | "fine_start_delay"
  | "fine_end_delay" => .num 0
  | "interpolation" => .str "linear"
  | "weights_sampling_rate" => .num 1000000000
  | "time_source" => .enum "first"
  | "time_ref" => .enum "start"
  | "feedback_trigger_condition" => .enum "greater_than_equal_to"
  | _ => .none

/-- The value of a parameter: what is given for it, otherwise its default. -/
def Given (c : Cls) (kw : List (String × Val)) (p : String) (v : Val) : Prop :=
  (p ∈ required c ∨ p ∈ optional c) ∧
    (Dict.get? kw p = some v ∨ (Dict.get? kw p = Option.none ∧ p ∈ optional c ∧ v = defaultOf c p))

/-- `g` tells the values of the parameters. -/
def Args (c : Cls) (kw : List (String × Val)) (g : String → Val) : Prop :=
  ∀ p v, Given c kw p v → g p = v

/-! ### Equality -/

mutual
/-- A member of an enumeration is equal to its string. -/
def norm : Val → Val
  | .enum s => .str s
  | .list l => .list (normList l)
  | .array l => .array (normList l)
  | .dict l => .dict (normDict l)
  | v => v
/-- The elements. -/
def normList : List Val → List Val
  | [] => []
  | v :: l => norm v :: normList l
/-- The entries. -/
def normDict : List (String × Val) → List (String × Val)
  | [] => []
  | e :: l => normEntry e :: normDict l
/-- One entry. -/
def normEntry : String × Val → String × Val
  | (k, v) => (k, norm v)
end

/-- Equal values. -/
def Same (v w : Val) : Prop := norm v = norm w

/-- Equal operations: same class and name, and equal contents (in the same order). -/
def SameOp (a b : Op) : Prop :=
  a.cls = b.cls ∧ a.name = b.name ∧ a.duration = b.duration ∧
    a.pulses.map normDict = b.pulses.map normDict ∧ a.acqs.map normDict = b.acqs.map normDict

/-! ### Contents -/

/-- The names of the classes. -/
def classNames : List (Cls × String) :=
  [(.ShiftClockPhase, "ShiftClockPhase"), (.ResetClockPhase, "ResetClockPhase"),
   (.SetClockFrequency, "SetClockFrequency"), (.VoltageOffset, "VoltageOffset"),
   (.IdlePulse, "IdlePulse"), (.RampPulse, "RampPulse"), (.StaircasePulse, "StaircasePulse"),
   (.MarkerPulse, "MarkerPulse"), (.SquarePulse, "SquarePulse"),
   (.SuddenNetZeroPulse, "SuddenNetZeroPulse"), (.SoftSquarePulse, "SoftSquarePulse"),
   (.ChirpPulse, "ChirpPulse"), (.DRAGPulse, "DRAGPulse"), (.GaussPulse, "GaussPulse"),
   (.WindowOperation, "WindowOperation"), (.NumericalPulse, "NumericalPulse"),
   (.SkewedHermitePulse, "SkewedHermitePulse"), (.Timestamp, "Timestamp"),
   (.RFSwitchToggle, "RFSwitchToggle"), (.SimpleNumericalPulse, "SimpleNumericalPulse"),
   (.Trace, "Trace"), (.WeightedIntegratedSeparated, "WeightedIntegratedSeparated"),
   (.SSBIntegrationComplex, "SSBIntegrationComplex"),
   (.ThresholdedAcquisition, "ThresholdedAcquisition"),
   (.NumericalSeparatedWeightedIntegration, "NumericalSeparatedWeightedIntegration"),
   (.NumericalWeightedIntegration, "NumericalWeightedIntegration"),
   (.WeightedThresholdedAcquisition, "WeightedThresholdedAcquisition"),
   (.TriggerCount, "TriggerCount"), (.TimetagTrace, "TimetagTrace"), (.Timetag, "Timetag"),
   (.ThresholdedTriggerCount, "ThresholdedTriggerCount"),
   (.DualThresholdedTriggerCount, "DualThresholdedTriggerCount")]

/-- Whether the operation acquires data. -/
def Acquires (c : Cls) : Prop :=
  c ∈ [.Trace, .WeightedIntegratedSeparated, .SSBIntegrationComplex, .ThresholdedAcquisition,
    .NumericalSeparatedWeightedIntegration, .NumericalWeightedIntegration,
    .WeightedThresholdedAcquisition, .TriggerCount, .TimetagTrace, .Timetag, .ThresholdedTriggerCount,
    .DualThresholdedTriggerCount]

/-- Waveforms are named after the module of waveforms. -/
def wave (s : String) : Val := .str ("quantify_scheduler.waveforms." ++ s)

/-- What the entry of a class contains whatever the arguments are. -/
def fixed : Cls → List (String × Val)
  | .ShiftClockPhase => [("wf_func", .none), ("port", .none), ("duration", .num 0)]
  | .WindowOperation => [("wf_func", .none), ("port", .none)]
  | .ResetClockPhase => [("wf_func", .none), ("port", .none), ("duration", .num 0),
      ("reset_clock_phase", .bool true)]
  | .SetClockFrequency => [("wf_func", .none), ("port", .none), ("duration", .num 0),
      ("clock_freq_old", .none), ("interm_freq_old", .none)]
  | .VoltageOffset => [("wf_func", .none), ("duration", .num 0)]
  | .IdlePulse => [("wf_func", .none), ("port", .none), ("t0", .num 0), ("clock", .str "cl0.baseband")]
  | .RampPulse => [("wf_func", wave "ramp")]
  | .StaircasePulse => [("wf_func", wave "staircase")]
  | .MarkerPulse => [("wf_func", .none), ("marker_pulse", .bool true)]
  | .SquarePulse => [("wf_func", wave "square")]
  | .SuddenNetZeroPulse => [("wf_func", wave "sudden_net_zero"), ("phase", .num 0)]
  | .SoftSquarePulse => [("wf_func", wave "soft_square")]
  | .ChirpPulse => [("wf_func", wave "chirp")]
  | .DRAGPulse => [("wf_func", wave "drag")]
  | .GaussPulse => [("wf_func", wave "drag"), ("D_amp", .num 0)]
  | .NumericalPulse => [("wf_func", wave "interpolated_complex_waveform")]
  | .SimpleNumericalPulse => [("wf_func", wave "interpolated_complex_waveform"),
      ("interpolation", .str "linear")]
  | .SkewedHermitePulse => [("wf_func", wave "skewed_hermite")]
  | .Timestamp => [("wf_func", .none), ("duration", .num 0), ("timestamp", .bool true)]
  | .RFSwitchToggle => [("wf_func", .none), ("marker_pulse", .bool true), ("t0", .num 0)]
  | .Trace => [("waveforms", .list []), ("protocol", .str "Trace"),
      ("acq_return_type", .type "numpy.ndarray")]
  | .WeightedIntegratedSeparated => [("protocol", .str "WeightedIntegratedSeparated"),
      ("acq_return_type", .type "complex")]
  | .SSBIntegrationComplex => [("protocol", .str "SSBIntegrationComplex"),
      ("acq_return_type", .type "complex")]
  | .ThresholdedAcquisition => [("protocol", .str "ThresholdedAcquisition")]
  | .NumericalSeparatedWeightedIntegration =>
    [("protocol", .str "NumericalSeparatedWeightedIntegration"), ("acq_return_type", .type "complex")]
  | .NumericalWeightedIntegration => [("protocol", .str "NumericalWeightedIntegration"),
      ("acq_return_type", .type "complex")]
  | .WeightedThresholdedAcquisition => [("protocol", .str "WeightedThresholdedAcquisition"),
      ("acq_rotation", .num 315)]
  | .TriggerCount => [("waveforms", .list []), ("protocol", .str "TriggerCount"),
      ("acq_return_type", .type "int")]
  | .TimetagTrace => [("waveforms", .list []), ("protocol", .str "TimetagTrace"),
      ("acq_return_type", .type "numpy.ndarray"), ("time_source", .enum "first"),
      ("time_ref_channel", .none)]
  | .Timetag => [("waveforms", .list []), ("protocol", .str "Timetag"),
      ("acq_return_type", .type "float"), ("time_ref_channel", .none)]
  | .ThresholdedTriggerCount => [("waveforms", .list []), ("protocol", .str "ThresholdedTriggerCount"),
      ("acq_return_type", .type "int")]
  | .DualThresholdedTriggerCount => [("waveforms", .list []),
      ("protocol", .str "DualThresholdedTriggerCount"), ("acq_return_type", .type "int")]

/-- The arguments that are not held under their own name (there is a theorem about each of them). -/
def elsewhere : Cls → List String
  | .NumericalPulse => ["samples", "t_samples"]
  | .SimpleNumericalPulse => ["samples"]
  | .WeightedIntegratedSeparated => ["waveform_a", "waveform_b"]
  | .NumericalSeparatedWeightedIntegration | .NumericalWeightedIntegration =>
    ["weights_a", "weights_b", "weights_sampling_rate", "interpolation"]
  | .WeightedThresholdedAcquisition =>
    ["weights_a", "weights_b", "weights_sampling_rate", "interpolation", "acq_rotation"]
  | .ThresholdedTriggerCount => ["threshold", "feedback_trigger_condition"]
  | .DualThresholdedTriggerCount =>
    ["threshold_low", "threshold_high", "label_low", "label_mid", "label_high", "label_invalid"]
  | _ => []

/-- The keys whose values are computed from several arguments. -/
def computed : Cls → List String
  | .SuddenNetZeroPulse => ["duration"]
  | .DRAGPulse | .GaussPulse => ["nr_sigma"]
  | .NumericalPulse | .SimpleNumericalPulse => ["samples", "t_samples", "duration"]
  | .WeightedIntegratedSeparated | .SSBIntegrationComplex => ["waveforms"]
  | .ThresholdedAcquisition => ["waveforms", "acq_return_type"]
  | .NumericalSeparatedWeightedIntegration | .NumericalWeightedIntegration => ["waveforms", "duration"]
  | .WeightedThresholdedAcquisition => ["waveforms", "duration", "acq_return_type"]
  | .ThresholdedTriggerCount => ["thresholded_trigger_count"]
  | .DualThresholdedTriggerCount => ["thresholded_trigger_count", "feedback_trigger_labels"]
  | _ => []

/-- How the value `v` of a parameter is held: unchanged, except that trigger counts that should be
averaged are collected in a distribution. -/
def HeldAs (c : Cls) (p : String) (v w : Val) : Prop :=
  (c = .TriggerCount ∧ p = "bin_mode" ∧ (v = .str "average" ∨ v = .enum "average") →
    w = .enum "distribution") ∧
  (¬ (c = .TriggerCount ∧ p = "bin_mode" ∧ (v = .str "average" ∨ v = .enum "average")) → Same w v)

/-- The entry of an operation made with the keywords `kw`. -/
structure Holds (c : Cls) (kw : List (String × Val)) (i : Info) : Prop where
  /-- every argument is there -/
  args : ∀ p v, Given c kw p v → p ∉ elsewhere c → ∃ w, Dict.get? i p = some w ∧ HeldAs c p v w
  /-- everything that does not depend on the arguments is there -/
  consts : ∀ k v, (k, v) ∈ fixed c → Dict.get? i k = some v
  /-- there is nothing else -/
  only : ∀ k ∈ Dict.keys i, ((k ∈ required c ∨ k ∈ optional c) ∧ k ∉ elsewhere c) ∨
    k ∈ (fixed c).map Prod.fst ∨ k ∈ computed c
  /-- no key twice -/
  nodup : (Dict.keys i).Nodup

/-! ### Refusal -/

/-- A number. -/
def Number (v : Val) : Prop := ∃ q, v = .num q

/-- A list or an array. -/
def Sequence (v : Val) (l : List Val) : Prop := v = .list l ∨ v = .array l

/-- A value that is equal to zero. -/
def Zero (v : Val) : Prop := v = .num 0 ∨ v = .bool false ∨ v = .cplx 0 0

/-- A text, if it is one, is one of these. -/
def OneOf (l : List String) (v : Val) : Prop := ∀ s, v = .str s ∨ v = .enum s → s ∈ l

/-- The text `s`. -/
def IsText (s : String) (v : Val) : Prop := v = .str s ∨ v = .enum s

/-- When the values of the arguments are accepted. -/
def Fits (c : Cls) (g : String → Val) : Prop :=
  -- the start is a number
  (c ≠ .IdlePulse → c ≠ .RFSwitchToggle → Number (g "t0")) ∧
  -- the duration is a number
  ("duration" ∈ required c → Number (g "duration")) ∧
  -- acquisitions have no phase
  (Acquires c → "phase" ∈ optional c → Zero (g "phase")) ∧
  (c = .SuddenNetZeroPulse →
    Number (g "t_pulse") ∧ Number (g "t_phi") ∧ Number (g "t_integral_correction")) ∧
  (c = .NumericalPulse → ∃ x xs ys, Sequence (g "t_samples") (x :: xs) ∧ Number x ∧
    Number ((x :: xs).getLast (by simp)) ∧ Sequence (g "samples") ys) ∧
  (c = .SimpleNumericalPulse → ∃ ys, Sequence (g "samples") ys) ∧
  (c ∈ [.NumericalSeparatedWeightedIntegration, .NumericalWeightedIntegration,
      .WeightedThresholdedAcquisition] →
    ∃ xs ys r, Sequence (g "weights_a") xs ∧ Sequence (g "weights_b") ys ∧
      g "weights_sampling_rate" = .num r ∧ r ≠ 0) ∧
  (c ∈ [.Trace, .TimetagTrace] →
    OneOf ["append", "average", "first", "distribution", "sum"] (g "bin_mode")) ∧
  (c = .Timetag → OneOf ["first", "second", "last"] (g "time_source") ∧
    OneOf ["start", "end", "first", "timestamp", "port"] (g "time_ref")) ∧
  -- a port as reference is named
  (c ∈ [.TimetagTrace, .Timetag] → IsText "port" (g "time_ref") → g "time_ref_port" ≠ .none) ∧
  -- averaged thresholded counts need the acquisition index 0 (also the default is refused)
  (c ∈ [.ThresholdedTriggerCount, .DualThresholdedTriggerCount] → IsText "average" (g "bin_mode") →
    Zero (g "acq_index"))

/-! ### Texts -/

/-- A text that can be put between single quotes. -/
def Clean (s : String) : Prop := ∀ ch ∈ s.toList, ch ≠ '\'' ∧ ch ≠ '\\' ∧ 32 ≤ ch.toNat

/-- Values whose representation is Python code for them: not members of enumerations, types, arrays. -/
inductive Literal : Val → Prop
  | none : Literal .none
  | bool (b) : Literal (.bool b)
  | num (q) : Literal (.num q)
  | cplx (a b) : Literal (.cplx a b)
  | str (s) : Literal (.str s)
  | ref (v u) : Literal (.ref v u)
  | list (l) : (∀ v ∈ l, Literal v) → Literal (.list l)
  | dict (l) : (∀ e ∈ l, Literal e.2) → Literal (.dict l)

/-- `eval` of a printed value. `shown l` is what numpy's text of an array of the numbers `l` with nine
digits evaluates to. -/
inductive Evaluates (shown : List Val → Option (List Val)) : Token → Val → Prop
  | quoted (s) : Clean s → Evaluates shown (.quoted s) (.str s)
  | repr (v) : Literal v → Evaluates shown (.repr v) v
  | numbers (l m) : shown l = some m → Evaluates shown (.numbers l) (.list m)

/-- `eval(text)` makes the operation `o`. -/
def Makes (shown : List Val → Option (List Val)) (t : Text) (o : Op) : Prop :=
  ∃ kw : List (String × Val), List.Forall₂ (fun a b => a.1 = b.1 ∧ Evaluates shown a.2 b.2) t.kwargs kw ∧
    create t.cls kw = .ok o

/-- An argument that can be printed: a text without quotes, or a literal (for the samples of a pulse also
an array of literals). -/
def Printable (p : String) (v : Val) : Prop :=
  (∃ s, (v = .str s ∨ v = .enum s) ∧ Clean s) ∨ (Literal v ∧ ∀ s, v ≠ .str s) ∨
    ((p = "samples" ∨ p = "t_samples") ∧ ∃ l, v = .array l ∧ ∀ w ∈ l, Literal w)

/-- The classes that print all they were given. -/
def PrintsAll (c : Cls) : Prop :=
  c ∉ [.WeightedIntegratedSeparated, .NumericalSeparatedWeightedIntegration,
    .NumericalWeightedIntegration, .WeightedThresholdedAcquisition, .DualThresholdedTriggerCount,
    .SimpleNumericalPulse]

end Verif.Ops
