/-
What the configuration of a device must say. Tables of the documentation of the parameters (the docstrings of the
parameters and of the factory functions), written down without looking at the code that generates the configuration.
-/
import Verif.Device.Model

namespace Verif.Device.Spec

open Verif Verif.Device

/-- This instrument is registered under the name (and not closed). -/
def Open (s : St) (n : String) (i : Instr) : Prop := Dict.get? s.reg n = some i

/-- The parameter of the instrument has this value. -/
def Value (s : St) (n sub par : String) (v : Val) : Prop :=
  ∃ i, Open s n i ∧ Dict.get? i.params (sub, par) = some v

/-- An argument of the factory function of an operation on an element. -/
def argument (cfg : Config) (n op a : String) : Option Arg :=
  (Dict.get? cfg.elements n).bind fun ops => (Dict.get? ops op).bind fun o => Dict.get? o.kwargs a

/-- An argument of the factory function of an operation on an edge. -/
def edgeArgument (cfg : Config) (n op a : String) : Option Arg :=
  (Dict.get? cfg.edges n).bind fun ops => (Dict.get? ops op).bind fun o => Dict.get? o.kwargs a

/-- Arguments of a dispersive measurement that are parameters: operation, argument, submodule, parameter. -/
def dispersive : List (String × String × String × String) :=
  [("measure", "port", "ports", "readout"), ("measure", "pulse_type", "measure", "pulse_type"),
   ("measure", "pulse_amp", "measure", "pulse_amp"), ("measure", "pulse_duration", "measure", "pulse_duration"),
   ("measure", "acq_delay", "measure", "acq_delay"), ("measure", "acq_duration", "measure", "integration_time"),
   ("measure", "acq_channel", "measure", "acq_channel"),
   ("measure", "reset_clock_phase", "measure", "reset_clock_phase"),
   ("measure", "acq_weights_a", "measure", "acq_weights_a"), ("measure", "acq_weights_b", "measure", "acq_weights_b"),
   ("measure", "acq_weights_sampling_rate", "measure", "acq_weights_sampling_rate"),
   ("measure", "acq_rotation", "measure", "acq_rotation"), ("measure", "acq_threshold", "measure", "acq_threshold"),
   ("measure", "num_points", "measure", "num_points")]

/-- The settings of the pulse compensation. -/
def compensation : List (String × String × String × String) :=
  [("pulse_compensation", "max_compensation_amp", "pulse_compensation", "max_compensation_amp"),
   ("pulse_compensation", "time_grid", "pulse_compensation", "time_grid"),
   ("pulse_compensation", "sampling_rate", "pulse_compensation", "sampling_rate")]

/-- Every argument of an operation that is a parameter of the element: operation, argument, submodule, parameter. -/
def documented : Kind → List (String × String × String × String)
  | .transmon =>
    [("reset", "duration", "reset", "duration"),
     ("Rxy", "amp180", "rxy", "amp180"), ("Rxy", "motzoi", "rxy", "motzoi"), ("Rxy", "duration", "rxy", "duration"),
     ("Rxy", "port", "ports", "microwave"), ("pulse_compensation", "port", "ports", "microwave")] ++
    compensation ++ dispersive
  | .spin =>
    [("reset", "duration", "reset", "duration"),
     ("Rxy", "amp180", "rxy", "amp180"), ("Rxy", "duration", "rxy", "duration"),
     ("Rxy", "port", "ports", "microwave"), ("pulse_compensation", "port", "ports", "microwave"),
     ("measure", "gate_port", "ports", "gate"), ("measure", "gate_pulse_amp", "measure", "gate_pulse_amp")] ++
    compensation ++ dispersive
  | .sensor =>
    [("pulse_compensation", "port", "ports", "gate"),
     ("measure", "gate_port", "ports", "gate"), ("measure", "gate_pulse_amp", "measure", "gate_pulse_amp")] ++
    compensation ++ dispersive
  | .nv =>
    [("spectroscopy_operation", "amplitude", "spectroscopy_operation", "amplitude"),
     ("spectroscopy_operation", "duration", "spectroscopy_operation", "duration"),
     ("spectroscopy_operation", "pulse_shape", "spectroscopy_operation", "pulse_shape"),
     ("spectroscopy_operation", "port", "ports", "microwave"),
     ("reset", "duration", "reset", "duration"), ("reset", "amp", "reset", "amplitude"),
     ("reset", "port", "ports", "optical_control"),
     ("charge_reset", "duration", "charge_reset", "duration"), ("charge_reset", "amp", "charge_reset", "amplitude"),
     ("charge_reset", "port", "ports", "optical_control"),
     ("measure", "acq_duration", "measure", "acq_duration"), ("measure", "acq_delay", "measure", "acq_delay"),
     ("measure", "acq_channel", "measure", "acq_channel"), ("measure", "acq_port", "ports", "optical_readout"),
     ("measure", "acq_time_source", "measure", "time_source"), ("measure", "acq_time_ref", "measure", "time_ref"),
     ("cr_count", "acq_duration", "cr_count", "acq_duration"), ("cr_count", "acq_delay", "cr_count", "acq_delay"),
     ("cr_count", "acq_channel", "cr_count", "acq_channel"), ("cr_count", "acq_port", "ports", "optical_readout"),
     ("Rxy", "amp180", "rxy", "amp180"), ("Rxy", "skewness", "rxy", "skewness"),
     ("Rxy", "duration", "rxy", "duration"), ("Rxy", "pulse_shape", "rxy", "pulse_shape"),
     ("Rxy", "port", "ports", "microwave"), ("pulse_compensation", "port", "ports", "microwave")] ++
    compensation

/-- Arguments that are lists of parameters: operation, argument, parameters. The charge and resonance count plays the
readout pulse and the spin pump pulse. -/
def documentedLists : Kind → List (String × String × List (String × String))
  | .nv =>
    [("measure", "pulse_amplitudes", [("measure", "pulse_amplitude")]),
     ("measure", "pulse_durations", [("measure", "pulse_duration")]),
     ("measure", "pulse_ports", [("ports", "optical_control")]),
     ("cr_count", "pulse_amplitudes", [("cr_count", "readout_pulse_amplitude"), ("cr_count", "spinpump_pulse_amplitude")]),
     ("cr_count", "pulse_durations", [("cr_count", "readout_pulse_duration"), ("cr_count", "spinpump_pulse_duration")]),
     ("cr_count", "pulse_ports", [("ports", "optical_control"), ("ports", "optical_control")])]
  | _ => []

/-- The frequency (a parameter in `clock_freqs`) of the clock of an operation: operation, argument, parameter. -/
def tuned : Kind → List (String × String × String)
  | .transmon => [("Rxy", "clock", "f01"), ("Rz", "clock", "f01"), ("pulse_compensation", "clock", "f01"),
      ("measure", "clock", "readout")]
  | .spin => [("Rxy", "clock", "f_larmor"), ("Rz", "clock", "f_larmor"), ("pulse_compensation", "clock", "f_larmor"),
      ("measure", "clock", "readout")]
  | .sensor => [("measure", "clock", "readout")]
  | .nv => [("spectroscopy_operation", "clock", "spec"), ("Rxy", "clock", "spec"), ("reset", "clock", "ge1"),
      ("charge_reset", "clock", "ionization"), ("measure", "acq_clock", "ge0"), ("cr_count", "acq_clock", "ge0")]

/-- The frequencies of the clocks of pulses given as a list. -/
def tunedLists : Kind → List (String × String × List String)
  | .nv => [("measure", "pulse_clocks", ["ge0"]), ("cr_count", "pulse_clocks", ["ge0", "ge1"])]
  | _ => []

/-- The operations with an amplitude reference, and the submodule with the reference. -/
def referenced : Kind → List (String × String)
  | .transmon => [("Rxy", "rxy"), ("measure", "measure")]
  | .spin => [("Rxy", "rxy"), ("measure", "measure")]
  | .sensor => [("measure", "measure")]
  | .nv => []

/-- The units of an amplitude reference. -/
def units : List String := ["dBm", "V", "A"]

/-- The operations on an element of a class with the factory functions that make their pulses, and what these need to know
about the gate. -/
def operations : Kind → List (String × Option String × List String)
  | .transmon => [("reset", some "IdlePulse", []), ("Rxy", some "rxy_drag_pulse", ["theta", "phi"]),
      ("Rz", some "phase_shift", ["theta"]), ("H", some "hadamard_as_y90z", []), ("pulse_compensation", none, []),
      ("measure", some "dispersive_measurement_transmon",
        ["acq_channel_override", "coords", "acq_index", "bin_mode", "acq_protocol", "feedback_trigger_label"])]
  | .spin => [("reset", some "IdlePulse", []), ("Rxy", some "rxy_gauss_pulse", ["theta", "phi"]),
      ("Rz", some "phase_shift", ["theta"]), ("H", some "hadamard_as_y90z", []),
      ("measure", some "dispersive_measurement_spin",
        ["acq_channel_override", "coords", "acq_index", "bin_mode", "acq_protocol", "feedback_trigger_label"]),
      ("pulse_compensation", none, [])]
  | .sensor => [("measure", some "dispersive_measurement_spin",
        ["acq_channel_override", "coords", "acq_index", "bin_mode", "acq_protocol", "feedback_trigger_label"]),
      ("pulse_compensation", none, [])]
  | .nv => [("spectroscopy_operation", some "nv_spec_pulse_mw", []), ("reset", some "SquarePulse", []),
      ("charge_reset", some "SquarePulse", []),
      ("measure", some "optical_measurement", ["acq_channel_override", "coords", "acq_index", "bin_mode", "acq_protocol"]),
      ("pulse_compensation", none, []),
      ("cr_count", some "optical_measurement", ["acq_channel_override", "coords", "acq_index", "bin_mode", "acq_protocol"]),
      ("Rxy", some "rxy_pulse", ["theta", "phi"])]

/-- The ends of an edge are open elements (and a flux pulse needs a first one with a flux port). -/
def EndsOpen (s : St) : EKind → String → String → Prop
  | .square, p, c => (∃ ps, Open s p (.elem .transmon p ps)) ∧ ∃ k ps, Open s c (.elem k c ps)
  | .spin, p, c => (∃ k ps, Open s p (.elem k p ps)) ∧ ∃ k ps, Open s c (.elem k c ps)

/-- The class of the elements that an edge connects. -/
def qubits : EKind → Kind
  | .square => .transmon
  | .spin => .spin

/-- The frequency of these elements. -/
def qubitFreq : EKind → String
  | .square => "f01"
  | .spin => "f_larmor"

/-- The command makes, closes or sets this parameter of this instrument, or (for a unit of an amplitude reference) another
unit of the same reference. -/
def Touches (n sub par : String) : Cmd → Prop
  | .close m => m = n
  | .setPar m sub' par' _ => m = n ∧ sub' = sub ∧
      (par' = par ∨ ∃ u ∈ units, ∃ u' ∈ units, par' = "reference_magnitude_" ++ u ∧ par = "reference_magnitude_" ++ u')
  | _ => False

end Verif.Device.Spec

namespace Verif.Device.Spec

open Verif Verif.Device

/-- The commands of a session that did not raise an exception. -/
def executed (s : St) : List Cmd → List Cmd
  | [] => []
  | c :: rest => match step s c with
    | .ok s' => c :: executed s' rest
    | .error _ => executed s rest

/-- Added as an element, and not removed since. -/
def ElementNow (h : List Cmd) (n : String) : Prop :=
  ∃ h1 i h2, h = h1 ++ Cmd.addElement i :: h2 ∧ i.name = n ∧ Cmd.removeElement n ∉ h2

/-- Added as an edge, and not removed since. -/
def EdgeNow (h : List Cmd) (n : String) : Prop :=
  ∃ h1 i h2, h = h1 ++ Cmd.addEdge i :: h2 ∧ i.name = n ∧ Cmd.removeEdge n ∉ h2

end Verif.Device.Spec

namespace Verif.Device.Spec

open Verif Verif.Device

/-- The values of the instrument that JSON can hold: no tuples, no empty names of ports. -/
def Writable (s : St) (n : String) : Prop :=
  ∀ sub par v, Value s n sub par v → (∀ xs, v ≠ .tuple xs) ∧ (sub = "ports" → v ≠ .str "")

/-- A unit of an amplitude reference. -/
def IsReference (par : String) : Prop := ∃ u ∈ units, par = "reference_magnitude_" ++ u

end Verif.Device.Spec

namespace Verif.Device.Spec

open Verif Verif.Device

/-- Arguments that are the same for all elements of a class: operation, argument, value. -/
def constants : Kind → List (String × String × Val)
  | .transmon => [("measure", "acq_protocol_default", .str "SSBIntegrationComplex"), ("measure", "freq", .none)]
  | .spin => [("measure", "acq_protocol_default", .str "SSBIntegrationComplex"), ("measure", "freq", .none)]
  | .sensor => [("measure", "acq_protocol_default", .str "SSBIntegrationComplex"), ("measure", "freq", .none),
      ("pulse_compensation", "clock", .str "cl0.baseband")]
  | .nv => [("measure", "acq_protocol_default", .str "TriggerCount"), ("measure", "pulse_type", .str "SquarePulse"),
      ("cr_count", "acq_protocol_default", .str "TriggerCount"), ("cr_count", "pulse_type", .str "SquarePulse")]

/-- Times, amplitudes and frequencies: submodule, parameter, smallest and largest value, and whether it may be undefined. -/
def dispersiveLimits (longest : Rat) : List (String × String × Option Rat × Option Rat × Bool) :=
  [("measure", "pulse_amp", some 0, some 1, false), ("measure", "pulse_duration", some 0, some 1, false),
   ("measure", "acq_delay", some 0, some (1/10000), false), ("measure", "integration_time", some 0, some longest, false),
   ("measure", "acq_weights_sampling_rate", some 1, some 10000000000, false),
   ("pulse_compensation", "max_compensation_amp", some 0, none, true),
   ("pulse_compensation", "time_grid", some 0, none, true), ("pulse_compensation", "sampling_rate", some 0, none, true),
   ("clock_freqs", "readout", some 0, some 1000000000000, true)]

/-- The limits of a class. -/
def limits : Kind → List (String × String × Option Rat × Option Rat × Bool)
  | .transmon =>
    [("reset", "duration", some 0, some 1, false), ("rxy", "amp180", some (-10), some 10, true),
     ("rxy", "motzoi", some (-1), some 1, false), ("rxy", "duration", some 0, some 1, false),
     ("clock_freqs", "f01", some 0, some 1000000000000, true), ("clock_freqs", "f12", some 0, some 1000000000000, true)] ++
    dispersiveLimits (1/10000)
  | .spin =>
    [("reset", "duration", some 0, some 1, false), ("rxy", "amp180", some (-10), some 10, true),
     ("rxy", "duration", some 0, some 1, false), ("measure", "gate_pulse_amp", some (-1), some 1, false),
     ("clock_freqs", "f_larmor", some 0, some 1000000000000, true)] ++ dispersiveLimits (1/100)
  | .sensor => ("measure", "gate_pulse_amp", some (-1), some 1, false) :: dispersiveLimits (1/100)
  | .nv =>
    [("spectroscopy_operation", "amplitude", none, none, true), ("spectroscopy_operation", "duration", some 0, none, false),
     ("clock_freqs", "f01", some 0, none, true), ("clock_freqs", "spec", some 0, none, true),
     ("clock_freqs", "ge0", some 0, none, true), ("clock_freqs", "ge1", some 0, none, true),
     ("clock_freqs", "ionization", some 0, none, true),
     ("reset", "amplitude", none, none, true), ("reset", "duration", some 0, none, false),
     ("charge_reset", "amplitude", none, none, true), ("charge_reset", "duration", some 0, none, false),
     ("measure", "pulse_amplitude", none, none, true), ("measure", "pulse_duration", some 0, none, false),
     ("measure", "acq_duration", some 0, none, false), ("measure", "acq_delay", none, none, false),
     ("cr_count", "readout_pulse_amplitude", none, none, true), ("cr_count", "spinpump_pulse_amplitude", none, none, true),
     ("cr_count", "readout_pulse_duration", some 0, none, false), ("cr_count", "spinpump_pulse_duration", some 0, none, false),
     ("cr_count", "acq_duration", some 0, none, false), ("cr_count", "acq_delay", none, none, false),
     ("rxy", "amp180", none, none, true), ("rxy", "skewness", some (-1), some 1, false), ("rxy", "duration", some 0, none, false)]

/-- A number (a boolean is one) between the limits, or undefined. -/
def Between (lo hi : Option Rat) (undefined : Bool) (v : Val) : Prop :=
  (v = .nan ∧ undefined = true) ∨
  ∃ q : Rat, (v = .num q ∨ ∃ b : Bool, v = .bool b ∧ q = if b then 1 else 0) ∧
    (∀ l, lo = some l → l ≤ q) ∧ ∀ u, hi = some u → q ≤ u

/-- Parameters that are one of some names: submodule, parameter, names. -/
def choices : Kind → List (String × String × List String)
  | .nv => [("spectroscopy_operation", "pulse_shape", ["SquarePulse", "SkewedHermitePulse", "GaussPulse"]),
      ("rxy", "pulse_shape", ["SkewedHermitePulse", "GaussPulse"])]
  | _ => [("measure", "pulse_type", ["SquarePulse"]), ("measure", "acq_weight_type", ["SSB", "Numerical"])]

/-- A default: a value, or the name of the element with a suffix. -/
inductive Preset where
  | value (v : Val)
  | named (suffix : String)

/-- The default for an element with a name. -/
def Preset.of (n : String) : Preset → Val
  | .value v => v
  | .named suffix => .str (n ++ suffix)

/-- Defaults of a dispersive measurement and of a pulse compensation. -/
def dispersiveDefaults : List (String × String × Preset) :=
  [("measure", "pulse_type", .value (.str "SquarePulse")), ("measure", "pulse_amp", .value (.num (1/4))),
   ("measure", "pulse_duration", .value (.num (3/10000000))), ("measure", "acq_channel", .value (.num 0)),
   ("measure", "acq_delay", .value (.num 0)), ("measure", "integration_time", .value (.num (1/1000000))),
   ("measure", "reset_clock_phase", .value (.bool true)), ("measure", "acq_weights_a", .value (.arr [])),
   ("measure", "acq_weights_b", .value (.arr [])), ("measure", "acq_weights_sampling_rate", .value (.num 1000000000)),
   ("measure", "acq_weight_type", .value (.str "SSB")), ("measure", "acq_rotation", .value (.num 0)),
   ("measure", "acq_threshold", .value (.num 0)), ("measure", "num_points", .value (.num 1)),
   ("measure", "reference_magnitude_dBm", .value (.nan)), ("measure", "reference_magnitude_V", .value (.nan)),
   ("measure", "reference_magnitude_A", .value (.nan)),
   ("pulse_compensation", "max_compensation_amp", .value (.nan)), ("pulse_compensation", "time_grid", .value (.nan)),
   ("pulse_compensation", "sampling_rate", .value (.nan)),
   ("ports", "readout", .named ":res"), ("clock_freqs", "readout", .value (.nan))]

/-- Defaults of an element with gates Rxy. -/
def rxyDefaults : List (String × String × Preset) :=
  [("reset", "duration", .value (.num (1/5000))), ("rxy", "amp180", .value (.nan)),
   ("rxy", "duration", .value (.num (1/50000000))),
   ("rxy", "reference_magnitude_dBm", .value (.nan)), ("rxy", "reference_magnitude_V", .value (.nan)),
   ("rxy", "reference_magnitude_A", .value (.nan)), ("ports", "microwave", .named ":mw")]

/-- Defaults of the gates and resets of an NV centre. -/
def nvGateDefaults : List (String × String × Preset) :=
  [("spectroscopy_operation", "amplitude", .value (.nan)), ("spectroscopy_operation", "duration", .value (.num (1/125000))),
     ("spectroscopy_operation", "pulse_shape", .value (.str "SquarePulse")),
     ("ports", "microwave", .named ":mw"), ("ports", "optical_control", .named ":optical_control"),
     ("ports", "optical_readout", .named ":optical_readout"),
     ("clock_freqs", "f01", .value (.nan)), ("clock_freqs", "spec", .value (.nan)), ("clock_freqs", "ge0", .value (.nan)),
     ("clock_freqs", "ge1", .value (.nan)), ("clock_freqs", "ionization", .value (.nan)),
     ("reset", "amplitude", .value (.nan)), ("reset", "duration", .value (.num (1/20000))),
     ("charge_reset", "amplitude", .value (.nan)), ("charge_reset", "duration", .value (.num (1/50000)))]

/-- Defaults of the measurements of an NV centre. -/
def nvMeasureDefaults : List (String × String × Preset) :=
  [("measure", "pulse_amplitude", .value (.nan)), ("measure", "pulse_duration", .value (.num (1/50000))),
     ("measure", "acq_duration", .value (.num (1/20000))), ("measure", "acq_delay", .value (.num 0)),
     ("measure", "acq_channel", .value (.num 0)), ("measure", "time_source", .value (.str "first")),
     ("measure", "time_ref", .value (.str "start")),
     ("pulse_compensation", "max_compensation_amp", .value (.nan)), ("pulse_compensation", "time_grid", .value (.nan)),
     ("pulse_compensation", "sampling_rate", .value (.nan)),
     ("cr_count", "readout_pulse_amplitude", .value (.nan)), ("cr_count", "spinpump_pulse_amplitude", .value (.nan)),
     ("cr_count", "readout_pulse_duration", .value (.num (1/50000))),
     ("cr_count", "spinpump_pulse_duration", .value (.num (1/50000))),
     ("cr_count", "acq_duration", .value (.num (1/20000))), ("cr_count", "acq_delay", .value (.num 0)),
     ("cr_count", "acq_channel", .value (.num 0)),
     ("rxy", "amp180", .value (.nan)), ("rxy", "skewness", .value (.num 0)), ("rxy", "duration", .value (.num (1/50000000))),
     ("rxy", "pulse_shape", .value (.str "SkewedHermitePulse"))]

/-- Defaults of an NV centre. -/
def nvDefaults : List (String × String × Preset) := nvGateDefaults ++ nvMeasureDefaults

/-- The value of a parameter that is not given to the constructor, for an element with a name. -/
def defaults : Kind → List (String × String × Preset)
  | .transmon => rxyDefaults ++ dispersiveDefaults ++
    [("rxy", "motzoi", .value (.num 0)), ("ports", "flux", .named ":fl"),
     ("clock_freqs", "f01", .value (.nan)), ("clock_freqs", "f12", .value (.nan))]
  | .spin => rxyDefaults ++ dispersiveDefaults ++
    [("measure", "gate_pulse_amp", .value (.num 0)), ("ports", "gate", .named ":gt"),
     ("clock_freqs", "f_larmor", .value (.nan))]
  | .sensor => dispersiveDefaults ++
    [("measure", "gate_pulse_amp", .value (.num 0)), ("ports", "gate", .named ":gt")]
  | .nv =>
    nvDefaults

end Verif.Device.Spec
