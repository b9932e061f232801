/-
Device elements, edges and the quantum device: quantify_scheduler/device_under_test/{device_element,
transmon_element,nv_element,spin_element,edge,composite_square_edge,spin_edge,quantum_device}.py.

Simplifications:
* QCoDeS: an instrument is a name with parameters; instruments are registered by name until they are closed,
  a second instrument with a name in use is refused. Restrictions of QCoDeS on names, labels and metadata, and
  instruments that vanish because nothing refers to them, are left out.
* A parameter is named by its submodule and its name; the parameters of the submodule `reference_magnitude` of
  `rxy` and `measure` are those of `rxy` and `measure` with the names under which the constructors take them
  (`reference_magnitude_V`, …), marked as nested.
* Values are numbers (rational), NaN, strings (members of string enumerations are strings), booleans, arrays of
  numbers, None, and tuples and lists of strings. Ports have no validator in some classes; they are strings here.
* Exceptions are distinguished by type.
-/
import Verif.Common.Dict
import Mathlib.Algebra.Order.Field.Rat

namespace Verif.Device

open Verif

/-- Exceptions. -/
inductive Err where
  | valueError | keyError | typeError | attributeError | runtimeError
deriving DecidableEq, Repr

/-- Values of parameters. -/
inductive Val where
  | nan
  | num (q : Rat)
  | str (s : String)
  | bool (b : Bool)
  | arr (xs : List Rat)
  | none
  | tuple (xs : List String)
  | list (xs : List String)
deriving DecidableEq, Repr

/-- Validators: QCoDeS's and quantify_scheduler/helpers/validators.py. -/
inductive Vals where
  | any
  | numbers (lo hi : Option Rat) (nan : Bool)
  | strings
  | bool
  | oneOf (l : List String)
  | arrays
  | hashable
  | ints (lo : Int)
deriving DecidableEq, Repr

/-- `min_value <= value <= max_value` (helpers/validators.py:62-66). -/
def within (lo hi : Option Rat) (q : Rat) : Bool :=
  (match lo with | .none => true | some l => decide (l ≤ q)) &&
  (match hi with | .none => true | some h => decide (q ≤ h))

/-- `validate` (helpers/validators.py:41-66, 106-134; QCoDeS's validators). A boolean is an integer in Python. -/
def Vals.ok : Vals → Val → Bool
  | .any, _ => true
  | .numbers lo hi _, .num q => within lo hi q
  | .numbers lo hi _, .bool b => within lo hi (if b then 1 else 0)
  | .numbers _ _ nan, .nan => nan
  | .numbers .., _ => false
  | .strings, .str _ => true
  | .strings, _ => false
  | .bool, .bool _ => true
  | .bool, _ => false
  | .oneOf l, .str s => decide (s ∈ l)
  | .oneOf _, _ => false
  | .arrays, .arr _ => true
  | .arrays, _ => false
  | .hashable, .arr _ => false
  | .hashable, .list _ => false
  | .hashable, _ => true
  | .ints lo, .num q => decide (q.den = 1) && decide (lo ≤ q.num)
  | .ints lo, .bool b => decide (lo ≤ if b then 1 else 0)
  | .ints _, _ => false

/-- The value a parameter gets if the constructor is given none: a value, the name of the instrument and a suffix
(`microwave or f"{parent.name}:mw"`), or a value that also replaces `None`. -/
inductive Dflt where
  | val (v : Val)
  | port (suffix : String)
  | unlessNone (v : Val)
deriving DecidableEq, Repr

/-- A parameter of a class of instruments. -/
structure Par where
  sub : String
  name : String
  dflt : Dflt
  vals : Vals
  nested : Bool := false
deriving DecidableEq, Repr

/-- Classes of device elements: `BasicTransmonElement`, `BasicElectronicNVElement`, `BasicSpinElement`,
`ChargeSensor`. -/
inductive Kind where
  | transmon | nv | spin | sensor
deriving DecidableEq, Repr

/-- Classes of edges: `CompositeSquareEdge`, `SpinEdge`. -/
inductive EKind where
  | square | spin
deriving DecidableEq, Repr

/-- helpers/validators.py:69-103. -/
def durations : Vals := .numbers (some 0) .none false
def amplitudes : Vals := .numbers .none .none true
def frequencies : Vals := .numbers (some 0) .none true
def delays : Vals := .numbers .none .none false

/-- transmon_element.py:73-115: frequencies from 0 to 1e12 or NaN. -/
def freqs12 : Vals := .numbers (some 0) (some 1000000000000) true

/-- `ReferenceMagnitude.__init__` (transmon_element.py:426-472), the parameters in this order. -/
def refPars (sub : String) : List Par :=
  [⟨sub, "reference_magnitude_dBm", .val .nan, .numbers .none .none true, true⟩,
   ⟨sub, "reference_magnitude_V", .val .nan, .numbers .none .none true, true⟩,
   ⟨sub, "reference_magnitude_A", .val .nan, .numbers .none .none true, true⟩]

/-- `IdlingReset` (transmon_element.py:118-131). -/
def resetPars : List Par := [⟨"reset", "duration", .val (.num (1/5000)), .numbers (some 0) (some 1) false, false⟩]

/-- `PulseCompensationModule` (transmon_element.py:195-233). -/
def compPars : List Par :=
  [⟨"pulse_compensation", "max_compensation_amp", .val .nan, .numbers (some 0) .none true, false⟩,
   ⟨"pulse_compensation", "time_grid", .val .nan, .numbers (some 0) .none true, false⟩,
   ⟨"pulse_compensation", "sampling_rate", .val .nan, .numbers (some 0) .none true, false⟩]

/-- `DispersiveMeasurement` (transmon_element.py:236-423), with the default and the validator of
`integration_time`. -/
def measurePars (dflt : Dflt) (vals : Vals) : List Par :=
  [⟨"measure", "pulse_type", .val (.str "SquarePulse"), .oneOf ["SquarePulse"], false⟩,
   ⟨"measure", "pulse_amp", .val (.num (1/4)), .numbers (some 0) (some 1) false, false⟩,
   ⟨"measure", "pulse_duration", .val (.num (3/10000000)), .numbers (some 0) (some 1) false, false⟩,
   ⟨"measure", "acq_channel", .val (.num 0), .hashable, false⟩,
   ⟨"measure", "acq_delay", .val (.num 0), .numbers (some 0) (some (1/10000)) false, false⟩,
   ⟨"measure", "integration_time", dflt, vals, false⟩,
   ⟨"measure", "reset_clock_phase", .val (.bool true), .bool, false⟩,
   ⟨"measure", "acq_weights_a", .unlessNone (.arr []), .arrays, false⟩,
   ⟨"measure", "acq_weights_b", .unlessNone (.arr []), .arrays, false⟩,
   ⟨"measure", "acq_weights_sampling_rate", .val (.num 1000000000), .numbers (some 1) (some 10000000000) false, false⟩,
   ⟨"measure", "acq_weight_type", .val (.str "SSB"), .oneOf ["SSB", "Numerical"], false⟩] ++
  refPars "measure" ++
  [⟨"measure", "acq_rotation", .val (.num 0), .any, false⟩,
   ⟨"measure", "acq_threshold", .val (.num 0), .any, false⟩,
   ⟨"measure", "num_points", .val (.num 1), .ints 1, false⟩]

/-- Parameters of `BasicTransmonElement` (transmon_element.py:37-193, 548-564). -/
def transmonPars : List Par :=
  resetPars ++
  [⟨"rxy", "amp180", .val .nan, .numbers (some (-10)) (some 10) true, false⟩,
   ⟨"rxy", "motzoi", .val (.num 0), .numbers (some (-1)) (some 1) false, false⟩,
   ⟨"rxy", "duration", .val (.num (1/50000000)), .numbers (some 0) (some 1) false, false⟩] ++ refPars "rxy" ++
  measurePars (.val (.num (1/1000000))) (.numbers (some 0) (some (1/10000)) false) ++ compPars ++
  [⟨"ports", "microwave", .port ":mw", .strings, false⟩,
   ⟨"ports", "flux", .port ":fl", .strings, false⟩,
   ⟨"ports", "readout", .port ":res", .strings, false⟩,
   ⟨"clock_freqs", "f01", .val .nan, freqs12, false⟩,
   ⟨"clock_freqs", "f12", .val .nan, freqs12, false⟩,
   ⟨"clock_freqs", "readout", .val .nan, freqs12, false⟩]

/-- Parameters of `BasicElectronicNVElement` (nv_element.py:47-534, 564-586). -/
def nvPars : List Par :=
  [⟨"spectroscopy_operation", "amplitude", .val .nan, amplitudes, false⟩,
   ⟨"spectroscopy_operation", "duration", .val (.num (8/1000000)), durations, false⟩,
   ⟨"spectroscopy_operation", "pulse_shape", .val (.str "SquarePulse"),
      .oneOf ["SquarePulse", "SkewedHermitePulse", "GaussPulse"], false⟩,
   ⟨"ports", "microwave", .port ":mw", .strings, false⟩,
   ⟨"ports", "optical_control", .port ":optical_control", .strings, false⟩,
   ⟨"ports", "optical_readout", .port ":optical_readout", .strings, false⟩,
   ⟨"clock_freqs", "f01", .val .nan, frequencies, false⟩,
   ⟨"clock_freqs", "spec", .val .nan, frequencies, false⟩,
   ⟨"clock_freqs", "ge0", .val .nan, frequencies, false⟩,
   ⟨"clock_freqs", "ge1", .val .nan, frequencies, false⟩,
   ⟨"clock_freqs", "ionization", .val .nan, frequencies, false⟩,
   ⟨"reset", "amplitude", .val .nan, amplitudes, false⟩,
   ⟨"reset", "duration", .val (.num (50/1000000)), durations, false⟩,
   ⟨"charge_reset", "amplitude", .val .nan, amplitudes, false⟩,
   ⟨"charge_reset", "duration", .val (.num (20/1000000)), durations, false⟩,
   ⟨"measure", "pulse_amplitude", .val .nan, amplitudes, false⟩,
   ⟨"measure", "pulse_duration", .val (.num (20/1000000)), durations, false⟩,
   ⟨"measure", "acq_duration", .val (.num (50/1000000)), durations, false⟩,
   ⟨"measure", "acq_delay", .val (.num 0), delays, false⟩,
   ⟨"measure", "acq_channel", .val (.num 0), .hashable, false⟩,
   ⟨"measure", "time_source", .val (.str "first"), .hashable, false⟩,
   ⟨"measure", "time_ref", .val (.str "start"), .hashable, false⟩] ++ compPars ++
  [⟨"cr_count", "readout_pulse_amplitude", .val .nan, amplitudes, false⟩,
   ⟨"cr_count", "spinpump_pulse_amplitude", .val .nan, amplitudes, false⟩,
   ⟨"cr_count", "readout_pulse_duration", .val (.num (20/1000000)), durations, false⟩,
   ⟨"cr_count", "spinpump_pulse_duration", .val (.num (20/1000000)), durations, false⟩,
   ⟨"cr_count", "acq_duration", .val (.num (50/1000000)), durations, false⟩,
   ⟨"cr_count", "acq_delay", .val (.num 0), delays, false⟩,
   ⟨"cr_count", "acq_channel", .val (.num 0), .hashable, false⟩,
   ⟨"rxy", "amp180", .val .nan, amplitudes, false⟩,
   ⟨"rxy", "skewness", .val (.num 0), .numbers (some (-1)) (some 1) false, false⟩,
   ⟨"rxy", "duration", .val (.num (1/50000000)), durations, false⟩,
   ⟨"rxy", "pulse_shape", .val (.str "SkewedHermitePulse"), .oneOf ["SkewedHermitePulse", "GaussPulse"], false⟩]

/-- `DispersiveMeasurementSpin` (spin_element.py:185-215). -/
def spinMeasurePars : List Par :=
  measurePars (.unlessNone (.num (1/1000000))) (.numbers (some 0) (some (1/100)) false) ++
  [⟨"measure", "gate_pulse_amp", .val (.num 0), .numbers (some (-1)) (some 1) false, false⟩]

/-- Parameters of `BasicSpinElement` (spin_element.py:37-182, 256-276). -/
def spinPars : List Par :=
  resetPars ++
  [⟨"rxy", "amp180", .val .nan, .numbers (some (-10)) (some 10) true, false⟩,
   ⟨"rxy", "duration", .val (.num (1/50000000)), .numbers (some 0) (some 1) false, false⟩] ++ refPars "rxy" ++
  spinMeasurePars ++ compPars ++
  [⟨"ports", "gate", .port ":gt", .strings, false⟩,
   ⟨"ports", "readout", .port ":res", .strings, false⟩,
   ⟨"ports", "microwave", .port ":mw", .strings, false⟩,
   ⟨"clock_freqs", "readout", .val .nan, freqs12, false⟩,
   ⟨"clock_freqs", "f_larmor", .val .nan, freqs12, false⟩]

/-- Parameters of `ChargeSensor` (spin_element.py:448-465). -/
def sensorPars : List Par :=
  spinMeasurePars ++ compPars ++
  [⟨"ports", "gate", .port ":gt", .strings, false⟩,
   ⟨"ports", "readout", .port ":res", .strings, false⟩,
   ⟨"clock_freqs", "readout", .val .nan, freqs12, false⟩]

/-- The parameters of a class of elements. -/
def Kind.pars : Kind → List Par
  | .transmon => transmonPars
  | .nv => nvPars
  | .spin => spinPars
  | .sensor => sensorPars

/-- `CZ` (composite_square_edge.py:22-62, spin_edge.py:53-92): default and largest value of `square_amp` and
`square_duration` differ. -/
def czPars (amp : Rat) (hi : Option Rat) (parent child : String) : List Par :=
  [⟨"cz", "square_amp", .val (.num amp), .numbers (some 0) hi true, false⟩,
   ⟨"cz", "square_duration", .val (.num (1/50000000)), .numbers (some 0) hi true, false⟩,
   ⟨"cz", parent ++ "_phase_correction", .val (.num 0), .numbers (some (-1000000000000)) (some 1000000000000) true, false⟩,
   ⟨"cz", child ++ "_phase_correction", .val (.num 0), .numbers (some (-1000000000000)) (some 1000000000000) true, false⟩]

/-- Parameters of `CompositeSquareEdge` (composite_square_edge.py:73-87) and `SpinEdge` (spin_edge.py:26-43,
109-129). -/
def EKind.pars : EKind → String → String → List Par
  | .square, p, c => czPars (1/2) (some 1000000000000) p c
  | .spin, p, c => czPars 0 .none p c ++ [⟨"ports", "gate", .port ":gt", .strings, false⟩]

/-- Values of parameters, by submodule and name. -/
abbrev Params := List ((String × String) × Val)

/-- Instruments. An edge is named `f"{parent}_{child}"` (edge.py:32-41). `other`: an instrument of another class. -/
inductive Instr where
  | elem (kind : Kind) (name : String) (params : Params)
  | edge (kind : EKind) (parent child : String) (params : Params)
  | other (name : String)
deriving DecidableEq, Repr

/-- Name of an instrument (edge.py:41). -/
def Instr.name : Instr → String
  | .elem _ n _ => n
  | .edge _ p c _ => p ++ "_" ++ c
  | .other n => n

/-- Parameters of an instrument. -/
def Instr.params : Instr → Params
  | .elem _ _ ps => ps
  | .edge _ _ _ ps => ps
  | .other _ => []

/-- The parameters that an instrument has. -/
def Instr.pars : Instr → List Par
  | .elem k _ _ => k.pars
  | .edge k p c _ => k.pars p c
  | .other _ => []

/-- The instrument with other values of parameters. -/
def Instr.withParams (ps : Params) : Instr → Instr
  | .elem k n _ => .elem k n ps
  | .edge k p c _ => .edge k p c ps
  | .other n => .other n

/-- Truth of a value, for `microwave or …`. -/
def truthy : Val → Bool
  | .none => false
  | .str s => s != ""
  | _ => true

/-- The value with which the constructor initialises a parameter, if it is given `v` (transmon_element.py:50-68,
318-332; spin_element.py:193-210; the others have a default argument). -/
def initial (name : String) (d : Dflt) (v : Option Val) : Val :=
  match d with
  | .val w => v.getD w
  | .port suffix => match v with
    | some v => if truthy v then v else .str (name ++ suffix)
    | .none => .str (name ++ suffix)
  | .unlessNone w => match v with
    | some .none => w
    | some v => v
    | .none => w

/-- Setting a parameter: a nested one that is set to a number sets the others of its submodule to NaN
(`ReferenceMagnitude._set_parameter`, transmon_element.py:474-484). The others are the nested parameters in the
dictionary. -/
def assign (pars : List Par) (ps : Params) (p : Par) (v : Val) : Params :=
  ps.map fun e =>
    if e.1 = (p.sub, p.name) then (e.1, v)
    else if p.nested && v != .nan && pars.any (fun r => r.nested && (r.sub, r.name) == e.1 && r.sub == p.sub) then
      (e.1, .nan)
    else e

/-- The constructors of the submodules, parameter by parameter: a parameter is made, and its initial value is checked and
set. (QCoDeS does not check an initial value `None`; here it is refused unless the validator accepts it.) -/
def build (all : List Par) (name : String) (kwargs : Params) : List Par → Params → Except Err Params
  | [], ps => .ok ps
  | p :: rest, ps =>
    let v := initial name p.dflt (Dict.get? kwargs (p.sub, p.name))
    if p.vals.ok v then
      build all name kwargs rest (assign all (ps ++ [((p.sub, p.name), .none)]) p v)
    else .error .valueError

/-- Whether the constructor has this keyword argument (transmon_element.py:562-570; an edge ignores unknown entries of
`cz`, `spin_init` and `cnot`, composite_square_edge.py:79, spin_edge.py:49, 56, 98, 115-118). -/
def knownKwarg (pars : List Par) (ignored : List String) (k : String × String) : Bool :=
  pars.any (fun p => (p.sub, p.name) == k) || ignored.contains k.1

/-- `DeviceElement.__init__` and the constructors of its subclasses (device_element.py:28-34,
transmon_element.py:548-580, nv_element.py:564-605, spin_element.py:256-288, 448-475). -/
def makeElem (kind : Kind) (name : String) (kwargs : Params) : Except Err Instr :=
  if '-' ∈ name.toList ∨ '_' ∈ name.toList then .error .valueError
  else if kwargs.all (fun e => knownKwarg kind.pars [] e.1) then
    (build kind.pars name kwargs kind.pars []).map (.elem kind name)
  else .error .typeError

/-- Keyword arguments of an edge in which unknown entries are ignored (composite_square_edge.py:79; spin_edge.py:49, 56,
98, 115-118). -/
def EKind.ignoring : EKind → List String
  | .square => ["cz"]
  | .spin => ["cz", "spin_init", "cnot"]

/-- `Edge.__init__` and the constructors of its subclasses (edge.py:32-41, composite_square_edge.py:73-87,
spin_edge.py:109-129); the two phase corrections of an edge from an element to itself have the same name, which QCoDeS
refuses. -/
def makeEdge (kind : EKind) (parent child : String) (kwargs : Params) : Except Err Instr :=
  if parent = child then .error .keyError
  else if kwargs.all (fun e => knownKwarg (kind.pars parent child)
      kind.ignoring e.1) then
    (build (kind.pars parent child) (parent ++ "_" ++ child) kwargs (kind.pars parent child) []).map
      (.edge kind parent child)
  else .error .typeError

/-- Registered instruments (QCoDeS). -/
abbrev Registry := List (String × Instr)

/-- Registration of a new instrument (QCoDeS: the name must be free). -/
def register (reg : Registry) (i : Instr) : Except Err Registry :=
  if i.name ∈ Dict.keys reg then .error .keyError else .ok (reg ++ [(i.name, i)])

/-- The quantum device: the values of its parameters (quantum_device.py:55-138). -/
structure Dev where
  name : String
  elements : List String := []
  edges : List String := []
  reps : Nat := 1024
  keep : Bool := true
  strategy : String := "asap"
  hardware : Option String := .none
deriving DecidableEq, Repr

/-- The instruments and the device. -/
structure St where
  reg : Registry
  dev : Dev
deriving Repr

/-- Arguments of a factory function: a value, a list of values, or a reference magnitude with its unit. -/
inductive Arg where
  | val (v : Val)
  | vals (l : List Val)
  | ref (r : Option (Val × String))
deriving DecidableEq, Repr

/-- `OperationCompilationConfig`: factory function, its arguments, and the arguments taken from the gate. -/
structure OpCfg where
  factory : Option String
  kwargs : List (String × Arg)
  gateInfo : List String := []
deriving DecidableEq, Repr

/-- Configurations of operations, by name. -/
abbrev Ops := List (String × OpCfg)

/-- `DeviceCompilationConfig` (backends/graph_compilation.py:120-190), without the compilation passes. -/
structure Config where
  elements : List (String × Ops) := []
  clocks : List (String × Val) := []
  edges : List (String × Ops) := []
  strategy : String := "asap"
deriving DecidableEq, Repr

/-- A parameter of an instrument (attribute access and call). -/
def valueOf (ps : Params) (sub name : String) : Except Err Val :=
  match Dict.get? ps (sub, name) with
  | some v => .ok v
  | .none => .error .attributeError

/-- The loop of `ReferenceMagnitude.get_val_unit` (transmon_element.py:500-510). -/
def valUnit : List (Val × String) → Option (Val × String) → Except Err (Option (Val × String))
  | [], acc => .ok acc
  | (v, unit) :: rest, acc =>
    if v = .nan then valUnit rest acc
    else match acc with
      | .none => valUnit rest (some (v, unit))
      | some _ => .error .valueError

/-- `pulse_library.ReferenceMagnitude.from_parameter` (operations/pulse_library.py:25-34) of the nested parameters. -/
def reference (ps : Params) (sub : String) : Except Err Arg := do
  let d ← valueOf ps sub "reference_magnitude_dBm"
  let v ← valueOf ps sub "reference_magnitude_V"
  let a ← valueOf ps sub "reference_magnitude_A"
  return .ref (← valUnit [(d, "dBm"), (v, "V"), (a, "A")] .none)

/-- What the configuration of an operation passes to the factory function. -/
inductive Src where
  | par (sub name : String)
  | clock (suffix : String)
  | const (v : Val)
  | list (l : List Src)
  | ref (sub : String)

/-- A value of a list. -/
def evalItem (name : String) (ps : Params) : Src → Except Err Val
  | .par s n => valueOf ps s n
  | .clock suffix => .ok (.str (name ++ suffix))
  | .const v => .ok v
  | _ => .error .typeError

/-- Values of a list. -/
def evalItems (name : String) (ps : Params) : List Src → Except Err (List Val)
  | [] => .ok []
  | s :: rest => do
    let v ← evalItem name ps s
    let vs ← evalItems name ps rest
    return v :: vs

/-- The value passed to the factory function. -/
def evalSrc (name : String) (ps : Params) : Src → Except Err Arg
  | .list l => (evalItems name ps l).map .vals
  | .ref sub => reference ps sub
  | s => (evalItem name ps s).map .val

/-- Keyword arguments of the factory function. -/
def evalKwargs (name : String) (ps : Params) : List (String × Src) → Except Err (List (String × Arg))
  | [] => .ok []
  | (k, s) :: rest => do
    let a ← evalSrc name ps s
    let as ← evalKwargs name ps rest
    return (k, a) :: as

/-- An operation in `_generate_config`. -/
structure Entry where
  op : String
  factory : Option String
  kwargs : List (String × Src)
  gateInfo : List String := []

/-- Evaluation of the dictionary of operations. -/
def evalOps (name : String) (ps : Params) : List Entry → Except Err Ops
  | [] => .ok []
  | e :: rest => do
    let kw ← evalKwargs name ps e.kwargs
    let os ← evalOps name ps rest
    return (e.op, ⟨e.factory, kw, e.gateInfo⟩) :: os

/-- Arguments of a measurement that come from the gate (transmon_element.py:667-674). -/
def measureInfo : List String :=
  ["acq_channel_override", "coords", "acq_index", "bin_mode", "acq_protocol", "feedback_trigger_label"]

/-- transmon_element.py:591-597, spin_element.py:301-306. -/
def resetEntry : Entry := ⟨"reset", some "IdlePulse", [("duration", .par "reset" "duration")], []⟩

/-- `pulse_compensation` (transmon_element.py:630-639, nv_element.py:669-678, spin_element.py:376-385, 523-532). -/
def compEntry (port : String) (clock : Src) : Entry :=
  ⟨"pulse_compensation", .none,
   [("port", .par "ports" port), ("clock", clock),
    ("max_compensation_amp", .par "pulse_compensation" "max_compensation_amp"),
    ("time_grid", .par "pulse_compensation" "time_grid"),
    ("sampling_rate", .par "pulse_compensation" "sampling_rate")], []⟩

/-- transmon_element.py:591-675. -/
def transmonOps : List Entry :=
  [resetEntry,
   ⟨"Rxy", some "rxy_drag_pulse",
    [("amp180", .par "rxy" "amp180"), ("motzoi", .par "rxy" "motzoi"), ("port", .par "ports" "microwave"),
     ("clock", .clock ".01"), ("duration", .par "rxy" "duration"), ("reference_magnitude", .ref "rxy")],
    ["theta", "phi"]⟩,
   ⟨"Rz", some "phase_shift", [("clock", .clock ".01")], ["theta"]⟩,
   ⟨"H", some "hadamard_as_y90z", [("qubit", .clock "")], []⟩,
   compEntry "microwave" (.clock ".01"),
   ⟨"measure", some "dispersive_measurement_transmon",
    [("port", .par "ports" "readout"), ("clock", .clock ".ro"), ("pulse_type", .par "measure" "pulse_type"),
     ("pulse_amp", .par "measure" "pulse_amp"), ("pulse_duration", .par "measure" "pulse_duration"),
     ("acq_delay", .par "measure" "acq_delay"), ("acq_duration", .par "measure" "integration_time"),
     ("acq_channel", .par "measure" "acq_channel"),
     ("acq_protocol_default", .const (.str "SSBIntegrationComplex")),
     ("reset_clock_phase", .par "measure" "reset_clock_phase"), ("reference_magnitude", .ref "measure"),
     ("acq_weights_a", .par "measure" "acq_weights_a"), ("acq_weights_b", .par "measure" "acq_weights_b"),
     ("acq_weights_sampling_rate", .par "measure" "acq_weights_sampling_rate"),
     ("acq_rotation", .par "measure" "acq_rotation"), ("acq_threshold", .par "measure" "acq_threshold"),
     ("num_points", .par "measure" "num_points"), ("freq", .const .none)],
    measureInfo⟩]

/-- nv_element.py:616-730. -/
def nvOps : List Entry :=
  [⟨"spectroscopy_operation", some "nv_spec_pulse_mw",
    [("duration", .par "spectroscopy_operation" "duration"), ("amplitude", .par "spectroscopy_operation" "amplitude"),
     ("port", .par "ports" "microwave"), ("clock", .clock ".spec"),
     ("pulse_shape", .par "spectroscopy_operation" "pulse_shape")], []⟩,
   ⟨"reset", some "SquarePulse",
    [("duration", .par "reset" "duration"), ("amp", .par "reset" "amplitude"),
     ("port", .par "ports" "optical_control"), ("clock", .clock ".ge1")], []⟩,
   ⟨"charge_reset", some "SquarePulse",
    [("duration", .par "charge_reset" "duration"), ("amp", .par "charge_reset" "amplitude"),
     ("port", .par "ports" "optical_control"), ("clock", .clock ".ionization")], []⟩,
   ⟨"measure", some "optical_measurement",
    [("pulse_amplitudes", .list [.par "measure" "pulse_amplitude"]),
     ("pulse_durations", .list [.par "measure" "pulse_duration"]),
     ("pulse_ports", .list [.par "ports" "optical_control"]), ("pulse_clocks", .list [.clock ".ge0"]),
     ("acq_duration", .par "measure" "acq_duration"), ("acq_delay", .par "measure" "acq_delay"),
     ("acq_channel", .par "measure" "acq_channel"), ("acq_port", .par "ports" "optical_readout"),
     ("acq_clock", .clock ".ge0"), ("acq_time_source", .par "measure" "time_source"),
     ("acq_time_ref", .par "measure" "time_ref"), ("pulse_type", .const (.str "SquarePulse")),
     ("acq_protocol_default", .const (.str "TriggerCount"))],
    ["acq_channel_override", "coords", "acq_index", "bin_mode", "acq_protocol"]⟩,
   compEntry "microwave" (.clock ".f_larmor"),
   ⟨"cr_count", some "optical_measurement",
    [("pulse_amplitudes", .list [.par "cr_count" "readout_pulse_amplitude", .par "cr_count" "spinpump_pulse_amplitude"]),
     ("pulse_durations", .list [.par "cr_count" "readout_pulse_duration", .par "cr_count" "spinpump_pulse_duration"]),
     ("pulse_ports", .list [.par "ports" "optical_control", .par "ports" "optical_control"]),
     ("pulse_clocks", .list [.clock ".ge0", .clock ".ge1"]),
     ("acq_duration", .par "cr_count" "acq_duration"), ("acq_delay", .par "cr_count" "acq_delay"),
     ("acq_channel", .par "cr_count" "acq_channel"), ("acq_port", .par "ports" "optical_readout"),
     ("acq_clock", .clock ".ge0"), ("pulse_type", .const (.str "SquarePulse")),
     ("acq_protocol_default", .const (.str "TriggerCount"))],
    ["acq_channel_override", "coords", "acq_index", "bin_mode", "acq_protocol"]⟩,
   ⟨"Rxy", some "rxy_pulse",
    [("amp180", .par "rxy" "amp180"), ("skewness", .par "rxy" "skewness"), ("port", .par "ports" "microwave"),
     ("clock", .clock ".spec"), ("duration", .par "rxy" "duration"), ("pulse_shape", .par "rxy" "pulse_shape")],
    ["theta", "phi"]⟩]

/-- spin_element.py:341-375, 488-522. -/
def spinMeasureEntry : Entry :=
  ⟨"measure", some "dispersive_measurement_spin",
    [("port", .par "ports" "readout"), ("clock", .clock ".ro"), ("gate_port", .par "ports" "gate"),
     ("pulse_type", .par "measure" "pulse_type"),
     ("pulse_amp", .par "measure" "pulse_amp"), ("gate_pulse_amp", .par "measure" "gate_pulse_amp"),
     ("pulse_duration", .par "measure" "pulse_duration"),
     ("acq_delay", .par "measure" "acq_delay"), ("acq_duration", .par "measure" "integration_time"),
     ("acq_channel", .par "measure" "acq_channel"),
     ("acq_protocol_default", .const (.str "SSBIntegrationComplex")),
     ("reset_clock_phase", .par "measure" "reset_clock_phase"), ("reference_magnitude", .ref "measure"),
     ("acq_weights_a", .par "measure" "acq_weights_a"), ("acq_weights_b", .par "measure" "acq_weights_b"),
     ("acq_weights_sampling_rate", .par "measure" "acq_weights_sampling_rate"),
     ("acq_rotation", .par "measure" "acq_rotation"), ("acq_threshold", .par "measure" "acq_threshold"),
     ("num_points", .par "measure" "num_points"), ("freq", .const .none)],
    measureInfo⟩

/-- spin_element.py:299-387. -/
def spinOps : List Entry :=
  [resetEntry,
   ⟨"Rxy", some "rxy_gauss_pulse",
    [("amp180", .par "rxy" "amp180"), ("port", .par "ports" "microwave"), ("clock", .clock ".f_larmor"),
     ("duration", .par "rxy" "duration"), ("reference_magnitude", .ref "rxy")], ["theta", "phi"]⟩,
   ⟨"Rz", some "phase_shift", [("clock", .clock ".f_larmor")], ["theta"]⟩,
   ⟨"H", some "hadamard_as_y90z", [("qubit", .clock "")], []⟩,
   spinMeasureEntry,
   compEntry "microwave" (.clock ".f_larmor")]

/-- spin_element.py:484-534. -/
def sensorOps : List Entry := [spinMeasureEntry, compEntry "gate" (.const (.str "cl0.baseband"))]

/-- `_generate_config` of a class. -/
def Kind.ops : Kind → List Entry
  | .transmon => transmonOps
  | .nv => nvOps
  | .spin => spinOps
  | .sensor => sensorOps

/-- The clocks of a class, with the parameter that has the frequency (transmon_element.py:694-698, nv_element.py:748-754,
spin_element.py:405-408, 552-554). -/
def Kind.clocks : Kind → List (String × String)
  | .transmon => [(".01", "f01"), (".12", "f12"), (".ro", "readout")]
  | .nv => [(".f01", "f01"), (".spec", "spec"), (".ge0", "ge0"), (".ge1", "ge1"), (".ionization", "ionization")]
  | .spin => [(".f_larmor", "f_larmor"), (".ro", "readout")]
  | .sensor => [(".ro", "readout")]

/-- The dictionary of clocks of an element. -/
def evalClocks (name : String) (ps : Params) : List (String × String) → Except Err (List (String × Val))
  | [] => .ok []
  | (suffix, par) :: rest => do
    let v ← valueOf ps "clock_freqs" par
    let cs ← evalClocks name ps rest
    return (name ++ suffix, v) :: cs

/-- `generate_device_config` of an element (transmon_element.py:679-703, nv_element.py:733-759,
spin_element.py:390-413, 537-559); an edge or another instrument does not have the method. -/
def elemConfig : Instr → Except Err Config
  | .elem k n ps => do
    let ops ← evalOps n ps k.ops
    let clocks ← evalClocks n ps k.clocks
    return { elements := [(n, ops)], clocks := clocks }
  | _ => .error .attributeError

/-- `find_instrument(name, DeviceElement)` (edge.py:101-109; QCoDeS). -/
def findElement (reg : Registry) (name : String) : Except Err (Kind × Params) :=
  match Dict.get? reg name with
  | .none => .error .keyError
  | some (.elem k _ ps) => .ok (k, ps)
  | some _ => .error .typeError

/-- The arguments of `composite_square_pulse` (composite_square_edge.py:99-115, spin_edge.py:145-161). -/
def czKwargs (port : Val) (ps : Params) (parent child suffix : String) : Except Err (List (String × Arg)) := do
  let amp ← valueOf ps "cz" "square_amp"
  let dur ← valueOf ps "cz" "square_duration"
  let pp ← valueOf ps "cz" (parent ++ "_phase_correction")
  let pc ← valueOf ps "cz" (child ++ "_phase_correction")
  return [("square_port", .val port), ("square_clock", .val (.str "cl0.baseband")), ("square_amp", .val amp),
    ("square_duration", .val dur), ("virt_z_parent_qubit_phase", .val pp),
    ("virt_z_parent_qubit_clock", .val (.str (parent ++ suffix))), ("virt_z_child_qubit_phase", .val pc),
    ("virt_z_child_qubit_clock", .val (.str (child ++ suffix)))]

/-- `generate_edge_config` (composite_square_edge.py:89-119, spin_edge.py:131-169); elements and other instruments do not
have the method. -/
def edgeConfig (reg : Registry) : Instr → Except Err (List (String × Ops))
  | .edge .square p c ps => do
    let (_, pps) ← findElement reg p
    let port ← valueOf pps "ports" "flux"
    let _ ← findElement reg c
    let kw ← czKwargs port ps p c ".01"
    return [(p ++ "_" ++ c, [("CZ", ⟨some "composite_square_pulse", kw, []⟩)])]
  | .edge .spin p c ps => do
    let port ← valueOf ps "ports" "gate"
    let _ ← findElement reg p
    let _ ← findElement reg c
    let kw ← czKwargs port ps p c ".f_larmor"
    return [(p ++ "_" ++ c, [("SpinInit", ⟨some "non_implemented_pulse", [], []⟩),
      ("CZ", ⟨some "composite_square_pulse", kw, []⟩), ("CNOT", ⟨some "non_implemented_pulse", [], []⟩)])]
  | _ => .error .attributeError

/-- `get_element` and `get_edge` (quantum_device.py:416-439, 483-506). -/
def getMember (reg : Registry) (members : List String) (name : String) : Except Err Instr :=
  if name ∈ members then
    match Dict.get? reg name with
    | some i => .ok i
    | .none => .error .keyError
  else .error .keyError

/-- `dict.update`. -/
def update {V : Type} (d : List (String × V)) : List (String × V) → List (String × V)
  | [] => d
  | e :: rest => update (Dict.set d e.1 e.2) rest

/-- The loop over the elements (quantum_device.py:306-310). -/
def genElements (reg : Registry) (members : List String) :
    List String → List (String × Val) → List (String × Ops) →
      Except Err (List (String × Val) × List (String × Ops))
  | [], clocks, els => .ok (clocks, els)
  | n :: rest, clocks, els => do
    let i ← getMember reg members n
    let cfg ← elemConfig i
    genElements reg members rest (update clocks cfg.clocks) (update els cfg.elements)

/-- The loop over the edges (quantum_device.py:313-316). -/
def genEdges (reg : Registry) (members : List String) :
    List String → List (String × Ops) → Except Err (List (String × Ops))
  | [], es => .ok es
  | n :: rest, es => do
    let i ← getMember reg members n
    let cfg ← edgeConfig reg i
    genEdges reg members rest (update es cfg)

/-- `QuantumDevice.generate_device_config` (quantum_device.py:295-327). -/
def generate (s : St) : Except Err Config := do
  let (clocks, els) ← genElements s.reg s.dev.elements s.dev.elements [] []
  let es ← genEdges s.reg s.dev.edges s.dev.edges []
  return { elements := els, clocks := clocks, edges := es, strategy := s.dev.strategy }

/-- What a user does. -/
inductive Cmd where
  | newElem (kind : Kind) (name : String) (kwargs : Params)
  | newEdge (kind : EKind) (parent child : String) (kwargs : Params)
  | newOther (name : String)
  | close (name : String)
  | setPar (name sub par : String) (v : Val)
  | addElement (i : Instr)
  | addEdge (i : Instr)
  | removeElement (name : String)
  | removeEdge (name : String)
  | setStrategy (s : String)
  | setReps (n : Nat)
  | setKeep (b : Bool)
  | setHardware (h : Option String)
deriving Repr

/-- The name could have been given to an instrument: elements have no hyphen or underscore in their name
(device_element.py:29-33). -/
def Instr.possible : Instr → Bool
  | .elem _ n _ => !n.toList.contains '-' && !n.toList.contains '_'
  | _ => true

/-- Setting a parameter by attribute access and call (QCoDeS: `ManualParameter`, `Parameter`): the instrument has it
and the validator accepts the value. -/
def setParam (i : Instr) (sub par : String) (v : Val) : Except Err Instr :=
  match i.pars.find? (fun p => p.sub == sub && p.name == par) with
  | .none => .error .attributeError
  | some p => if p.vals.ok v then .ok (i.withParams (assign i.pars i.params p v)) else .error .valueError

/-- One command: constructors of instruments, `Instrument.close`, setting a parameter, `add_element`, `add_edge`,
`remove_element`, `remove_edge` (quantum_device.py:441-481, 508-538), parameters of the device
(quantum_device.py:88-135). -/
def step (s : St) : Cmd → Except Err St
  | .newElem k n kw => do
    let i ← makeElem k n kw
    return { s with reg := ← register s.reg i }
  | .newEdge k p c kw => do
    let i ← makeEdge k p c kw
    return { s with reg := ← register s.reg i }
  | .newOther n => do
    return { s with reg := ← register s.reg (.other n) }
  | .close n => .ok { s with reg := s.reg.filter (fun e => e.1 != n) }
  | .setPar n sub par v =>
    match Dict.get? s.reg n with
    | .none => .error .keyError
    | some i => do
      let i' ← setParam i sub par v
      return { s with reg := Dict.set s.reg n i' }
  | .addElement i =>
    if !i.possible then .error .valueError
    else if i.name ∈ s.dev.elements then .error .valueError
    else match i with
      | .elem .. => .ok { s with dev := { s.dev with elements := s.dev.elements ++ [i.name] } }
      | _ => .error .typeError
  | .addEdge i =>
    if i.name ∈ s.dev.edges then .error .valueError
    else match i with
      | .edge .. => .ok { s with dev := { s.dev with edges := s.dev.edges ++ [i.name] } }
      | _ => .error .typeError
  | .removeElement n =>
    if n ∈ s.dev.elements then .ok { s with dev := { s.dev with elements := s.dev.elements.erase n } }
    else .error .valueError
  | .removeEdge n =>
    if n ∈ s.dev.edges then .ok { s with dev := { s.dev with edges := s.dev.edges.erase n } }
    else .error .valueError
  | .setStrategy x => if x = "asap" ∨ x = "alap" then .ok { s with dev := { s.dev with strategy := x } }
    else .error .valueError
  | .setReps n => if 1 ≤ n then .ok { s with dev := { s.dev with reps := n } } else .error .valueError
  | .setKeep b => .ok { s with dev := { s.dev with keep := b } }
  | .setHardware h => .ok { s with dev := { s.dev with hardware := h } }

/-- A session: a command that raises an exception changes nothing. -/
def run (s : St) : List Cmd → St
  | [] => s
  | c :: rest => match step s c with
    | .ok s' => run s' rest
    | .error _ => run s rest

/-- A new device in a new session (quantum_device.py:55-138). -/
def fresh (name : String) : St := ⟨[], { name := name }⟩

/-- An instrument in a JSON document: `__json_getstate__` of elements (device_element.py:36-57) and edges (edge.py:43-69):
the parameters of the submodules, not of the submodules' submodules. -/
inductive Saved where
  | elem (kind : Kind) (name : String) (data : Params)
  | edge (kind : EKind) (parent child : String) (data : Params)
deriving DecidableEq, Repr

/-- A value after writing and reading JSON (Verif/Json: everything is kept, but tuples become lists). -/
def jsonVal : Val → Val
  | .tuple xs => .list xs
  | v => v

/-- The data of the submodules of an instrument, read back from JSON: the values of the parameters that are not nested. -/
def savedData (pars : List Par) (ps : Params) : Params :=
  (ps.filter fun e => pars.any (fun p => !p.nested && (p.sub, p.name) == e.1)).map fun e => (e.1, jsonVal e.2)

/-- `to_dict` of an instrument. -/
def saveInstr : Instr → Except Err Saved
  | .elem k n ps => .ok (.elem k n (savedData k.pars ps))
  | .edge k p c ps => .ok (.edge k p c (savedData (k.pars p c) ps))
  | .other _ => .error .attributeError

/-- The document: `QuantumDevice.__json_getstate__` (quantum_device.py:140-163). -/
structure Doc where
  name : String
  elements : List (String × Saved)
  edges : List (String × Saved)
  reps : Nat
deriving DecidableEq, Repr

/-- `{name: self.get_element(name).to_dict() for name in …}` (quantum_device.py:147-154). -/
def saveAll (reg : Registry) (members : List String) : List String → Except Err (List (String × Saved))
  | [] => .ok []
  | n :: rest => do
    let i ← getMember reg members n
    let d ← saveInstr i
    let ds ← saveAll reg members rest
    return (n, d) :: ds

/-- `QuantumDevice.to_json` (quantum_device.py:228-267). -/
def save (s : St) : Except Err Doc :=
  if s.dev.elements ++ s.dev.edges = [] then .error .runtimeError
  else if (s.dev.elements ++ s.dev.edges).all (fun n => decide (n ∈ Dict.keys s.reg)) then do
    let els ← saveAll s.reg s.dev.elements s.dev.elements
    let es ← saveAll s.reg s.dev.edges s.dev.edges
    return ⟨s.dev.name, els, es, s.dev.reps⟩
  else .error .runtimeError

/-- An instrument is made from its data (json_utils.py:183-189: `class_type(**obj["data"])`). -/
def loadInstr : Saved → Except Err Instr
  | .elem k n d => makeElem k n d
  | .edge k p c d => makeEdge k p c d

/-- All instruments of the document are made and registered while it is parsed (`object_hook`). -/
def loadInstrs : List (String × Saved) → Registry → Except Err (List (String × Instr) × Registry)
  | [], reg => .ok ([], reg)
  | (n, d) :: rest, reg => do
    let i ← loadInstr d
    let reg' ← register reg i
    let (is, reg'') ← loadInstrs rest reg'
    return ((n, i) :: is, reg'')

/-- The loops over the elements and the edges of `__json_setstate__` (quantum_device.py:186-208). -/
def addAll (mk : Instr → Cmd) : List (String × Instr) → St → Except Err St
  | [], s => .ok s
  | (_, i) :: rest, s => do
    let s' ← step s (mk i)
    addAll mk rest s'

/-- `QuantumDevice.from_json` with these registered instruments: parsing, then `__json_setstate__`
(quantum_device.py:179-210). -/
def load (reg : Registry) (doc : Doc) : Except Err St := do
  let (els, reg) ← loadInstrs doc.elements reg
  let (es, reg) ← loadInstrs doc.edges reg
  let s ← addAll .addElement els ⟨reg, { name := doc.name }⟩
  let s ← addAll .addEdge es s
  step s (.setReps doc.reps)

end Verif.Device
