/-
From the data of an operation to its instructions: which strategy is made
(operation_handling/factory_common.py, factory_analog.py, factory_timetag.py, bin_mode_compat.py), the waveforms
and weights it adds to the memory of the sequencer (compiler_abc.py:387-441, pulses.py, acquisitions.py) and the
arguments of its instructions.

Simplifications:
* Waveforms are given by their samples (`helpers.generate_waveform_data`; for the shapes see C49), which are exact
  rationals, as are all values; an array of real numbers has imaginary parts 0.
* Index and bin of an acquisition are given from outside (see C18, C32).
* Digital pulses and inline assembly are refused here (see C61 for the former).
* Errors that `insert_qasm` raises are raised with those of `generate_data`, not later: either way there is no
  program.
* The check of the sampling rate of interpolated weights (acquisitions.py:216-225) is left out.
-/
import Verif.Waves.Model
import Verif.Q1.Compile
import Verif.Flatten.Model

namespace Verif.Strategies

open Verif.Flatten (Info)
open Verif.Waves (Entry)

/-- Exceptions. -/
inductive Err where
  | valueError | runtimeError | binMode | typeError | keyError
  /-- not modelled -/
  | outside
deriving DecidableEq, Repr

/-- `BinMode` (enums.py). -/
inductive BinMode where
  | append | average | first | distribution | sum
deriving DecidableEq, Repr

/-- The data of an acquisition (operations/acquisition_library.py). -/
structure Acq where
  protocol : String
  binMode : BinMode
  channel : String
  /-- `data["waveforms"]`, sampled -/
  weights : List (List Rat) := []
  fineStart : Rat := 0
  fineEnd : Rat := 0
deriving DecidableEq, Repr

/-- `OpInfo.data` (types/qblox.py:152-240): the keys that are looked at.  A field is `none` (or `false`) if the key
is missing. -/
structure Data where
  /-- `data["port"]` -/
  port : Option String := none
  duration : Rat := 0
  /-- samples of `data["wf_func"]`, real and imaginary parts; `none` if that is `None` -/
  wave : Option (List Rat × List Rat) := none
  /-- for acquisitions: `"acq_channel" in data or "bin_mode" in data` (types/qblox.py:175-177) -/
  acq : Option Acq := none
  instruction : Option String := none
  repetitions : Option Nat := none
  /-- `feedback_trigger_address` -/
  trigger : Option Nat := none
  flowEnd : Bool := false
  name : Option String := none
  /-- `offset_path_I`, `offset_path_Q` -/
  offset : Option (Rat × Rat) := none
  phaseShift : Option Rat := none
  resetPhase : Bool := false
  /-- `clock_freq_new`, which may be `None` -/
  newFreq : Option (Option Rat) := none
  /-- `clock_freq_old` -/
  oldFreq : Option Rat := none
  marker : Bool := false
  timestamp : Bool := false
deriving DecidableEq, Repr

/-- `is_parameter_instruction` (types/qblox.py:197-217). -/
def Data.isParam (d : Data) : Bool :=
  d.offset.isSome || d.phaseShift.isSome || d.resetPhase || d.newFreq.isSome || d.marker || d.timestamp

/-- `is_parameter_update` (types/qblox.py:219-225). -/
def Data.isUpdate (d : Data) : Bool := decide (d.instruction = some "upd_param")

/-- `is_real_time_io_operation` (types/qblox.py:179-187). -/
def Data.isRT (d : Data) : Bool := d.acq.isSome || d.isUpdate || d.wave.isSome

/-- The classes of operation strategies. -/
inductive Kind where
  | idle | pulse | marker | digital | phaseShift | resetPhase | setFreq | offset | latchReset | updParam | timestamp
  | loop (n : Nat)
  | conditional (address : Nat)
  | ret
  | square | weighed | ttl
  | timetag (scope : Bool)
deriving DecidableEq, Repr

/-- `try_get_pulse_strategy_common` (factory_common.py:19-47). -/
def common (d : Data) : Option Kind :=
  if d.isUpdate then some .updParam
  else match d.repetitions with
  | some n => some (.loop n)
  | none =>
    match d.trigger with
    | some a => some (.conditional a)
    | none =>
      if d.flowEnd then some .ret
      else if d.name = some "LatchReset" then some .latchReset
      else none

/-- `QRM_COMPATIBLE_BIN_MODES` (bin_mode_compat.py:14-24). -/
def qrmModes : List (String × List BinMode) :=
  [("SSBIntegrationComplex", [.append, .average]), ("Trace", [.average]),
   ("ThresholdedAcquisition", [.append, .average]), ("WeightedThresholdedAcquisition", [.append, .average]),
   ("TriggerCount", [.append, .sum, .distribution]), ("ThresholdedTriggerCount", [.append]),
   ("WeightedIntegratedSeparated", [.append, .average]),
   ("NumericalSeparatedWeightedIntegration", [.append, .average]),
   ("NumericalWeightedIntegration", [.append, .average])]

/-- `QTM_COMPATIBLE_BIN_MODES` (bin_mode_compat.py:26-33). -/
def qtmModes : List (String × List BinMode) :=
  [("TriggerCount", [.append, .sum]), ("ThresholdedTriggerCount", [.append]),
   ("DualThresholdedTriggerCount", [.append]), ("Timetag", [.append, .average]), ("Trace", [.first]),
   ("TimetagTrace", [.append])]

/-- The check of the bin mode (factory_analog.py:73-87, factory_timetag.py:70-81). -/
def checkMode (table : List (String × List BinMode)) (a : Acq) : Except Err Unit :=
  match table.lookup a.protocol with
  | none => .error .valueError
  | some modes => if a.binMode ∈ modes then .ok () else .error .binMode

/-- `_get_acquisition_strategy` of QCM and QRM (factory_analog.py:68-104). -/
def acqAnalog (a : Acq) : Except Err Kind :=
  match checkMode qrmModes a with
  | .error e => .error e
  | .ok _ =>
    if a.protocol ∈ ["Trace", "SSBIntegrationComplex", "ThresholdedAcquisition"] then .ok .square
    else if a.protocol ∈ ["WeightedIntegratedSeparated", "NumericalSeparatedWeightedIntegration",
        "NumericalWeightedIntegration", "WeightedThresholdedAcquisition"] then .ok .weighed
    else .ok .ttl

/-- `_get_acquisition_strategy` of the QTM (factory_timetag.py:65-95). -/
def acqTimetag (a : Acq) : Except Err Kind :=
  match checkMode qtmModes a with
  | .error e => .error e
  | .ok _ =>
    if a.protocol ∈ ["DualThresholdedTriggerCount", "TriggerCount", "ThresholdedTriggerCount", "Timetag"] then
      .ok (.timetag false)
    else .ok (.timetag true)

/-- `_get_pulse_strategy` of QCM and QRM (factory_analog.py:107-133). -/
def pulseAnalog (d : Data) : Except Err Kind :=
  if d.offset.isSome then .ok .offset
  else match common d with
  | some k => .ok k
  | none =>
    if d.port = none then
      if d.phaseShift.isSome then .ok .phaseShift
      else if d.resetPhase then .ok .resetPhase
      else if d.newFreq.isSome then .ok .setFreq
      else .ok .idle
    else if d.marker then .ok .marker
    else .ok .pulse

/-- `_get_pulse_strategy` of the QTM (factory_timetag.py:98-123). -/
def pulseTimetag (d : Data) : Except Err Kind :=
  match common d with
  | some k => .ok k
  | none =>
    if d.port = none then .ok .idle
    else if d.marker then .ok .digital
    else if d.timestamp then .ok .timestamp
    else .error .valueError

/-- Module types, as far as they differ here. -/
inductive Mod where
  | analog | timetag
deriving DecidableEq, Repr

/-- `get_operation_strategy` (factory_analog.py:28-65, factory_timetag.py:30-62). -/
def factory (m : Mod) (d : Data) : Except Err Kind :=
  match m, d.acq with
  | .analog, some a => acqAnalog a
  | .analog, none => pulseAnalog d
  | .timetag, some a => acqTimetag a
  | .timetag, none => pulseTimetag d

/-- What the instructions depend on besides the data. -/
structure Config (K : Type) where
  mod : Mod
  /-- `ChannelMode.COMPLEX in channel_name` -/
  complex : Bool
  /-- `frequency` of the sequencer: that of its oscillator -/
  freq : Option Rat
  /-- index of the acquisition channel on the hardware -/
  acqIndex : String → Nat
  /-- bin or bin register of an acquisition -/
  bin : Info Data → Q1.BinRef
  /-- hash of rounded samples -/
  hash : List Int → K

variable {K : Type} [DecidableEq K]

/-- Waveforms and weights in the memory of a sequencer. -/
structure Mem (K : Type) where
  awg : List (Entry K)
  weights : List (Entry K)

/-- A value or an error of `Numeric`. -/
def lift {α : Type} : Except Numeric.Err α → Except Err α
  | .ok x => .ok x
  | .error _ => .error .valueError

/-- `GenericPulseStrategy` (pulses.py:58-246): waveform indices and gains. -/
def genPulse (c : Config K) (mem : Mem K) (d : Data) : Except Err (Mem K × Q1.Strategy) :=
  match d.wave with
  | none => .error .typeError
  | some (re, im) =>
    if im.any (fun y => decide (y ≠ 0)) && !c.complex then .error .valueError
    else
      let r := Waves.generateData c.hash mem.awg re im
      match r.2.1, r.2.2 with
      | none, none => .ok ({ mem with awg := r.1 }, .pulse none none 0 0)
      | i0, i1 =>
        (lift (Numeric.expandAwg (Waves.peak re) 65536)).bind (fun gI =>
          (lift (Numeric.expandAwg (Waves.peak im) 65536)).bind (fun gQ =>
            .ok ({ mem with awg := r.1 }, .pulse i0 i1 gI gQ)))

/-- The weights of `WeightedAcquisitionStrategy` (acquisitions.py:191-262). -/
def genWeights (c : Config K) (mem : Mem K) (a : Acq) : Except Err (Mem K × Nat × Nat) :=
  match a.weights with
  | [w0, w1] =>
    if Waves.weightTooLarge w0 || Waves.weightTooLarge w1 then .error .valueError
    else
      let r := Waves.addIfUnique c.hash mem.weights w0
      let s := Waves.addIfUnique c.hash r.1 w1
      .ok ({ mem with weights := s.1 }, r.2, s.2)
  | _ => .error .valueError

/-- The check of the bin register (acquisitions.py:70-87). -/
def checkBin (b : Q1.BinRef) (m : BinMode) : Except Err Unit :=
  match b, m with
  | .reg _, .append => .ok ()
  | .imm _, .append => .error .valueError
  | .reg _, _ => .error .valueError
  | .imm _, _ => .ok ()

/-- An acquisition strategy (acquisitions.py). -/
def genAcq (c : Config K) (mem : Mem K) (i : Info Data) (d : Data) (a : Acq) (k : Kind) :
    Except Err (Mem K × Q1.Strategy) :=
  (checkBin (c.bin i) a.binMode).bind (fun _ =>
    match k with
    | .weighed => (genWeights c mem a).bind (fun r =>
        .ok (r.1, .weighed (c.acqIndex a.channel) (c.bin i) r.2.1 r.2.2))
    | .ttl => (lift (Numeric.toGridTime d.duration 1)).bind (fun t =>
        .ok (mem, .ttl (c.acqIndex a.channel) (c.bin i) t))
    | .timetag scope => (lift (Numeric.fineDelay a.fineStart)).bind (fun f0 =>
        (lift (Numeric.fineDelay a.fineEnd)).bind (fun f1 =>
          (lift (Numeric.toGridTime d.duration 1)).bind (fun t =>
            .ok (mem, .timetag scope (c.acqIndex a.channel) (c.bin i) f0.toNat f1.toNat t))))
    | _ => .ok (mem, .square (c.acqIndex a.channel) (c.bin i)))

/-- `NcoSetClockFrequencyStrategy.insert_qasm` (virtual.py:117-157); the frequency of the oscillator is filled in
by the name of the operation (analog.py:428-436). -/
def freqArg (c : Config K) (name : String) (d : Data) : Except Err Int :=
  match d.oldFreq, (if name = "SetClockFrequency" then c.freq else none) with
  | none, _ => .error .runtimeError
  | _, none => .error .runtimeError
  | some old, some f =>
    match d.newFreq with
    | some (some new) => lift (Numeric.ncoFreq (f + new - old))
    | _ => lift (Numeric.ncoFreq f)

/-- The other strategies (virtual.py). -/
def genOther (c : Config K) (mem : Mem K) (name : String) (d : Data) : Kind → Except Err (Mem K × Q1.Strategy)
  | .idle => .ok (mem, .idle)
  | .pulse => genPulse c mem d
  | .phaseShift =>
    let φ := d.phaseShift.getD 0
    .ok (mem, .phaseShift (if φ = 0 then none else some (Numeric.ncoPhase φ)))
  | .resetPhase => .ok (mem, .resetPhase)
  | .setFreq => (freqArg c name d).bind (fun n => .ok (mem, .setFreq n))
  | .offset =>
    match d.offset with
    | none => .error .keyError
    | some (oI, oQ) => (lift (Numeric.expandAwg oI 65536)).bind (fun x =>
        (lift (Numeric.expandAwg oQ 65536)).bind (fun y => .ok (mem, .offset x y)))
  | .latchReset => .ok (mem, .latchReset (Numeric.pyRound (1000000000 * d.duration)).toNat)
  | .updParam => .ok (mem, .updParam)
  | .timestamp => .ok (mem, .timestamp)
  | _ => .error .outside

/-- The data of the marker at the end of control flow (qblox_backend.py, `ControlFlowReturn`). -/
def returnData : Data := { flowEnd := true }

/-- The data of an operation. -/
def dataOf (i : Info Data) : Except Err Data :=
  match i.data with
  | .pulse d => .ok d
  | .acq d _ => .ok d
  | .loopStart d => .ok d
  | .loopStop => .ok returnData
  | .asm => .error .outside

/-- One operation: its strategy, with the time of the operation, and the new contents of the memory. -/
def genOne (c : Config K) (mem : Mem K) (i : Info Data) : Except Err (Mem K × Q1.Op) :=
  (dataOf i).bind (fun d =>
    (factory c.mod d).bind (fun k =>
      match k with
      | .loop n => .ok (mem, .loop (Flatten.ns i.timing) n)
      | .conditional a => .ok (mem, .cond (Flatten.ns i.timing) ⟨true, .or, [a]⟩)
      | .ret => .ok (mem, .ret (Flatten.ns i.timing))
      | k =>
        (match d.acq with
          | some a => genAcq c mem i d a k
          | none => genOther c mem i.name d k).bind (fun r =>
            .ok (r.1, .leaf ⟨Flatten.ns i.timing, decide (i.name = "IdlePulse"), d.isParam, d.isRT, r.2, none⟩))))

/-- All operations of a sequencer, in the order in which they were added (compiler_abc.py:387-441). -/
def genAll (c : Config K) : Mem K → List (Info Data) → Except Err (Mem K × List Q1.Op)
  | mem, [] => .ok (mem, [])
  | mem, i :: is =>
    (genOne c mem i).bind (fun r => (genAll c r.1 is).bind (fun s => .ok (s.1, r.2 :: s.2)))

/-- Waveforms, weights and strategies of a sequencer. -/
def strategies (c : Config K) (infos : List (Info Data)) : Except Err (Mem K × List Q1.Op) :=
  genAll c ⟨[], []⟩ infos

end Verif.Strategies
