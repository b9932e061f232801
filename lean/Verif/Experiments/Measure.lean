/-
What a measurement gate stands for: operations/measurement_factories.py, with the multiplexed
compilation of backends/circuit_to_device.py:480-560.

Simplifications: reference magnitudes, coordinates, trigger labels, rotations and thresholds are
passed on and left out here; `acq_channel` and the override are numbers; a complex amplitude is a
pair. Weights are given by their lengths.
-/
import Verif.Experiments.Model

namespace Verif.Experiments

open Verif.Timing (Err)

/-- What an entry of `pulse_info` or `acquisition_info` does. -/
inductive What where
  | resetPhase (clock : String)
  | square (amp : Option (Rat × Rat)) (port : Option String) (clock : String)
  | offset (re im : Rat) (port clock : String)
  | acquire (protocol : String) (port clock : String) (channel : Nat) (index : Option Nat)
      (append : Bool)
  | setFreq (clock : String) (freq : Option Rat)
  | idle
deriving DecidableEq, Repr

/-- An entry of `pulse_info` or `acquisition_info`. -/
structure Info where
  t0 : Rat
  dur : Rat
  what : What
deriving DecidableEq, Repr

/-- `Operation._update` (operations/operation.py:131-142): the latest end, 0 without entries. -/
def infosDuration : List Info → Rat
  | [] => 0
  | i :: is => is.foldl (fun m j => max m (j.t0 + j.dur)) (i.t0 + i.dur)

/-- An operation with its entries. -/
def infoOp (l : List Info) : Op (List Info) := .leaf l (infosDuration l)

/-- `num_points`: an integer or something else. -/
inductive NumPoints where
  | int (n : Nat)
  | other
deriving DecidableEq, Repr

/-- The arguments of `_dispersive_measurement` (measurement_factories.py:46-73). `weightsA` and
`weightsB` are the lengths of the weights. -/
structure MeasureArgs where
  pulseAmp : Rat × Rat
  pulseDur : Rat
  port : String
  gateAmp : Option Rat
  gatePort : Option String
  clock : String
  acqDur : Rat
  acqDelay : Rat
  channel : Nat
  channelOverride : Option Nat
  index : Option Nat
  protocol : Option String
  squarePulse : Bool
  append : Option Bool
  protocolDefault : String
  resetPhase : Bool
  weightsA : Option Nat
  weightsB : Option Nat
  samplingRate : Option Rat
  numPoints : NumPoints
  freq : Option Rat
  nextDelay : Rat
deriving DecidableEq, Repr

/-- `schedule.add(operation, ref_pt="start")`. -/
def Calls.addStart {L : Type} (op : Op L) (rest : Calls L) : Calls L :=
  .cons op none 0 none (some .start) rest

/-- Is there a gate pulse (measurement_factories.py:177, 320)? -/
def MeasureArgs.hasGate (a : MeasureArgs) : Bool := a.gateAmp.isSome || a.gatePort.isSome

/-- The pulses (measurement_factories.py:153-187), before the rest. -/
def measurePulses (a : MeasureArgs) (rest : Calls (List Info)) : Except Err (Calls (List Info)) :=
  if a.protocol = some "LongTimeTrace" then .ok rest
  else if a.squarePulse = false then .error .notImplemented
  else
    .ok ((fun r => if a.resetPhase then .add (infoOp [⟨0, 0, .resetPhase a.clock⟩]) none r else r) <|
      .addStart (infoOp [⟨0, a.pulseDur, .square (some a.pulseAmp) (some a.port) a.clock⟩]) <|
      (fun r => if a.hasGate then
        .addStart (infoOp [⟨0, a.pulseDur, .square (a.gateAmp.map (fun x => (x, 0))) a.gatePort
          "cl0.baseband"⟩]) r else r) rest)

/-- The duration of the acquisition of a protocol: that of the configuration, or that of the weights
(acquisition_library.py:594-611); the exceptions of measurement_factories.py:214-221, 363. -/
def measureDuration (a : MeasureArgs) (protocol : String) : Except Err Rat :=
  if protocol = "SSBIntegrationComplex" ∨ protocol = "ThresholdedAcquisition" ∨ protocol = "Trace" then
    .ok a.acqDur
  else if protocol = "NumericalSeparatedWeightedIntegration" ∨
      protocol = "NumericalWeightedIntegration" ∨ protocol = "WeightedThresholdedAcquisition" then
    match a.weightsA, a.weightsB, a.samplingRate with
    | some n, some _, some r => .ok (n / r)
    | _, _, _ => .error .typeError
  else .error .valueError

/-- The loop body of a long time trace (measurement_factories.py:329-343). -/
def longBody (a : MeasureArgs) : Op (List Info) :=
  .sched none (
    .add (infoOp [⟨0, 0, .resetPhase a.clock⟩]) none <|
    .addStart (infoOp [⟨0, a.acqDur, .acquire "SSBIntegrationComplex" a.port a.clock 0 a.index
      true⟩]) .nil)

/-- The acquisition (measurement_factories.py:189-363). The bin mode of `Trace` is not given: it is
AVERAGE by default. -/
def measureAcquisition (a : MeasureArgs) : Except Err (Calls (List Info)) :=
  if a.protocol.getD a.protocolDefault = "LongTimeTrace" then
    if a.append.getD false = false then .error .valueError
    else
      match a.numPoints with
      | .other => .error .valueError
      | .int n =>
        .ok (.add (infoOp [⟨0, 0, .offset a.pulseAmp.1 a.pulseAmp.2 a.port a.clock⟩]) none <|
          (fun r => if a.hasGate then
            .add (infoOp [⟨0, n * a.acqDur, .square (a.gateAmp.map (fun x => (x, 0))) a.gatePort
              "cl0.baseband"⟩]) none r else r) <|
          .cons (.loop n (longBody a)) none a.acqDelay none (some .start) <|
          .add (infoOp [⟨0, 0, .offset 0 0 a.port a.clock⟩]) none <|
          .add (infoOp [⟨0, 4 / 1000000000, .idle⟩]) none .nil)
  else
    match measureDuration a (a.protocol.getD a.protocolDefault) with
    | .error e => .error e
    | .ok d => .ok (.addStart (infoOp [⟨a.acqDelay, d, .acquire (a.protocol.getD a.protocolDefault)
        a.port a.clock (a.channelOverride.getD a.channel) a.index
        (if a.protocol.getD a.protocolDefault = "Trace" then false else a.append.getD false)⟩]) .nil)

/-- The delay for the next operation: only if it is not zero (measurement_factories.py:148-150). -/
def MeasureArgs.delay (a : MeasureArgs) : Option Rat :=
  if a.nextDelay = 0 then none else some a.nextDelay

/-- `_dispersive_measurement` (measurement_factories.py:46-385), also of transmons and spins
(388-632). -/
def dispersiveMeasurement (a : MeasureArgs) : Except Err (Op (List Info)) :=
  match measurePulses a .nil with
  | .error e => .error e
  | .ok pulses =>
    match measureAcquisition a with
    | .error e => .error e
    | .ok acq =>
      match a.freq with
      | none => .ok (.sched a.delay (pulses.append acq))
      | some f => .ok (.sched none (
          .add (infoOp [⟨0, 0, .setFreq a.clock (some f)⟩]) none <|
          .add (.sched a.delay (pulses.append acq)) none <|
          .add (infoOp [⟨0, 0, .setFreq a.clock none⟩]) none .nil))

/-- `delay`s removed (circuit_to_device.py:553-555). -/
def Op.dropDelay {L : Type} : Op L → Op L
  | .sched _ c => .sched none c
  | o => o

/-- The smallest of the delays that are there (circuit_to_device.py:551-557). -/
def minDelay {L : Type} : List (Op L) → Option Rat
  | [] => none
  | o :: os =>
    match o.delay, minDelay os with
    | some d, some m => some (min d m)
    | some d, none => some d
    | none, m => m

/-- Schedules that start together (circuit_to_device.py:536-544), with the first one as reference. -/
def together {L : Type} : List (Op L) → Calls L
  | [] => .nil
  | o :: os => .cons o.dropDelay none 0 (some (.uuid 0)) (some .start) (together os)

/-- The inner schedule of a measurement of several elements (circuit_to_device.py:522-559), if the
representation of each element is a schedule. -/
def multiplexed {L : Type} : List (Op L) → Op L
  | [] => .sched none .nil
  | o :: os => .sched (minDelay (o :: os)) (.add o.dropDelay none (together os))

/-- The arguments of `optical_measurement` (measurement_factories.py:635-654). -/
structure OpticalArgs where
  amps : List Rat
  durs : List Rat
  ports : List String
  clocks : List String
  acqDur : Rat
  acqDelay : Rat
  acqPort : String
  acqClock : String
  channel : Nat
  channelOverride : Option Nat
  index : Option Nat
  append : Option Bool
  protocol : Option String
  protocolDefault : String
  squarePulse : Bool
deriving DecidableEq, Repr

/-- The pulses of an optical measurement: the four lists zipped (measurement_factories.py:752-762). -/
def opticalPulses (t0 : Rat) : List Rat → List Rat → List String → List String → List Info
  | a :: as, d :: ds, p :: ps, c :: cs =>
    ⟨t0, d, .square (some (a, 0)) (some p) c⟩ :: opticalPulses t0 as ds ps cs
  | _, _, _, _ => []

/-- `optical_measurement` (measurement_factories.py:635-846). -/
def opticalMeasurement (a : OpticalArgs) : Except Err (Op (List Info)) :=
  if ¬ (a.amps.length = a.durs.length ∧ a.durs.length = a.ports.length ∧
      a.ports.length = a.clocks.length) then .error .valueError
  else if a.squarePulse = false then .error .notImplemented
  else if a.protocol.getD a.protocolDefault ∉ ["TriggerCount", "Trace", "Timetag", "TimetagTrace"]
    then .error .notImplemented
  else .ok (infoOp (opticalPulses (max 0 (-a.acqDelay)) a.amps a.durs a.ports a.clocks ++
    [⟨max 0 a.acqDelay, a.acqDur, .acquire (a.protocol.getD a.protocolDefault) a.acqPort a.acqClock
      (a.channelOverride.getD a.channel) a.index (a.append.getD true)⟩]))

/-! ## Observables -/

/-- Start, end and contents of everything an operation does. -/
def spans (l : List (Rat × List Info)) : List (Rat × Rat × What) :=
  l.flatMap (fun e => e.2.map (fun i => (e.1 + i.t0, e.1 + i.t0 + i.dur, i.what)))

end Verif.Experiments
