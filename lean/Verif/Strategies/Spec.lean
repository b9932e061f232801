/-
The operations of the library (operations/pulse_library.py, operations/acquisition_library.py,
backends/qblox/operations/pulse_library.py) and what they ask for.
-/
import Verif.Strategies.Model
import Verif.Waves.Props
import Verif.Q1.Spec

namespace Verif.Strategies

/-- Operations that a user can ask for. -/
inductive Lib where
  /-- any pulse with a waveform: real and imaginary parts of its samples, one per nanosecond -/
  | wave (re im : List Rat) (port : String)
  /-- `VoltageOffset` -/
  | offset (onI onQ : Rat) (port : String)
  /-- `IdlePulse` -/
  | idle (duration : Rat)
  /-- `ShiftClockPhase`, in degrees -/
  | shiftPhase (deg : Rat)
  /-- `ResetClockPhase` -/
  | resetPhase
  /-- `SetClockFrequency`; the frequency of the clock before is filled in by qblox_backend.py:1965-1985 -/
  | setFrequency (new : Option Rat) (old : Option Rat)
  /-- `LatchReset` -/
  | latchReset (port : String) (duration : Rat)
  /-- `Timestamp` -/
  | timestamp (port : String)
  /-- an acquisition -/
  | acquire (a : Acq) (port : String) (duration : Rat)

/-- The data of the operations (operations/pulse_library.py:80-89, 110-119, 159-170, 217-228, 249-257, 1204-1213 and
the pulses with waveforms; backends/qblox/operations/pulse_library.py:34-43; acquisition_library.py). -/
def Lib.data : Lib → Data
  | .wave re im port => { wave := some (re, im), port := some port, duration := re.length / 1000000000 }
  | .offset x y port => { offset := some (x, y), port := some port }
  | .idle dur => { duration := dur }
  | .shiftPhase deg => { phaseShift := some deg }
  | .resetPhase => { resetPhase := true }
  | .setFrequency new old => { newFreq := some new, oldFreq := old }
  | .latchReset port dur => { name := some "LatchReset", port := some port, duration := dur }
  | .timestamp port => { timestamp := true, port := some port }
  | .acquire a port dur => { acq := some a, port := some port, duration := dur }

/-- The data of a loop (control_flow_library.py, `get_control_flow_info` of `LoopOperation`). -/
def loopData (n : Nat) : Data := { repetitions := some n }

/-- The data of a conditional (control_flow_library.py, `ConditionalOperation`; qblox_backend.py fills in the
address, see C16). -/
def condData (address : Nat) : Data := { trigger := some address }

namespace Spec

open Verif.Waves (Entry)

variable {K : Type}

/-- The memory has the samples `w` (up to the rounding of the hash to 12 decimals) at the index `n`, and nothing
else. -/
def Holds (tab : List (Entry K)) (n : Nat) (w : List Rat) : Prop :=
  ∃ e ∈ tab, e.index = n ∧ (∀ f ∈ tab, f.index = n → f = e) ∧ e.data.length = w.length ∧
    ∀ (k : Nat) (x : Rat), w[k]? = some x → ∃ y, e.data[k]? = some y ∧ |y - x| ≤ 1 / 1000000000000

/-- The value is at most half a step off, or a whole step at the upper end of the range. -/
def Near (n : Int) (x : Rat) : Prop := -32768 ≤ n ∧ n ≤ 32767 ∧ |(n : Rat) / 32768 - x| ≤ 1 / 32768 ∧
  (x ≤ 1 - 1 / 65536 → |(n : Rat) / 32768 - x| ≤ 1 / 65536)

/-- Acquisitions without weights. -/
def squareProtocols : List String := ["Trace", "SSBIntegrationComplex", "ThresholdedAcquisition"]

/-- Acquisitions with weights. -/
def weightedProtocols : List String := ["WeightedIntegratedSeparated", "NumericalSeparatedWeightedIntegration",
  "NumericalWeightedIntegration", "WeightedThresholdedAcquisition"]

/-- Acquisitions that count triggers. -/
def countProtocols : List String := ["TriggerCount", "ThresholdedTriggerCount"]

/-- Acquisitions of a QTM without scope. -/
def tagProtocols : List String :=
  ["DualThresholdedTriggerCount", "TriggerCount", "ThresholdedTriggerCount", "Timetag"]

/-- Acquisitions of a QTM with scope. -/
def scopeProtocols : List String := ["Trace", "TimetagTrace"]

/-- What an operation asks of a module: the instructions `es`, with times relative to its start, do that.  `mem` is
the memory of the sequencer, `f` the frequency of its oscillator at the start, `acqIndex` the index of an acquisition
channel. -/
def Asks (m : Mod) (mem : Mem K) (f : Option Rat) (acqIndex : String → Nat) : Lib → List Q1.Event → Prop
  | .wave re im _, es =>
    -- an analog module plays the waveforms, unless all samples are below a step
    m = .analog ∧
    ((es = [⟨0, .updParam, []⟩] ∧ (∀ x ∈ re, |x| < 1 / 32768) ∧ ∀ y ∈ im, |y| < 1 / 32768) ∨
    ∃ (gI gQ : Int) (a b : Nat), es = [⟨0, .setAwgGain, [gI, gQ]⟩, ⟨0, .play, [a, b]⟩] ∧
      Waves.Plays mem.awg gI a re ∧ Waves.Plays mem.awg gQ b im)
  | .offset x y _, es => m = .analog ∧ ∃ a b : Int, es = [⟨0, .setAwgOffs, [a, b]⟩] ∧ Near a x ∧ Near b y
  | .idle _, es => es = []
  | .shiftPhase deg, es =>
    match m with
    | .analog => (deg = 0 ∧ es = []) ∨ ∃ n : Int, es = [⟨0, .setPhDelta, [n]⟩] ∧ 0 ≤ n ∧ n ≤ 1000000000 ∧
        ∃ turns : Int, |deg - turns * 360 - n * (360 / 1000000000)| ≤ 360 / 1000000000 / 2
    | .timetag => es = []
  | .resetPhase, es => es = (if m = .analog then [⟨0, .resetPh, []⟩] else [])
  | .setFrequency new old, es =>
    match m with
    | .analog => ∃ (n : Int) (f0 o : Rat), f = some f0 ∧ old = some o ∧ es = [⟨0, .setFreq, [n]⟩] ∧
        |f0 + (match new with | some x => x - o | none => 0) - n / 4| ≤ 1 / 8
    | .timetag => es = []
  | .latchReset _ _, es => es = [⟨0, .latchRst, []⟩]
  | .timestamp _, es => m = .timetag ∧ es = [⟨0, .setTimeRef, []⟩]
  | .acquire a _ dur, es =>
    match m with
    | .analog =>
      (a.protocol ∈ squareProtocols ∧ ∃ bin, es = [⟨0, .acquire, [(acqIndex a.channel : Int), bin]⟩]) ∨
      (a.protocol ∈ weightedProtocols ∧ ∃ (bin : Int) (w0 w1 : List Rat) (n0 n1 : Nat), a.weights = [w0, w1] ∧
        es = [⟨0, .acquireWeighed, [(acqIndex a.channel : Int), bin, (n0 : Int), (n1 : Int)]⟩] ∧
        Holds mem.weights n0 w0 ∧ Holds mem.weights n1 w1) ∨
      (a.protocol ∈ countProtocols ∧ ∃ bin d : Int, |(d : Rat) - dur * 1000000000| ≤ 11 / 10000 ∧
        es = [⟨0, .acquireTtl, [(acqIndex a.channel : Int), bin, 1]⟩,
          ⟨d - 4, .acquireTtl, [(acqIndex a.channel : Int), bin, 0]⟩])
    | .timetag => ∃ bin d f0 f1 : Int, |(d : Rat) - dur * 1000000000| ≤ 11 / 10000 ∧
        |a.fineStart * 1000000000 - f0 / 128| ≤ 1 / 256 ∧ |a.fineEnd * 1000000000 - f1 / 128| ≤ 1 / 256 ∧
        ((a.protocol ∈ tagProtocols ∧ es = [⟨0, .acquireTimetags, [(acqIndex a.channel : Int), bin, 1, f0]⟩,
          ⟨d - 4, .acquireTimetags, [(acqIndex a.channel : Int), bin, 0, f1]⟩]) ∨
        (a.protocol ∈ scopeProtocols ∧ es = [⟨0, .setScopeEn, [1]⟩,
          ⟨0, .acquireTimetags, [(acqIndex a.channel : Int), bin, 1, f0]⟩,
          ⟨d - 4, .acquireTimetags, [(acqIndex a.channel : Int), bin, 0, f1]⟩, ⟨d, .setScopeEn, [0]⟩]))

/-- Operations that apply the parameters set before: pulses and acquisitions. -/
def Applies : Lib → Prop
  | .wave _ _ _ => True
  | .acquire _ _ _ => True
  | _ => False

/-- Operations that set parameters, which must be applied. -/
def Sets : Lib → Prop
  | .offset _ _ _ => True
  | .shiftPhase _ => True
  | .resetPhase => True
  | .setFrequency _ _ => True
  | .timestamp _ => True
  | _ => False

/-- Waveforms are not empty, and real and imaginary parts have the same length. -/
def Sampled : Lib → Prop
  | .wave re im _ => re ≠ [] ∧ im.length = re.length
  | _ => True

mutual
/-- A schedule of operations of the library, loops and conditionals. -/
def FromLib : Flatten.Op Data → Prop
  | .plain p => p.asm = none ∧ (∀ q ∈ p.pulses, ∃ lib : Lib, q.data = lib.data ∧ Sampled lib) ∧
      ∀ q ∈ p.acqs, ∃ lib : Lib, q.data = lib.data ∧ Sampled lib
  | .sched items => FromLibItems items
  | .ctl c _ body => ((∃ n, c.data = loopData n) ∨ ∃ a, c.data = condData a) ∧ FromLib body
/-- The same for the schedulables. -/
def FromLibItems : Flatten.Items Data → Prop
  | .nil => True
  | .cons _ _ op rest => FromLib op ∧ FromLibItems rest
end

/-- The bin modes that the modules support, by protocol. -/
def Compatible (m : Mod) (protocol : String) (b : BinMode) : Prop :=
  match m with
  | .analog =>
    ((protocol ∈ ["SSBIntegrationComplex", "ThresholdedAcquisition"] ∨ protocol ∈ weightedProtocols) ∧
      (b = .append ∨ b = .average)) ∨
    (protocol = "Trace" ∧ b = .average) ∨
    (protocol = "TriggerCount" ∧ (b = .append ∨ b = .sum ∨ b = .distribution)) ∨
    (protocol = "ThresholdedTriggerCount" ∧ b = .append)
  | .timetag =>
    (protocol = "TriggerCount" ∧ (b = .append ∨ b = .sum)) ∨
    (protocol ∈ ["ThresholdedTriggerCount", "DualThresholdedTriggerCount", "TimetagTrace"] ∧ b = .append) ∨
    (protocol = "Timetag" ∧ (b = .append ∨ b = .average)) ∨
    (protocol = "Trace" ∧ b = .first)

end Spec

end Verif.Strategies
