/-
C47: concrete measurements, and what is wrong with some of them.
-/
import Verif.Experiments.MeasureProps2

namespace Verif.Experiments

open Verif.Timing (Err)

/-- 300 ns of readout pulse, 1 microsecond of integration, 100 ns of acquisition delay. -/
def exMeasure : MeasureArgs where
  pulseAmp := (1 / 4, 0)
  pulseDur := 300 / 1000000000
  port := "q0:res"
  gateAmp := none
  gatePort := none
  clock := "q0.ro"
  acqDur := 1000 / 1000000000
  acqDelay := 100 / 1000000000
  channel := 0
  channelOverride := none
  index := none
  protocol := none
  squarePulse := true
  append := none
  protocolDefault := "SSBIntegrationComplex"
  resetPhase := true
  weightsA := none
  weightsB := none
  samplingRate := none
  numPoints := .other
  freq := none
  nextDelay := 0

/-- What a measurement plays, if it can be made. -/
def measured (a : MeasureArgs) : Except Err (List (Rat × Rat × What)) :=
  match dispersiveMeasurement a with
  | .error e => .error e
  | .ok o =>
    match o.play with
    | .error e => .error e
    | .ok l => .ok (spans l)

/-- The hypotheses of `measure_timing`. -/
example : ∃ o, dispersiveMeasurement exMeasure = .ok o ∧
    exMeasure.protocol.getD exMeasure.protocolDefault ≠ "LongTimeTrace" ∧ exMeasure.freq = none ∧
    0 ≤ exMeasure.pulseDur := by
  refine ⟨_, rfl, by decide, rfl, by decide +kernel⟩

example : measured exMeasure = .ok
    [(0, 0, .resetPhase "q0.ro"),
     (0, 300 / 1000000000, .square (some (1 / 4, 0)) (some "q0:res") "q0.ro"),
     (100 / 1000000000, 1100 / 1000000000,
       .acquire "SSBIntegrationComplex" "q0:res" "q0.ro" 0 none false)] := by
  decide +kernel

/-- A measurement with a frequency of its own and without the acquisition delay for the next
operation: the frequency is set back 100 ns before the acquisition is over. -/
example : measured { exMeasure with freq := some 7000000000, nextDelay := -100 / 1000000000 } = .ok
    [(0, 0, .setFreq "q0.ro" (some 7000000000)),
     (0, 0, .resetPhase "q0.ro"),
     (0, 300 / 1000000000, .square (some (1 / 4, 0)) (some "q0:res") "q0.ro"),
     (100 / 1000000000, 1100 / 1000000000,
       .acquire "SSBIntegrationComplex" "q0:res" "q0.ro" 0 none false),
     (1000 / 1000000000, 1000 / 1000000000, .setFreq "q0.ro" none)] := by
  decide +kernel

/-- If `LongTimeTrace` is the default of the element and no protocol is given, the readout pulse is
played as well as the voltage offset. -/
example : measured { exMeasure with protocolDefault := "LongTimeTrace", append := some true,
                                    numPoints := .int 2 } = .ok
    [(0, 0, .resetPhase "q0.ro"),
     (0, 300 / 1000000000, .square (some (1 / 4, 0)) (some "q0:res") "q0.ro"),
     (300 / 1000000000, 300 / 1000000000, .offset (1 / 4) 0 "q0:res" "q0.ro"),
     (400 / 1000000000, 400 / 1000000000, .resetPhase "q0.ro"),
     (400 / 1000000000, 1400 / 1000000000,
       .acquire "SSBIntegrationComplex" "q0:res" "q0.ro" 0 none true),
     (1400 / 1000000000, 1400 / 1000000000, .resetPhase "q0.ro"),
     (1400 / 1000000000, 2400 / 1000000000,
       .acquire "SSBIntegrationComplex" "q0:res" "q0.ro" 0 none true),
     (2400 / 1000000000, 2400 / 1000000000, .offset 0 0 "q0:res" "q0.ro"),
     (2400 / 1000000000, 2404 / 1000000000, .idle)] := by
  decide +kernel

/-- The hypotheses of `measure_long_time_trace`; the channel of the element is not used. -/
example : measured { exMeasure with protocol := some "LongTimeTrace", append := some true,
                                    numPoints := .int 1, channel := 3 } = .ok
    [(0, 0, .offset (1 / 4) 0 "q0:res" "q0.ro"),
     (100 / 1000000000, 100 / 1000000000, .resetPhase "q0.ro"),
     (100 / 1000000000, 1100 / 1000000000,
       .acquire "SSBIntegrationComplex" "q0:res" "q0.ro" 0 none true),
     (1100 / 1000000000, 1100 / 1000000000, .offset 0 0 "q0:res" "q0.ro"),
     (1100 / 1000000000, 1104 / 1000000000, .idle)] := by
  decide +kernel

/-- A trace is averaged, also if appending was asked for. -/
example : measured { exMeasure with protocol := some "Trace", append := some true } = .ok
    [(0, 0, .resetPhase "q0.ro"),
     (0, 300 / 1000000000, .square (some (1 / 4, 0)) (some "q0:res") "q0.ro"),
     (100 / 1000000000, 1100 / 1000000000,
       .acquire "Trace" "q0:res" "q0.ro" 0 none false)] := by
  decide +kernel

/-- Two elements measured together with different acquisition delays and
`apply_acquisition_delay=False`: the first integrates from 100 ns for 100 ns, the second from 0 for
190 ns. The next operation starts at 100 ns, before the 190 ns of the second are over, though the
comment in the code says that it starts after the longest integration window. -/
theorem multiplexed_next_too_early : ∃ o p, dispersiveMeasurement { exMeasure with
      pulseDur := 100 / 1000000000, acqDur := 100 / 1000000000, nextDelay := -100 / 1000000000 } = .ok o ∧
    dispersiveMeasurement { exMeasure with
      pulseDur := 100 / 1000000000, acqDur := 190 / 1000000000, acqDelay := 0, port := "q1:res",
      clock := "q1.ro" } = .ok p ∧
    (multiplexed [o, p]).duration = .ok (200 / 1000000000) ∧
    (multiplexed [o, p]).delay = some (-100 / 1000000000) := by
  refine ⟨_, _, rfl, rfl, by decide +kernel, by decide +kernel⟩

/-- Two elements with the same delay: 190 ns after the start, as it should be. -/
example : ∃ o p, dispersiveMeasurement { exMeasure with
      pulseDur := 100 / 1000000000, acqDur := 100 / 1000000000, nextDelay := -100 / 1000000000 } = .ok o ∧
    dispersiveMeasurement { exMeasure with
      pulseDur := 100 / 1000000000, acqDur := 190 / 1000000000, nextDelay := -100 / 1000000000 } = .ok p ∧
    (multiplexed [o, p]).duration = .ok (290 / 1000000000) ∧
    (multiplexed [o, p]).delay = some (-100 / 1000000000) := by
  refine ⟨_, _, rfl, rfl, by decide +kernel, by decide +kernel⟩

/-- An optical measurement whose acquisition starts 50 ns before its two pulses. -/
example : ∃ o, opticalMeasurement
      { amps := [1 / 2, 1 / 4], durs := [100 / 1000000000, 200 / 1000000000], ports := ["g", "r"],
        clocks := ["g.ge0", "r.ge0"], acqDur := 300 / 1000000000, acqDelay := -50 / 1000000000,
        acqPort := "apd", acqClock := "apd.c", channel := 0, channelOverride := some 2, index := none,
        append := none, protocol := none, protocolDefault := "TriggerCount", squarePulse := true } = .ok o ∧
    (match o.play with
      | .ok l => spans l
      | .error _ => []) =
      [(50 / 1000000000, 150 / 1000000000, .square (some (1 / 2, 0)) (some "g") "g.ge0"),
       (50 / 1000000000, 250 / 1000000000, .square (some (1 / 4, 0)) (some "r") "r.ge0"),
       (0, 300 / 1000000000, .acquire "TriggerCount" "apd" "apd.c" 2 none true)] := by
  exact ⟨_, rfl, by decide +kernel⟩

end Verif.Experiments
