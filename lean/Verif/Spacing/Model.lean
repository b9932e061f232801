/-
Checks of the time between operations of a sequencer
(quantify_scheduler/backends/qblox/timetag.py:158-243, analog.py:436-460).

Simplification: floats are rationals.
-/
import Verif.Numeric.Model
import Verif.Common.StableSort

namespace Verif.Spacing

open Verif.Numeric (pyRound)
open Verif.StableSort (sortBy)

/-- Exceptions. -/
inductive Err where
  | fineDelayWithin | fineDelayBetween | ncoOperationTiming
deriving DecidableEq, Repr

/-! ### Fine delays of a QTM -/

/-- Strategies that are told apart: `DigitalPulseStrategy`, `TimetagAcquisitionStrategy`, others. -/
inductive FKind where
  | pulse | acq | other
deriving DecidableEq, Repr

/-- An operation: start, duration and fine delays in seconds. -/
structure FOp where
  kind : FKind
  timing : Rat
  duration : Rat
  fineStart : Rat
  fineEnd : Rat
deriving DecidableEq, Repr

/-- The loop of `_assert_fine_delays_executable` (timetag.py:158-243); `lp` is `last_digital_pulse_end_ps` and `la`
is `last_acquisition_end_ps`. -/
def fineLoop : Int → Int → List FOp → Except Err Unit
  | _, _, [] => .ok ()
  | lp, la, o :: rest =>
    let fs := pyRound (o.fineStart * 1000000000000)
    let fe := pyRound (o.fineEnd * 1000000000000)
    let dur := pyRound (o.duration * 1000000000) * 1000
    let start := pyRound (o.timing * 1000000000) * 1000
    match o.kind with
    | .other => fineLoop lp la rest
    | .pulse =>
      if (fe - fs) % 1000 ≠ 0 ∧ dur + fe - fs < 7000 then .error .fineDelayWithin
      else if (lp - fs) % 1000 ≠ 0 ∧ start + fs - lp < 7000 then .error .fineDelayBetween
      else fineLoop (start + dur + fe) la rest
    | .acq =>
      if (fe - fs) % 1000 ≠ 0 ∧ dur + fe - fs < 7000 then .error .fineDelayWithin
      else if (la - fs) % 1000 ≠ 0 ∧ start + fs - la < 7000 then .error .fineDelayBetween
      else fineLoop lp (start + dur + fe) rest

/-- `_assert_fine_delays_executable` (timetag.py:158-243). -/
def fineCheck (ops : List FOp) : Except Err Unit := fineLoop (-7000) (-7000) ops

/-! ### Updates of the numerically controlled oscillator -/

/-- Strategies that are told apart: `NcoSetClockFrequencyStrategy`, `NcoPhaseShiftStrategy`,
`NcoResetClockPhaseStrategy`, others. -/
inductive NKind where
  | frequency | phaseShift | resetPhase | other
deriving DecidableEq, Repr

/-- An operation; `time` is on the grid, in ns. -/
structure NOp where
  time : Int
  kind : NKind
deriving DecidableEq, Repr

/-- `check_timing` (analog.py:441-450); `none` is minus infinity. -/
def checkTiming (time : Int) : Option Int → Except Err Int
  | none => .ok time
  | some last => if time - last < 4 then .error .ncoOperationTiming else .ok time

/-- The loop of `_assert_enough_time_between_freq_phase_updates` (analog.py:452-460). -/
def ncoLoop : Option Int → Option Int → List NOp → Except Err Unit
  | _, _, [] => .ok ()
  | f, p, o :: rest =>
    match o.kind with
    | .frequency =>
      match checkTiming o.time f with
      | .error e => .error e
      | .ok f' => ncoLoop (some f') p rest
    | .phaseShift | .resetPhase =>
      match checkTiming o.time p with
      | .error e => .error e
      | .ok p' => ncoLoop f (some p') rest
    | .other => ncoLoop f p rest

/-- `_assert_enough_time_between_freq_phase_updates` of the ordered operations (analog.py:426, 436-460). -/
def ncoCheck (ops : List NOp) : Except Err Unit := ncoLoop none none (sortBy NOp.time ops)

end Verif.Spacing
