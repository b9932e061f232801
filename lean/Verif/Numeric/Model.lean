/-
Conversions of physical values into the integers of sequencer instructions
(quantify_scheduler/backends/qblox/helpers.py, qasm_program.py).

Simplification: Python floats are exact rationals (`Rat`); NaN is modelled as `none`, which is
what `Frequencies.__post_init__` (helpers.py:370-376) makes of it.
-/
import Mathlib.Data.Rat.Floor

namespace Verif.Numeric

/-- Exceptions. -/
inductive Err where
  | valueError
deriving DecidableEq, Repr

/-- Python's `round(x)`: nearest integer, halves to the even one. -/
def pyRound (x : Rat) : Int :=
  if x - ⌊x⌋ < 1 / 2 then ⌊x⌋
  else if 1 / 2 < x - ⌊x⌋ then ⌊x⌋ + 1
  else if ⌊x⌋ % 2 = 0 then ⌊x⌋ else ⌊x⌋ + 1

/-- Python's `x % m` for floats and `m > 0`. -/
def pyMod (x m : Rat) : Rat := x - m * ⌊x / m⌋

/-- `constants.GRID_TIME_TOLERANCE_TIME` (constants.py). -/
def gridTolerance : Rat := 11 / 10000

/-- `to_grid_time` (helpers.py:225-273). -/
def toGridTime (time : Rat) (grid : Int) : Except Err Int :=
  let timeNs := time * 1000000000
  let n := pyRound timeNs
  if ¬ (|timeNs - n| ≤ gridTolerance) ∨ n % grid ≠ 0 then .error .valueError else .ok n

/-- `is_multiple_of_grid_time` (helpers.py:276-301). -/
def isMultipleOfGridTime (time : Rat) (grid : Int) : Bool :=
  match toGridTime time grid with
  | .ok _ => true
  | .error _ => false

/-- `get_nco_phase_arguments` (helpers.py:304-322), `NCO_PHASE_STEPS_PER_DEG = 1e9 / 360`. -/
def ncoPhase (deg : Rat) : Int := pyRound (pyMod deg 360 * (1000000000 / 360))

/-- `get_nco_set_frequency_arguments` (helpers.py:325-359), 4 steps per Hz, limit 2e9 steps. -/
def ncoFreq (hz : Rat) : Except Err Int :=
  let steps := pyRound (hz * 4)
  if steps < -2000000000 ∨ steps > 2000000000 then .error .valueError else .ok steps

/-- `expand_awg_from_normalised_range` (qasm_program.py:347-390). -/
def expandAwg (val : Rat) (size : Int) : Except Err Int :=
  if |val| > 1 then .error .valueError
  else .ok (max (-(size / 2)) (min (pyRound (val * (size / 2 : Int))) (size / 2 - 1)))

/-- `convert_qtm_fine_delay_to_int` (helpers.py:1551-1563); the maximum is
`((1 << 11) - 1) / 128 * 128`. -/
def fineDelay (d : Rat) : Except Err Int :=
  let n := pyRound (d * 128000000000)
  if ¬ (0 ≤ n ∧ (n : Rat) ≤ 2047 / 128 * 128) then .error .valueError else .ok n

/-- `math.isclose` with its defaults: relative tolerance 1e-9. -/
def isClose (a b : Rat) : Bool := |a - b| ≤ 1 / 1000000000 * max |a| |b|

/-- `Frequencies` / `ValidatedFrequencies` (helpers.py:362-387). -/
structure Freqs where
  clock : Rat
  lo : Rat
  fi : Rat
deriving DecidableEq, Repr

/-- `_downconvert_clock` and its use (helpers.py:446-472); warnings are left out. -/
def downconvert (dc : Option Rat) (clock : Rat) : Except Err Rat :=
  match dc with
  | none => .ok clock
  | some d =>
    if d < 0 then .error .valueError
    else if d < clock then .error .valueError
    else .ok (d - clock)

/-- The `mix_lo` case distinction (helpers.py:473-501). -/
def completeFreqs (clock : Rat) (lo fi : Option Rat) (mixLo : Bool) : Except Err Freqs :=
  if !mixLo then
    match fi with
    | none => .error .valueError
    | some i => .ok ⟨clock, clock, i⟩
  else
    match lo, fi with
    | none, none => .error .valueError
    | some l, some i => if isClose (l + i) clock then .ok ⟨clock, l, i⟩ else .error .valueError
    | none, some i => .ok ⟨clock, clock - i, i⟩
    | some l, none => .ok ⟨clock, l, clock - l⟩

/-- `determine_clock_lo_interm_freqs` (helpers.py:389-503). -/
def determineFreqs (clock : Rat) (lo fi dc : Option Rat) (mixLo : Bool) : Except Err Freqs :=
  (downconvert dc clock).bind (fun c => completeFreqs c lo fi mixLo)

end Verif.Numeric
