/-
Conversion of a pulse with voltage offsets to a numerical pulse: `convert_to_numerical_pulse`
(quantify_scheduler/backends/qblox/operations/stitched_pulse.py:91-185).

Simplifications:
* Times are exact rationals in nanoseconds, rates in samples per nanosecond, amplitudes exact rationals
  (pairs for I and Q).  Entries of `pulse_info` are those of `Verif.Long`: an entry has a waveform, or
  the keys `offset_path_I` and `offset_path_Q`, or neither; its name and its reference magnitude are left out.
* The rate is positive.
* Of an operation's `acquisition_info`, only the ends are modelled, and that there is any.
-/
import Verif.Long.Model
import Verif.Common.StableSort

namespace Verif.Sampled

open Verif.Long (Info V PC maxDefault Wave What)
open Verif.Numeric (pyRound)

/-- Exceptions. -/
inductive Err where
  | valueError
  | indexError
deriving DecidableEq, Repr

/-- An operation: its `pulse_info`, the ends `t0 + duration` of its `acquisition_info`, and whether
there is `gate_info`. -/
structure Operation where
  pulses : List Info
  acqEnds : List Rat
  gate : Bool
deriving DecidableEq, Repr

/-- `Operation.duration` (operations/operation.py:131-157). -/
def Operation.duration (op : Operation) : Rat :=
  maxDefault (op.pulses.map (fun p => p.t0 + p.dur) ++ op.acqEnds)

/-- `min(p_i["t0"] for p_i in operation["pulse_info"])` (129), for at least one entry. -/
def firstStart : List Info → Rat
  | [] => 0
  | p :: l => l.foldl (fun m q => min m q.t0) p.t0

/-- `timestamps` (131-134), in nanoseconds. -/
def timestamps (t0 dur rate : Rat) : List Int :=
  (List.range (pyRound (dur * rate) + 1).toNat).map (fun k : Nat => pyRound (t0 + (k : Rat) / rate))

/-- `waveform[np.where(sel)] = v`. -/
def assign (ts : List Int) (sel : Int → Bool) (v : V) (w : List V) : List V :=
  List.zipWith (fun t x => if sel t then v else x) ts w

/-- `math.isclose(duration, 0, abs_tol=5e-10)` (145): at most half a nanosecond. -/
def isZero (d : Rat) : Bool := decide (-(1 / 2) ≤ d ∧ d ≤ 1 / 2)

/-- One turn of the loop over offsets (139-153). -/
def setOffset (opDur : Rat) (ts : List Int) (w : List V) (p : Info) : List V :=
  match p.what with
  | .offset v =>
    let t0 := pyRound p.t0
    if isZero p.dur then
      if pyRound opDur = t0 then w
      else assign ts (fun t => decide (t0 ≤ t)) v w
    else
      let t1 := pyRound (p.t0 + p.dur)
      assign ts (fun t => decide (t0 ≤ t ∧ t < t1)) v w
  | _ => w

/-- `waveform[np.where(sel)] += data`, for data of the right length. -/
def addData (sel : Int → Bool) : List Int → List V → List V → List V
  | t :: ts, x :: w, data =>
    if sel t then
      match data with
      | d :: data => (x + d) :: addData sel ts w data
      | [] => x :: addData sel ts w []
    else x :: addData sel ts w data
  | _, w, _ => w

/-- `helpers.generate_waveform_data` (helpers.py:46-89); `other` gives the values of waveforms other than
square and ramp (waveforms.py:24-45). -/
def samplesOf (other : Nat → Rat → V) (rate dur : Rat) (w : Wave) : List V :=
  (List.range (pyRound (dur * rate)).toNat).map (fun k : Nat =>
    let t := (k : Rat) / rate
    match w with
    | .square amp => amp
    | .ramp amp offset => (amp / dur * t + offset, 0)
    | .other n => other n t)

/-- One turn of the loop over pulses (156-165).  NumPy refuses arrays of different lengths, except that
a single value is added everywhere. -/
def addPulse (other : Nat → Rat → V) (rate : Rat) (ts : List Int) (w : List V) (p : Info) :
    Except Err (List V) :=
  match p.what with
  | .wave f =>
    let data := samplesOf other rate p.dur f
    let t0 := pyRound p.t0
    let t1 := pyRound (p.t0 + p.dur)
    let sel := fun t : Int => decide (t0 ≤ t ∧ t < t1)
    let n := (ts.filter sel).length
    if data.length = n then .ok (addData sel ts w data)
    else match data with
      | [d] => .ok (addData sel ts w (List.replicate n d))
      | _ => .error .valueError
  | _ => .ok w

/-- The `pulse_info` of a `NumericalPulse` (operations/pulse_library.py:1072-1106). -/
structure Numerical where
  pc : PC
  t0 : Rat
  dur : Rat
  samples : List V
  tSamples : List Rat
deriving DecidableEq, Repr

/-- The result: the operation as it is (126-127), a `NumericalPulse`, or the operation with the
`pulse_info` of one (177-182). -/
inductive Result where
  | same
  | numerical (p : Numerical)
  | replaced (p : Numerical)
deriving DecidableEq, Repr

/-- `convert_to_numerical_pulse` (91-182). -/
def convert (other : Nat → Rat → V) (op : Operation) (scheduledAt : Rat := 0) (rate : Rat := 1) :
    Except Err Result :=
  match op.pulses with
  | [] => .ok .same
  | first :: _ =>
    let t0 := firstStart op.pulses
    let ts := timestamps t0 op.duration rate
    let w := (StableSort.sortBy Info.t0 op.pulses).foldl (setOffset op.duration ts)
      (ts.map (fun _ => 0))
    match op.pulses.foldlM (addPulse other rate ts) w with
    | .error e => .error e
    | .ok w =>
      let tSamples := ts.map (fun t : Int => (t : Rat) + scheduledAt)
      match tSamples.head?, tSamples.getLast? with
      | some a, some b =>
        let p : Numerical := ⟨first.pc, t0, b - a, w, tSamples⟩
        .ok (if op.acqEnds ≠ [] ∨ op.gate = true then .replaced p else .numerical p)
      | _, _ => .error .indexError

end Verif.Sampled
