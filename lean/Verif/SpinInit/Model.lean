/-
Model of `spin_init_pulse`
(/repo/quantify_scheduler/operations/pulse_factories.py, lines 378-438), and of the times that the
absolute-timing pass (`Verif.Timing`) gives to the pulses of the schedule it returns.

Simplifications: numbers are exact rationals; the labels that `Schedule.add` invents are the
indices 0, 1, 2, 3; of the information in a pulse the entries that are the same for all pulses
here (`reference_magnitude` none, `offset` 0, `t0` 0) are left out.
-/
import Verif.Timing.Model
import Mathlib.Algebra.Order.Group.Unbundled.Abs

namespace Verif.SpinInit

open Verif.Timing

/-- The arguments of `spin_init_pulse` for one of the two elements (pulse_factories.py:381-390). -/
structure Side where
  port : String
  clock : String
  squareAmp : Rat
  rampAmp : Rat
  rampRate : Rat
deriving DecidableEq, Repr

/-- The arguments of `spin_init_pulse` (pulse_factories.py:378-391). -/
structure Args where
  squareDuration : Rat
  rampDiff : Rat
  parent : Side
  child : Side
deriving DecidableEq, Repr

/-- `SquarePulse` and `RampPulse` (pulse_library.py:299-323 and 485-504): the `pulse_info`. -/
inductive Pulse where
  | square (amp dur : Rat) (port clock : String)
  | ramp (amp dur : Rat) (port clock : String)
deriving DecidableEq, Repr

/-- The duration in the `pulse_info`. -/
def Pulse.dur : Pulse → Rat
  | .square _ d _ _ => d
  | .ramp _ d _ _ => d

/-- The Python exceptions: of the factory (a division by zero), and of the timing pass. -/
inductive Fail where
  | zeroDivision
  | timing (e : Err)
deriving DecidableEq, Repr

/-- Python division (pulse_factories.py:419 and 430). -/
def pyDiv (x y : Rat) : Except Fail Rat :=
  if y = 0 then .error .zeroDivision else .ok (x / y)

/-- `spin_init_pulse` (pulse_factories.py:393-438): the pulses in the order in which they are
added, with `ref_pt` and `rel_time` (`ref_op` and `ref_pt_new` are not given). -/
def spinInit (a : Args) : Except Fail (List (Pulse × Option RefPt × Rat)) :=
  let ps := Pulse.square a.parent.squareAmp a.squareDuration a.parent.port a.parent.clock
  let cs := Pulse.square a.child.squareAmp a.squareDuration a.child.port a.child.clock
  let parentRel := |min a.rampDiff 0|
  match pyDiv a.parent.rampAmp a.parent.rampRate with
  | .error e => .error e
  | .ok dp =>
    match pyDiv a.child.rampAmp a.child.rampRate with
    | .error e => .error e
    | .ok dc =>
      .ok [(ps, none, 0), (cs, some .start, 0),
        (.ramp a.parent.rampAmp dp a.parent.port a.parent.clock, some .stop, parentRel),
        (.ramp a.child.rampAmp dc a.child.port a.child.clock, some .start, a.rampDiff)]

/-- `Schedule.add` of these (schedules/schedule.py: `add` and `_add`, one timing constraint with
the given values): the schedulables, from label `n`. -/
def items : Nat → List (Pulse × Option RefPt × Rat) → List (Item Nat)
  | _, [] => []
  | n, (p, pt, rel) :: r =>
    { key := n, dur := p.dur, delay := none, cons := [⟨none, pt, none, rel⟩], abs := none }
      :: items (n + 1) r

/-- The pulses of the schedule with the times that the timing pass gives them
(compilation.py:116-184, which also times schedules inside schedules). -/
def play (strat : Strategy) (a : Args) : Except Fail (List (Pulse × Option Rat)) :=
  match spinInit a with
  | .error e => .error e
  | .ok l =>
    match timing strat (items 0 l) with
    | .error e => .error (.timing e)
    | .ok out => .ok ((l.map (·.1)).zip (out.map (·.abs)))

end Verif.SpinInit
