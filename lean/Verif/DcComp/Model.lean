/-
Model of two helpers for square pulses: `create_dc_compensation_pulse`
(operations/pulse_library.py:890-1001, with `area_pulses` and `area_pulse`, helpers/waveforms.py:490-552) and
`decompose_long_square_pulse` (operations/pulse_library.py:589-634).

Simplifications:
* Floats are exact rationals, but `nan` and `inf`, which the code can produce, are values of their own here.
* Waveforms are real.  The samples of a waveform other than a square are a function of the sampling rate given
  with it (`Verif.Shapes` models the waveforms themselves).
* Whether a number is one of Python or of numpy matters for the division by zero (an exception, or `inf` and
  `nan`): the area is one of numpy once a sampled waveform is in it.  `amp` and `duration` are numbers of Python.
* Of an operation there is `pulse_info` only, and the pulses in the body of a loop or conditional, which is kept
  apart from it (operations/control_flow_library.py:82-96: `pulse_info` of a control-flow operation is the empty
  list of `Operation.__init__`, operation.py:73).
-/
import Mathlib.Algebra.Order.Field.Rat
import Mathlib.Data.Rat.Floor

namespace Verif.DcComp

/-- Exceptions. -/
inductive Err where
  | valueError | zeroDivision | attributeError
deriving DecidableEq, Repr

/-- Numbers. -/
inductive Num where
  | fin (x : Rat)
  | inf
  | nan
deriving DecidableEq, Repr

/-- `wf_func`: the square with its `amp`, another function with its samples at a sampling rate, or `None`. -/
inductive Wf where
  | square (amp : Rat)
  | sampled (at_ : Rat → List Rat)
  | none

/-- An entry of `pulse_info`. -/
structure Info where
  port : Option String
  clock : String
  t0 : Rat
  dur : Rat
  wf : Wf
  /-- `reference_magnitude` -/
  ref : Option Nat

/-- An operation: its `pulse_info`, and for control flow the `pulse_info` of its body and how often it is
executed. -/
structure Op where
  infos : List Info
  body : List Info
  times : Nat

/-- The arguments and attributes of a `SquarePulse` (459-503). -/
structure Square where
  amp : Num
  dur : Num
  port : String
  clock : String
  ref : Option Nat
  t0 : Rat
deriving DecidableEq, Repr

/-- `BasebandClockResource.IDENTITY` (resources.py). -/
def baseband : String := "cl0.baseband"

/-- An area: `none` is `nan`; and whether it is a number of numpy. -/
abbrev Area := Option Rat × Bool

/-- `area_pulse` (helpers/waveforms.py:515-552).  The mean of no samples is `nan`; without a waveform function,
`wf_func.split` is an `AttributeError` (277). -/
def areaPulse (rate : Rat) (i : Info) : Except Err Area :=
  if ¬ rate > 0 then .error .valueError
  else match i.wf with
    | .square a => .ok (some (a * i.dur), false)
    | .none => .error .attributeError
    | .sampled f =>
      if f rate = [] then .ok (none, true)
      else .ok (some ((f rate).sum / (f rate).length * i.dur), true)

/-- `+` of areas. -/
def addArea (a b : Area) : Area :=
  (match a.1, b.1 with
   | some x, some y => some (x + y)
   | _, _ => none, a.2 || b.2)

/-- The loop of `area_pulses` (helpers/waveforms.py:509-512). -/
def areaPulses (rate : Rat) : List Info → Area → Except Err Area
  | [], a => .ok a
  | i :: is, a =>
    match areaPulse rate i with
    | .error e => .error e
    | .ok b => areaPulses rate is (addArea a b)

/-- `_extract_pulses` (949-962). -/
def extract (ops : List Op) (port : String) : List Info :=
  ops.flatMap (fun o => o.infos.filter (fun i => i.port == some port && i.clock == baseband))

/-- `-area / duration` for `duration > 0` (985). -/
def ampFor (a : Area) (duration : Rat) : Num :=
  match a.1 with
  | some x => .fin (-x / duration)
  | none => .nan

/-- `-abs(amp) if area > 0 else abs(amp)` (987). -/
def signed (a : Area) (amp : Rat) : Rat :=
  match a.1 with
  | some x => if x > 0 then -|amp| else |amp|
  | none => |amp|

/-- `abs(area / c_amp)` (988). -/
def durFor (a : Area) (amp : Rat) : Except Err Num :=
  if amp = 0 then
    if a.2 then
      match a.1 with
      | some x => if x = 0 then .ok .nan else .ok .inf
      | none => .ok .nan
    else .error .zeroDivision
  else
    match a.1 with
    | some x => .ok (.fin |x / amp|)
    | none => .ok .nan

/-- `create_dc_compensation_pulse` (890-1001); `_ref` is the argument `reference_magnitude`. -/
def create (ops : List Op) (rate : Rat) (port : String) (t0 : Rat) (amp : Option Rat) (_ref : Option Nat)
    (duration : Option Rat) : Except Err Square :=
  if ops.length = 0 then .error .valueError
  else
    match areaPulses rate (extract ops port) (some 0, false) with
    | .error e => .error e
    | .ok a =>
      match amp, duration with
      | none, some d =>
        if ¬ d > 0 then .error .valueError
        else .ok ⟨ampFor a d, .fin d, port, baseband, none, t0⟩
      | some m, none =>
        match durFor a (signed a m) with
        | .error e => .error e
        | .ok d => .ok ⟨.fin (signed a m), d, port, baseband, none, t0⟩
      | _, _ => .error .valueError

/-- `duration // duration_max` for `duration_max ≠ 0` (623). -/
def quot (x y : Rat) : Int := ⌊x / y⌋

/-- `duration % duration_max` for `duration_max ≠ 0` (622). -/
def rem (x y : Rat) : Rat := x - quot x y * y

/-- The limit of the first validator: a week (617). -/
def week : Rat := 7 * 24 * 3600

/-- The durations of the pulses of `decompose_long_square_pulse` (589-634); everything else is passed on to each
of them. -/
def decompose (duration max : Rat) (single : Bool) : Except Err (List Rat) :=
  if ¬ (0 ≤ duration ∧ duration ≤ week) then .error .valueError
  else if ¬ (0 ≤ max ∧ max ≤ duration) then .error .valueError
  else if max = 0 then .error .zeroDivision
  else
    let last := rem duration max
    let pulses := List.replicate (quot duration max).toNat max
    .ok (if last ≠ 0 then pulses ++ [if single then max else last] else pulses)

end Verif.DcComp
