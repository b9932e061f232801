/-
Stitched pulses: quantify_scheduler/backends/qblox/operations/stitched_pulse.py:187-560
(`StitchedPulseBuilder`), quantify_scheduler/backends/qblox/operations/pulse_factories.py:25-320
and the replacement of long pulses in quantify_scheduler/backends/qblox_backend.py:110-238.

Simplifications:
* Times are exact rationals in nanoseconds, amplitudes exact rationals (pairs for I and Q).
* `reference_magnitude` is left out, and names of pulses.
* The builder's list of operations is the list of their `pulse_info` entries.
* Durations are positive (`num_whole_parts` would be negative for a negative one).
* `bisect_right` is modelled by what it returns on a sorted list.
-/
import Verif.Numeric.Model
import Mathlib.Data.Rat.Lemmas
import Mathlib.Algebra.Order.Ring.Rat

namespace Verif.Long

open Verif.Numeric (isClose)

/-- `to_grid_time` (helpers.py:225-273) of a time in nanoseconds. -/
def toGridTime (ns : Rat) (grid : Int) : Except Numeric.Err Int :=
  Numeric.toGridTime (ns / 1000000000) grid

/-- I and Q. -/
abbrev V := Rat × Rat

/-- Waveforms, `wf_func` with its parameters; `other` stands for any other function. -/
inductive Wave where
  | square (amp : V)
  | ramp (amp offset : Rat)
  | other (n : Nat)
deriving DecidableEq, Repr

/-- What an entry of `pulse_info` does. -/
inductive What where
  | wave (w : Wave)
  | offset (v : V)
  | nothing
deriving DecidableEq, Repr

/-- Port and clock. -/
abbrev PC := String × String

/-- An entry of `pulse_info`. -/
structure Info where
  pc : PC
  t0 : Rat
  dur : Rat
  what : What
deriving DecidableEq, Repr

/-- Exceptions. -/
inductive Err where
  | valueError
  | runtimeError
  | zeroDivision
deriving DecidableEq, Repr

/-! ### The builder -/

/-- `_VoltageOffsetInfo` (stitched_pulse.py:178-184). -/
structure Off where
  v : V
  t0 : Rat
  dur : Option Rat
deriving DecidableEq, Repr

/-- `t0 + (duration or 0.0)`. -/
def Off.stop (o : Off) : Rat := o.t0 + o.dur.getD 0

/-- `StitchedPulseBuilder` (187-222): the pulses and the offsets. -/
structure Builder where
  pulses : List Info
  offs : List Off
deriving DecidableEq, Repr

/-- `max(..., default=0)`. -/
def maxDefault : List Rat → Rat
  | [] => 0
  | a :: l => l.foldl max a

/-- `operation_end` (417-446). -/
def Builder.opEnd (b : Builder) : Rat :=
  max (maxDefault (b.pulses.map (fun p => p.t0 + p.dur)))
    (match b.offs.getLast? with
      | some o => o.stop
      | none => 0)

/-- `add_pulse` (277-337), for an operation that is a pulse. -/
def Builder.addPulse (b : Builder) (infos : List Info) (append : Bool) : Builder :=
  { b with pulses := b.pulses ++
      (if append then infos.map (fun p => { p with t0 := p.t0 + b.opEnd }) else infos) }

/-- `_get_offset_list_insertion_index` (521-566). -/
def insertionIndex (offs : List Off) (o : Off) : Except Err Nat :=
  if offs = [] then .ok 0
  else
    let next := (offs.takeWhile (fun x => decide (x.t0 ≤ o.t0))).length
    let overlap : Bool :=
      if next = 0 then
        match offs.head? with
        | some n => decide (n.t0 < o.stop)
        | none => false
      else if next = offs.length then
        match offs.getLast? with
        | some p => decide (o.t0 < p.stop)
        | none => false
      else
        (match offs[next]? with
          | some n => decide (n.t0 < o.stop)
          | none => false) ||
        (match offs[next - 1]? with
          | some p => decide (o.t0 < p.stop)
          | none => false)
    if overlap then .error .runtimeError else .ok next

/-- `add_voltage_offset` (339-415). -/
def Builder.addOffset (b : Builder) (v : V) (dur : Option Rat := none) (relTime : Rat := 0)
    (append : Bool := true) (minDur : Rat := 4) : Except Err Builder :=
  let relTime := if append then relTime + b.opEnd else relTime
  match dur with
  | some d =>
    if d < minDur then .error .valueError
    else match insertionIndex b.offs ⟨v, relTime, dur⟩ with
      | .error e => .error e
      | .ok i => .ok { b with offs := b.offs.take i ++ ⟨v, relTime, dur⟩ :: b.offs.drop i }
  | none => match insertionIndex b.offs ⟨v, relTime, dur⟩ with
      | .error e => .error e
      | .ok i => .ok { b with offs := b.offs.take i ++ ⟨v, relTime, dur⟩ :: b.offs.drop i }

/-- Reset the offset at `stop`, unless the next one starts then (508-517). -/
def resetAt (stop : Rat) (bg : V) : List Off → List (Rat × V)
  | [] => [(stop, bg)]
  | next :: _ => if isClose next.t0 stop then [] else [(stop, bg)]

/-- The loop of `_build_voltage_offset_operations` (497-517): background, offsets; the offsets set,
with their time. -/
def offsetLoop (opEnd : Rat) : V → List Off → List (Rat × V) × V
  | bg, [] => ([], bg)
  | bg, o :: rest =>
    match o.dur with
    | none =>
      let r := offsetLoop opEnd o.v rest
      ((o.t0, o.v) :: r.1, r.2)
    | some _ =>
      let bg := if isClose o.stop opEnd then (0, 0) else bg
      let r := offsetLoop opEnd bg rest
      ((o.t0, o.v) :: resetAt o.stop bg rest ++ r.1, r.2)

/-- `_build_voltage_offset_operations` (462-525). -/
def Builder.offsets (b : Builder) : List (Rat × V) :=
  if b.offs = [] then []
  else
    let r := offsetLoop b.opEnd (0, 0) b.offs
    r.1 ++ (if isClose r.2.1 0 && isClose r.2.2 0 then [] else [(b.opEnd, (0, 0))])

/-- `build` (568-588), with `_distribute_port_clock` and `_distribute_t0` (448-460); a
`VoltageOffset` has duration 0 (pulse_library.py:216-228). -/
def Builder.build (b : Builder) (pc : PC) (t0 : Rat) : List Info :=
  b.offsets.map (fun e => ⟨pc, e.1 + t0, 0, .offset e.2⟩) ++
    b.pulses.map (fun p => { p with pc := pc, t0 := p.t0 + t0 })

/-- The builder at the start. -/
def Builder.empty : Builder := ⟨[], []⟩

/-! ### Factories -/

/-- `long_square_pulse` (pulse_factories.py:25-106). -/
def longSquare (amp : V) (dur : Rat) (pc : PC) (t0 : Rat) : Except Err (List Info) :=
  if dur < 4 then .error .valueError
  else match Builder.empty.addOffset amp with
    | .error e => .error e
    | .ok b => match b.addOffset (0, 0) (relTime := dur - 4) with
      | .error e => .error e
      | .ok b => .ok ((b.addPulse [⟨pc, 0, 4, .wave (.square amp)⟩] true).build pc t0)

/-- `np.linspace(start, stop, n)`. -/
def linspace (start stop : Rat) (n : Nat) : List Rat :=
  (List.range n).map (fun k : Nat => if n = 1 then start else start + (k : Rat) * ((stop - start) / (n - 1)))

/-- The loop of `staircase_pulse` (184-191). -/
def stairLoop (step minTime : Rat) : List Rat → Builder → Except Err Builder
  | [], b => .ok b
  | a :: l, b => match b.addOffset (a, 0) (dur := some step) (minDur := minTime) with
    | .error e => .error e
    | .ok b => stairLoop step minTime l b

/-- `staircase_pulse` (109-218). -/
def staircase (start stop : Rat) (n : Nat) (dur : Rat) (pc : PC) (t0 : Rat) (minTime : Int := 4) :
    Except Err (List Info) :=
  if n = 0 then .error .zeroDivision
  else match toGridTime (dur / n) minTime with
    | .error _ => .error .valueError
    | .ok step =>
      let amps := linspace start stop n
      let last := amps.getLast?.getD 0
      match stairLoop step minTime amps.dropLast Builder.empty with
      | .error e => .error e
      | .ok b => match b.addOffset (last, 0) (dur := some ((step : Rat) - minTime))
            (minDur := minTime) with
        | .error e => .error e
        | .ok b => match b.addOffset (0, 0) with
          | .error e => .error e
          | .ok b =>
            .ok ((b.addPulse [⟨pc, 0, minTime, .wave (.square (last, 0))⟩] true).build pc t0)

/-- The loop of `long_ramp_pulse` (282-299). -/
def rampLoop (offset ampPart part : Rat) (pc : PC) : Nat → Rat → Builder →
    Except Err (Rat × Builder)
  | 0, v, b => .ok (v, b)
  | n + 1, v, b =>
    match (if v ≠ offset ∨ isClose offset 0 = false then b.addOffset (v, 0) else .ok b) with
    | .error e => .error e
    | .ok b =>
      rampLoop offset ampPart part pc n (v + ampPart)
        (b.addPulse [⟨pc, 0, part, .wave (.ramp ampPart 0)⟩] true)

/-- `long_ramp_pulse` (221-323). -/
def longRamp (amp : Rat) (dur : Rat) (pc : PC) (offset : Rat) (t0 : Rat) (part : Nat) :
    Except Err (List Info) :=
  match toGridTime dur 1 with
  | .error _ => .error .valueError
  | .ok durNs =>
    if part = 0 then .error .zeroDivision
    else if durNs = 0 then .error .zeroDivision
    else
      let n := ((durNs - 1) / (part : Int)).toNat
      let ampPart := (part : Rat) / durNs * amp
      let durLeft := (durNs : Rat) - n * part
      let ampLeft := amp - n * ampPart
      match rampLoop offset ampPart part pc n offset Builder.empty with
      | .error e => .error e
      | .ok (last, b) =>
        match (if isClose last offset = false ∧ isClose (last - ampPart) 0 = false
            then b.addOffset (0, 0) else .ok b) with
        | .error e => .error e
        | .ok b =>
          .ok ((b.addPulse [⟨pc, 0, durLeft, .wave (.ramp ampLeft last)⟩] true).build pc t0)

/-! ### Replacement -/

/-- The specs and their factories (qblox_backend.py:218-235, 134-139, 176-186): `none` if no spec
matches. -/
def replacement (p : Info) : Option (Except Err (List Info)) :=
  match p.what with
  | .wave (.square amp) => if 100 ≤ p.dur then some (longSquare amp p.dur p.pc p.t0) else none
  | .wave (.ramp amp offset) =>
    if 2000 ≤ p.dur then some (longRamp amp p.dur p.pc offset p.t0 2000) else none
  | _ => none

/-- The loop over `reversed(range(len(pulse_info)))` (172-194): `pre` are the entries with a smaller
index (in reverse), `post` what follows. -/
def replaceLoop : List Info → List Info → Except Err (List Info)
  | [], post => .ok post
  | p :: pre, post =>
    match replacement p with
    | none => replaceLoop pre (p :: post)
    | some (.error e) => .error e
    | some (.ok new) => replaceLoop pre (post ++ new)

/-- `_replace_long_pulses_recursively` on an operation (168-196). -/
def replaceOp (infos : List Info) : Except Err (List Info) := replaceLoop infos.reverse []

mutual
/-- Operations and schedules; the operations of a schedule as a dictionary. -/
inductive Op where
  | plain (infos : List Info)
  | control (body : Op)
  | sched (ops : Ops)
/-- Operations of a schedule. -/
inductive Ops where
  | nil
  | cons (key : String) (op : Op) (rest : Ops)
end

mutual
/-- `_replace_long_pulses_recursively` (142-198). -/
def replaceRec : Op → Except Err Op
  | .plain infos => match replaceOp infos with
    | .error e => .error e
    | .ok infos => .ok (.plain infos)
  | .control body => match replaceRec body with
    | .error e => .error e
    | .ok body => .ok (.control body)
  | .sched ops => match replaceRecOps ops with
    | .error e => .error e
    | .ok ops => .ok (.sched ops)
/-- The loop over the operations (159-163). -/
def replaceRecOps : Ops → Except Err Ops
  | .nil => .ok .nil
  | .cons key op rest => match replaceRec op with
    | .error e => .error e
    | .ok op => match replaceRecOps rest with
      | .error e => .error e
      | .ok rest => .ok (.cons key op rest)
end

end Verif.Long
