/-
Pulse diagrams (quantify_scheduler/schedules/_visualization/pulse_diagram.py:75-452).

Simplifications:
* Floats are rationals; complex numbers are pairs.
* `modulation="off"`.
* Schedules are those of the timing table (`Verif.Table`); an entry of `pulse_info` or `acquisition_info` has a port, a
  clock and a shape.  A waveform function is a function of the time since the start of the pulse.
* The result is given for each port separately; labels are left out.
* `combine_waveforms_on_same_port` is not modelled.
-/
import Verif.Table.Model
import Mathlib.Data.Rat.Floor

namespace Verif.Diagram

open Verif.Table (Op Items Row Info)

/-- Complex numbers. -/
abbrev C := Rat × Rat

/-- Exceptions. -/
inductive Err where
  | keyError | typeError | stopIteration
deriving DecidableEq, Repr

/-- What a pulse plays: a waveform function (`linear` for `square` and `ramp`), a `NumericalPulse` (which depends on
`t_samples`), a voltage offset, nothing. -/
inductive Shape where
  | wave (linear : Bool) (f : Rat → C)
  | numerical (ts : List Rat) (f : List Rat → Rat → C)
  | offset (v : C)
  | none

/-- Port, clock and shape of an entry. -/
structure Piece where
  port : Option String
  clock : Option String
  shape : Shape

/-- The rows of the entries of an operation that are on one of the ports (344-381); `k` is the index of the first. -/
def infoRows (ports : Option (List String)) (name : String) (id : Option String) (offset : Rat) :
    Nat → List (Info Piece) → List (Row Piece)
  | _, [] => []
  | k, i :: rest =>
    if ports.all fun l => i.data.port.any fun p => decide (p ∈ l) then
      ⟨name, k, id, offset + i.t0, i.duration, i.acq, i.data⟩ :: infoRows ports name id offset (k + 1) rest
    else infoRows ports name id offset (k + 1) rest

/-- One after the other, up to the first exception. -/
def concat {α : Type} : List (Except Err (List α)) → Except Err (List α)
  | [] => .ok []
  | x :: rest =>
    match x with
    | .error e => .error e
    | .ok a =>
      match concat rest with
      | .error e => .error e
      | .ok b => .ok (a ++ b)

mutual
/-- `_extract_schedule_infos` (308-381): the acquisitions (`acqs`), or the pulses and offsets. -/
def extract (acqs : Bool) (ports : Option (List String)) : Op Piece → Rat → Option String → Except Err (List (Row Piece))
  | .plain name pulses acquisitions, offset, id =>
    .ok (infoRows ports name id offset 0 (if acqs then acquisitions else pulses))
  | .sched _ items, offset, _ => extractItems acqs ports items offset
  | .loop n body, offset, id =>
    concat ((List.range n).map fun (i : Nat) =>
      match body.duration with
      | none => .error .typeError
      | some d => extract acqs ports body (offset + (i : Rat) * d) id)
  | .cond _ body, offset, id => extract acqs ports body offset id
/-- The loop over the schedulables (316-327). -/
def extractItems (acqs : Bool) (ports : Option (List String)) : Items Piece → Rat → Except Err (List (Row Piece))
  | .nil, _ => .ok []
  | .cons id time op rest, offset =>
    match time with
    | none => .error .keyError
    | some t =>
      match extract acqs ports op (offset + t) (some id) with
      | .error e => .error e
      | .ok a =>
        match extractItems acqs ports rest offset with
        | .error e => .error e
        | .ok b => .ok (a ++ b)
end

/-- Points of a curve. -/
abbrev Points := List (Rat × C)

/-- `t_samples` are shifted so that they start at 0 (239-246); this changes the operation. -/
def shiftSamples (ts : List Rat) : List Rat := ts.map fun t => t - ts.headD 0

/-- The first two and the last two. -/
def ends {α : Type} (l : List α) : List α := l.take 2 ++ l.drop (l.length - 2)

/-- `max(x_min, t0)` (233). -/
def left (lo : Option Rat) (start : Rat) : Rat :=
  match lo with
  | none => start
  | some x => max x start

/-- `min(x_max, t1)` (234). -/
def right (hi : Option Rat) (stop : Rat) : Rat :=
  match hi with
  | none => stop
  | some x => min x stop

/-- `n` samples from `a` (236, 247-263), with a point at the end and zeros around them. -/
def curve (rate a : Rat) (n : Nat) (f : Rat → C) : Points :=
  let last := a + ((n - 1 : Nat) : Rat) / rate + 99 / 100 / rate
  let ts := (List.range n).map (fun (k : Nat) => a + (k : Rat) / rate) ++ [last]
  (a - 1 / 100 / rate, (0, 0)) :: ts.map (fun t => (t, f (t - a))) ++ [(last + 1 / 100 / rate, (0, 0))]

/-- The curve of a pulse (224-284); `lo` and `hi` are `x_range`, `none` if infinite. -/
def samplePulse (rate : Rat) (lo hi : Option Rat) (start duration : Rat) (linear : Bool) (f : Rat → C) : Option Points :=
  if (lo.any fun x => decide (start + duration < x)) || (hi.any fun x => decide (x < start)) then none
  else
    let n := ⌈(right hi (start + duration) - 1 / 2 / rate - left lo start) * rate⌉.toNat
    if n = 0 then none
    else
      let points := curve rate (left lo start) n f
      some (if linear then ends points else points)

/-- The waveform function of a shape, and whether it is linear; offsets have none. -/
def waveOf : Shape → Option (Bool × (Rat → C))
  | .wave l f => some (l, f)
  | .numerical ts f => some (false, f (shiftSamples ts))
  | _ => none

/-- The shape of an operation after its pulse has been drawn. -/
def afterDrawing : Shape → Shape
  | .numerical ts f => .numerical (shiftSamples ts) f
  | s => s

/-- The pulses of a port (`get_sampled_pulses`, 172-285). -/
def pulsesOn (rate : Rat) (lo hi : Option Rat) (port : String) (rows : List (Row Piece)) : List Points :=
  rows.filterMap fun r =>
    if r.data.port = some port then
      match waveOf r.data.shape with
      | none => none
      | some (l, f) => samplePulse rate lo hi r.time r.duration l f
    else none

/-- The offsets of a port and clock: times and values, in the order of the schedule. -/
def offsetsOn (port : String) (clock : Option String) (rows : List (Row Piece)) : Points :=
  rows.filterMap fun r =>
    if r.data.port = some port ∧ r.data.clock = clock then
      match r.data.shape with
      | .offset v => some (r.time, v)
      | _ => none
    else none

/-- The points of the offsets after the first (127-137); `v` is the value before. -/
def offsetTail (ε : Rat) : C → Points → Points
  | _, [] => []
  | v, (t, w) :: rest => (t - ε, v) :: (t, w) :: offsetTail ε w rest

/-- The last value runs to the end of the schedule, unless it is 0 (138-141). -/
def closeAt (stop : Rat) (l : Points) : Points :=
  match l.getLast? with
  | some (_, v) => if v ≠ (0, 0) then l ++ [(stop, v)] else l
  | none => l

/-- The points between the limits, with one before and one after (143-154). -/
def window (lo hi : Option Rat) (l : Points) : Except Err Points :=
  match l.findIdx? fun p => lo.all fun x => decide (x < p.1) with
  | none => .error .stopIteration
  | some i =>
    let j := match l.findIdx? fun p => hi.any fun x => decide (x < p.1) with
      | none => l.length
      | some j => j + 1
    .ok ((l.take j).drop (i - 1))

/-- The curve of the offsets of a port and clock (`get_sampled_pulses_from_voltage_offsets`, 122-169); `stop` is the duration
of one repetition of the schedule, `ε` is 0.01 / `sampling_rate`. -/
def sampleOffsets (ε : Rat) (lo hi : Option Rat) (stop : Rat) (offsets : Points) : Except Err Points :=
  match offsets with
  | [] => .ok []
  | (t, v) :: rest => window lo hi (closeAt stop ((t, v) :: offsetTail ε v rest))

/-- The acquisitions of a port (`get_sampled_acquisitions`, 288-311): start and duration. -/
def acqsOn (port : String) (rows : List (Row Piece)) : List (Rat × Rat) :=
  rows.filterMap fun r => if r.data.port = some port then some (r.time, r.duration) else none

end Verif.Diagram
