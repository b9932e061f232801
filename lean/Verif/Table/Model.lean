/-
The timing table and the duration of a schedule (quantify_scheduler/schedules/schedule.py:459-512, 603-655;
operations/operation.py:126-157; operations/control_flow_library.py:104-107, 197-203).

Simplifications:
* Floats are rationals.
* Port, clock and everything else of a pulse or acquisition is an arbitrary type `D`; `acq` says whether its description
  has the key `acq_channel` or `bin_mode`.
* A schedulable holds its operation (`operations[operation_id]`).
* `sort_values` does not keep the order of rows with the same time: the table is any permutation that is in the order of
  time.
-/
import Mathlib.Algebra.Order.Field.Rat

namespace Verif.Table

/-- Exceptions. -/
inductive Err where
  | valueError | typeError
deriving DecidableEq, Repr

/-- An entry of `pulse_info` or `acquisition_info`. -/
structure Info (D : Type) where
  t0 : Rat
  duration : Rat
  acq : Bool
  data : D
deriving DecidableEq, Repr

mutual
/-- Operations and schedules.  `sched d items`: `d` is the value of `"duration"`, if it was computed.
`cond b body`: `b` is `hardware_buffer_time`. -/
inductive Op (D : Type) where
  | plain (name : String) (pulses acqs : List (Info D))
  | sched (duration : Option Rat) (items : Items D)
  | loop (repetitions : Nat) (body : Op D)
  | cond (buffer : Rat) (body : Op D)
/-- Schedulables: `operation_id`, `abs_time` (if it was determined) and operation. -/
inductive Items (D : Type) where
  | nil
  | cons (id : String) (time : Option Rat) (op : Op D) (rest : Items D)
end

/-- A row of the table (498-508).  `waveform_op_id` is `name` and `index`. -/
structure Row (D : Type) where
  name : String
  index : Nat
  id : Option String
  time : Rat
  duration : Rat
  acq : Bool
  data : D
deriving DecidableEq, Repr

variable {D : Type}

/-- The maximum of a list, `default` for an empty one. -/
def maxOf (default : Rat) : List Rat → Rat
  | [] => default
  | [x] => x
  | x :: y :: rest => max x (maxOf default (y :: rest))

/-- `duration` of operations (operation.py:126-157, control_flow_library.py:104-107, 197-203, schedule.py:648-655). -/
def Op.duration : Op D → Option Rat
  | .plain _ pulses acqs => some (maxOf 0 ((pulses ++ acqs).map fun i => i.t0 + i.duration))
  | .sched d _ => d
  | .loop n body => body.duration.map fun d => n * d
  | .cond b body => body.duration.map fun d => d + b

/-- The rows of the pulses, or of the acquisitions, of an operation (491-510); `k` is the index of the first. -/
def infoRows (name : String) (id : Option String) (offset : Rat) : Nat → List (Info D) → List (Row D)
  | _, [] => []
  | k, i :: rest =>
    ⟨name, k, id, offset + i.t0, i.duration, i.acq, i.data⟩ :: infoRows name id offset (k + 1) rest

/-- One after the other, up to the first exception. -/
def concat {α : Type} : List (Except Err (List α)) → Except Err (List α)
  | [] => .ok []
  | x :: rest =>
    match x with
    | .error e => .error e
    | .ok a =>
      match concat rest with
      | .error e => .error e
      | .ok b => .ok (a ++ b)

mutual
/-- `_generate_timing_table_list` (459-510). -/
def opRows : Op D → Rat → Option String → Except Err (List (Row D))
  | .plain name pulses acqs, offset, id =>
    .ok (infoRows name id offset 0 pulses ++ infoRows name id offset 0 acqs)
  | .sched _ items, offset, _ => itemRows items offset
  | .loop n body, offset, id =>
    concat ((List.range n).map fun (i : Nat) =>
      match body.duration with
      | none => .error .typeError
      | some d => opRows body (offset + (i : Rat) * d) id)
  | .cond _ body, offset, id => opRows body offset id
/-- The loop over the schedulables (468-479). -/
def itemRows : Items D → Rat → Except Err (List (Row D))
  | .nil, _ => .ok []
  | .cons id time op rest, offset =>
    match time with
    | none => .error .valueError
    | some t =>
      match opRows op (offset + t) (some id) with
      | .error e => .error e
      | .ok a =>
        match itemRows rest offset with
        | .error e => .error e
        | .ok b => .ok (a ++ b)
end

/-- The rows before sorting (603-605); `pd.concat` refuses an empty list. -/
def rows (items : Items D) : Except Err (List (Row D)) :=
  match itemRows items 0 with
  | .error e => .error e
  | .ok [] => .error .valueError
  | .ok (r :: rest) => .ok (r :: rest)

/-- `sort_values(by="abs_time")` (606): the rows with their index. -/
def Sorted (l : List (Row D)) (t : List (Nat × Row D)) : Prop :=
  t.Perm (l.zipIdx.map fun e => (e.2, e.1)) ∧ t.Pairwise fun a b => a.2.time ≤ b.2.time

/-- The loop of `get_schedule_duration` (635-644): the last end, at least `m`; exceptions for what has not been
determined. -/
def lastEnd : Items D → Rat → Option Rat
  | .nil, m => some m
  | .cons _ time op rest, m =>
    match time, op.duration with
    | some t, some d => lastEnd rest (max (t + d) m)
    | _, _ => none

/-- `get_schedule_duration` (623-647). -/
def scheduleDuration (repetitions : Nat) (items : Items D) : Option Rat :=
  (lastEnd items 0).map fun d => d * repetitions

end Verif.Table
