/-
The check for overlapping pulses with voltage offsets:
quantify_scheduler/backends/qblox_backend.py:1940-1962 and 1988-2136.

Simplifications:
* Times are exact rationals in nanoseconds (the tolerance 1e-10 s is 1/10 ns).
* Of an entry of `pulse_info`: port, clock, `t0`, `duration`, whether it has a waveform function
  and whether it sets a voltage offset (both paths are set together, pulse_library.py:180-240).
* The dictionary of starts and ends is an association list in order of first appearance; its keys
  are pairs of port and clock instead of `port_clock` (the strings are ambiguous if names contain
  underscores).
* The set of common keys is gone through in the order of the first dictionary; only whether an
  error is raised is modelled, not its text.
-/
import Verif.Common.StableSort
import Mathlib.Data.Rat.Lemmas
import Mathlib.Algebra.Order.Ring.Rat

namespace Verif.Overlap

open Verif.StableSort

/-- An entry of `pulse_info`. -/
structure Info where
  port : String
  clock : String
  t0 : Rat
  dur : Rat
  wave : Bool
  offset : Bool
deriving DecidableEq, Repr

/-- A pulse-level operation: `pulse_info`, and `duration` (operation.py:120-157). -/
structure Plain where
  infos : List Info
  dur : Rat
deriving DecidableEq, Repr

/-- `has_voltage_offset` (operation.py:353-358). -/
def Plain.hasOffset (p : Plain) : Bool := p.infos.any (fun i => i.offset)

/-- `valid_pulse` (operation.py:313-315). -/
def Plain.validPulse (p : Plain) : Bool := !p.infos.isEmpty

mutual
/-- Operations and schedules with `abs_time`s; loops with the duration of their body. -/
inductive Op where
  | plain (p : Plain)
  | loop (repetitions : Nat) (bodyDur : Rat) (body : Op)
  | conditional (body : Op)
  | sched (items : Items)
/-- Schedulables, in order, with the operation that each refers to. -/
inductive Items where
  | nil
  | cons (abs : Rat) (op : Op) (rest : Items)
end

deriving instance DecidableEq for Op, Items

mutual
/-- `_all_abs_times_ops_with_voltage_offsets_pulses` (1940-1962). -/
def collect : Op → Rat → List (Rat × Plain)
  | .plain p, off => if p.validPulse || p.hasOffset then [(off, p)] else []
  | .loop _ _ body, off => collect body off
  | .conditional body, off => collect body off
  | .sched items, off => collectItems items off
/-- The loop over schedulables (1946-1951). -/
def collectItems : Items → Rat → List (Rat × Plain)
  | .nil, _ => []
  | .cons abs op rest, off => collect op (off + abs) ++ collectItems rest off
end

/-- `_operation_end` (2133-2136). -/
def opEnd (e : Rat × Plain) : Rat := e.1 + e.2.dur

/-- Extend the entry of a dictionary of starts and ends. -/
def extend (pc : String × String) (s e : Rat) :
    List ((String × String) × Rat × Rat) → List ((String × String) × Rat × Rat)
  | [] => [(pc, s, e)]
  | (k, s', e') :: rest =>
    if k = pc then (k, min s s', max e e') :: rest else (k, s', e') :: extend pc s e rest

/-- `_get_pulse_start_ends` (2112-2131). -/
def startEnds (abs : Rat) (p : Plain) : List ((String × String) × Rat × Rat) :=
  p.infos.foldl (fun d i =>
    if !i.wave && !i.offset then d
    else extend (i.port, i.clock) (abs + i.t0) (abs + i.t0 + i.dur) d) []

/-- The condition in `_raise_if_pulses_overlap_on_same_port_clock` (2096-2101). -/
def overlapping (a b : Rat × Rat) : Bool :=
  decide ((b.1 < a.1 ∧ a.1 < b.2) ∨ (b.1 < a.2 ∧ a.2 < b.2) ∨
    (a.1 < b.1 ∧ b.1 < a.2) ∨ (a.1 < b.2 ∧ b.2 < a.2))

/-- Look up a key. -/
def lookup (pc : String × String) :
    List ((String × String) × Rat × Rat) → Option (Rat × Rat)
  | [] => none
  | (k, v) :: rest => if k = pc then some v else lookup pc rest

/-- `_raise_if_pulses_overlap_on_same_port_clock` (2081-2109): is an error raised? -/
def raises (a b : Rat × Plain) : Bool :=
  (startEnds a.1 a.2).any (fun x =>
    match lookup x.1 (startEnds b.1 b.2) with
    | none => false
    | some y => overlapping x.2 y)

/-- `_exists_pulse_starting_before_current_end` (2065-2078): the operations after the current
one. -/
def nextBefore (stop : Rat) : List (Rat × Plain) → Option (Rat × Plain)
  | [] => none
  | e :: rest =>
    if stop - 1 / 10 ≤ e.1 then none
    else if e.2.validPulse || e.2.hasOffset then some e
    else nextBefore stop rest

/-- The look ahead (2048-2058). -/
def checkNext (e : Rat × Plain) (rest : List (Rat × Plain)) : Bool :=
  match nextBefore (opEnd e) rest with
  | some o => raises e o
  | none => false

/-- One operation in the loop (2034-2058), with the last pulse: is an error raised? -/
def checkOne (last : Option (Rat × Plain)) (e : Rat × Plain) (rest : List (Rat × Plain)) : Bool :=
  if e.2.hasOffset then
    match last with
    | some l => if e.1 + 1 / 10 < opEnd l then raises e l else checkNext e rest
    | none => checkNext e rest
  else false

/-- The loop of `validate_non_overlapping_stitched_pulse` (2033-2062), with the last pulse: is an
error raised? -/
def scan (last : Option (Rat × Plain)) : List (Rat × Plain) → Bool
  | [] => false
  | e :: rest => checkOne last e rest || scan (if e.2.validPulse then some e else last) rest

/-- `validate_non_overlapping_stitched_pulse` (1988-2062): is the schedule rejected? -/
def rejected (schedule : Op) : Bool :=
  scan none (sortBy Prod.fst (collect schedule 0))

end Verif.Overlap
