/-
Generation of acquisition indices
(quantify_scheduler/helpers/generate_acq_channels_data.py, quantify_scheduler/helpers/schedule.py).

Simplifications: the recursion over the schedule is split into the list of acquisitions it meets
(`acqsOf`, which does not depend on the dicts being filled) and the handling of one acquisition
after the other (`step`); names and warnings are left out; the user's coordinates of an acquisition
are a value of an arbitrary type `U`, to which the generated coordinates are added as fields.
-/
import Verif.Common.Dict
import Mathlib.Data.Rat.Defs
import Mathlib.Algebra.Order.Ring.Rat

namespace Verif.AcqIndices

variable {Ch U : Type} [DecidableEq Ch]

/-- Exceptions. -/
inductive Err where
  | valueError | assertion
deriving DecidableEq, Repr

/-- `BinMode` (enums.py:17-44). -/
inductive BinMode where
  | append | average | first | distribution | sum
deriving DecidableEq, Repr

/-- An entry of `acquisition_info`. -/
structure Info (Ch U : Type) where
  ch : Ch
  protocol : String
  mode : BinMode
  coords : U
  index : Option Int
deriving DecidableEq, Repr

mutual
/-- Operations and schedules. -/
inductive Op (Ch U : Type) where
  /-- a plain operation with its `acquisition_info` -/
  | plain (infos : List (Info Ch U))
  | sched (items : Items Ch U)
  | loop (body : Op Ch U) (reps : Nat)
  | cond (body : Op Ch U)
/-- Schedulables: name, `abs_time` and operation. -/
inductive Items (Ch U : Type) where
  | nil
  | cons (name : String) (abs : Rat) (op : Op Ch U) (rest : Items Ch U)
end

/-- `FullSchedulableLabel`: names, `none` for the body of a control flow. -/
abbrev Label := List (Option String)

/-- An acquisition met by the traversal: the key `(full label, number in the operation)`, the
repetitions of the loops around it, and its description. -/
structure Acq (Ch U : Type) where
  key : Label × Nat
  loops : List Nat
  info : Info Ch U
deriving DecidableEq, Repr

/-- The acquisitions of one operation, `enumerate(acquisitions_info)` (166). -/
def number (label : Label) (loops : List Nat) : Nat → List (Info Ch U) → List (Acq Ch U)
  | _, [] => []
  | n, i :: is => ⟨(label, n), loops, i⟩ :: number label loops (n + 1) is

mutual
/-- The order in which `_generate_acq_channels_data` (262-329) meets the acquisitions. -/
def acqsOf : Op Ch U → Label → List Nat → List (Acq Ch U)
  | .plain infos, label, loops => number label loops 0 infos
  | .sched items, label, loops =>
    -- `sorted(..., key=lambda s: s["abs_time"])` (279), stable
    ((itemAcqs items label loops).mergeSort (fun a b => decide (a.1 ≤ b.1))).flatMap Prod.snd
  | .loop body reps, label, loops => acqsOf body (label ++ [none]) (loops ++ [reps])
  | .cond body, label, loops => acqsOf body (label ++ [none]) loops
/-- The acquisitions of each schedulable. -/
def itemAcqs : Items Ch U → Label → List Nat → List (Rat × List (Acq Ch U))
  | .nil, _, _ => []
  | .cons name abs op rest, label, loops =>
    (abs, acqsOf op (label ++ [some name]) loops) :: itemAcqs rest label loops
end

/-- `_is_acquisition_binned_average` (helpers/schedule.py:106-127). -/
def isAverage (protocol : String) (mode : BinMode) : Bool :=
  (decide (protocol ∈ ["SSBIntegrationComplex", "WeightedIntegratedSeparated",
    "NumericalSeparatedWeightedIntegration", "NumericalWeightedIntegration",
    "ThresholdedAcquisition", "WeightedThresholdedAcquisition", "Timetag"]) && mode == .average) ||
  (decide (protocol ∈ ["TriggerCount", "ThresholdedTriggerCount", "DualThresholdedTriggerCount"]) &&
    mode == .sum)

/-- `_is_acquisition_binned_append` (helpers/schedule.py:130-146) or time tag trace (220-222). -/
def isAppend (protocol : String) (mode : BinMode) : Bool :=
  (decide (protocol ∈ ["SSBIntegrationComplex", "WeightedIntegratedSeparated",
    "NumericalSeparatedWeightedIntegration", "NumericalWeightedIntegration",
    "ThresholdedAcquisition", "WeightedThresholdedAcquisition", "Timetag", "TriggerCount",
    "ThresholdedTriggerCount", "DualThresholdedTriggerCount"]) && mode == .append) ||
  (protocol == "TimetagTrace" && mode == .append)

/-- `protocol == "Trace" and bin_mode in (AVERAGE, FIRST)` (240). -/
def isTrace (protocol : String) (mode : BinMode) : Bool :=
  protocol == "Trace" && (mode == .average || mode == .first)

/-- `protocol == "TriggerCount" and bin_mode == DISTRIBUTION` (252). -/
def isDistribution (protocol : String) (mode : BinMode) : Bool :=
  protocol == "TriggerCount" && mode == .distribution

/-- The coordinates of one acquisition index: the user's, `acq_index_legacy_<channel>` and
`loop_repetition_<channel>`. -/
structure Coord (U : Type) where
  user : U
  legacy : Option Int
  rep : Option Nat
deriving DecidableEq, Repr

/-- `AcquisitionChannelData.coords`: a list for binned acquisitions, a dict otherwise. -/
inductive Coords (U : Type) where
  | list (l : List (Coord U))
  | dict (u : U)
deriving DecidableEq, Repr

/-- `AcquisitionChannelData`. -/
structure Data (U : Type) where
  protocol : String
  mode : BinMode
  coords : Coords U
deriving DecidableEq, Repr

/-- `AcquisitionIndices`: an index or a list of indices. -/
inductive Idx where
  | one (n : Nat)
  | many (l : List Nat)
deriving DecidableEq, Repr

/-- `acq_channels_data` and `schedulable_label_to_acq_index`. -/
structure St (Ch U : Type) where
  chans : List (Ch × Data U)
  map : List ((Label × Nat) × Idx)

/-- `_prod` (53-54). -/
def prod (l : List Nat) : Nat := l.foldl (· * ·) 1

/-- `multiple_coords` (105-132). -/
def appendCoords (a : Acq Ch U) : List (Coord U) :=
  if a.loops.isEmpty then [⟨a.info.coords, a.info.index, none⟩]
  else (List.range (prod a.loops)).map (fun r => ⟨a.info.coords, a.info.index, some r⟩)

/-- `_generate_acq_channels_data_binned_average` (57-82). -/
def stepAverage (st : St Ch U) (a : Acq Ch U) (d : Data U) : Except Err (St Ch U) :=
  match d.coords with
  | .dict _ => .error .assertion
  | .list l =>
    if a.info.index.isSome ∧ a.info.index ≠ some (l.length : Int) then .error .valueError
    else .ok ⟨Dict.set st.chans a.info.ch { d with coords := .list (l ++ [⟨a.info.coords, none, none⟩]) },
      Dict.set st.map a.key (.one l.length)⟩

/-- `_generate_acq_channels_data_binned_append` (85-142). -/
def stepAppend (st : St Ch U) (a : Acq Ch U) (d : Data U) : Except Err (St Ch U) :=
  match d.coords with
  | .dict _ => .error .assertion
  | .list l =>
    .ok ⟨Dict.set st.chans a.info.ch { d with coords := .list (l ++ appendCoords a) },
      Dict.set st.map a.key (.many (List.range' l.length (appendCoords a).length))⟩

/-- The data of the channel, created if missing (200-206, 223-229). -/
def dataOf (st : St Ch U) (a : Acq Ch U) : Data U :=
  (Dict.get? st.chans a.info.ch).getD ⟨a.info.protocol, a.info.mode, .list []⟩

/-- The check for mixed protocols and bin modes (181-197). -/
def compatible (st : St Ch U) (a : Acq Ch U) : Bool :=
  match Dict.get? st.chans a.info.ch with
  | none => true
  | some d => d.protocol == a.info.protocol && d.mode == a.info.mode

/-- The handling of one acquisition (181-263). -/
def step (st : St Ch U) (a : Acq Ch U) : Except Err (St Ch U) :=
  if !compatible st a then .error .valueError
  else if isAverage a.info.protocol a.info.mode then stepAverage st a (dataOf st a)
  else if isAppend a.info.protocol a.info.mode then stepAppend st a (dataOf st a)
  else if isTrace a.info.protocol a.info.mode then
    -- `_validate_trace_protocol` (145-155)
    if (Dict.get? st.chans a.info.ch).isSome then .error .valueError
    else .ok ⟨Dict.set st.chans a.info.ch ⟨a.info.protocol, a.info.mode, .dict a.info.coords⟩, st.map⟩
  else if isDistribution a.info.protocol a.info.mode then
    .ok ⟨Dict.set st.chans a.info.ch ⟨a.info.protocol, a.info.mode, .dict a.info.coords⟩, st.map⟩
  else .error .valueError

/-- One acquisition after the other. -/
def run : List (Acq Ch U) → St Ch U → Except Err (St Ch U)
  | [], st => .ok st
  | a :: as, st => do
    let st ← step st a
    run as st

/-- The acquisitions in the order of the two passes (385-400): those with an explicit index first. -/
def order (op : Op Ch U) : List (Acq Ch U) :=
  (acqsOf op [] []).filter (fun a => a.info.index.isSome) ++
    (acqsOf op [] []).filter (fun a => a.info.index.isNone)

/-- `generate_acq_channels_data` (356-404). -/
def generate (op : Op Ch U) : Except Err (St Ch U) := run (order op) ⟨[], []⟩

end Verif.AcqIndices
