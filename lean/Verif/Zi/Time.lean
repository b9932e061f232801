/-
Times of operations on Zurich Instruments devices (quantify_scheduler/backends/zhinst_backend.py:187-242,
290-431, 1361-1395).

Simplifications:
* Floats are rationals.
* A hardware channel is the name of the device, the number of the AWG, and the type that
  `_determine_clock_sample_start` reads off the name (`uhfqa` or `hdawg` is part of it).
* The column `waveform_op_id` of the timing table is an arbitrary type `ω`.
-/
import Verif.Numeric.Model

namespace Verif.Zi

open Verif.Numeric (pyRound)

/-- Exceptions. -/
inductive Err where
  | notImplemented | valueError | keyError | assertionError | attributeError | runtimeError | typeError | indexError
deriving DecidableEq, Repr

/-- Types of devices. -/
inductive Dev where
  | uhfqa | hdawg
deriving DecidableEq, Repr

/-- Sampling rate, samples per second (zhinst_backend.py:111-114, 198-212). -/
def rate : Dev → Rat
  | .uhfqa => 1800000000
  | .hdawg => 2400000000

/-- Clock cycles per second (118, 198-212). -/
def clockRate (d : Dev) : Rat := rate d / 8

/-- `np.round(x, decimals=3)`. -/
def round3 (x : Rat) : Rat := (pyRound (x * 1000) : Rat) / 1000

/-- `np.isclose(a, b, atol=0.0001)`, with the default `rtol=1e-5`. -/
def isClose (a b : Rat) : Bool := decide (|a - b| ≤ 1 / 10000 + 1 / 100000 * |b|)

/-- `_determine_clock_sample_start` (187-242), for a channel whose type is known. -/
def clockSample (d : Dev) (t : Rat) : Except Err (Int × Rat) :=
  let clock := ⌊round3 (t * clockRate d)⌋
  let sample := (t - clock / clockRate d) * rate d
  if isClose sample (pyRound sample) then .ok (clock, sample) else .error .valueError

/-- A hardware channel. -/
structure Chan where
  device : String
  awg : Nat
  kind : Option Dev
deriving DecidableEq, Repr

/-- A row of the timing table; `label` is its index in the DataFrame, which `sort_values` keeps. -/
structure Row (ω : Type) where
  label : Nat
  time : Rat
  duration : Rat
  chan : Option Chan
  acq : Bool
  wave : ω
deriving Repr

/-- `_determine_clock_sample_start` of a row (187-242), `none` for rows without channel (245-264). -/
def startOf {ω : Type} (r : Row ω) : Except Err (Option (Int × Rat)) :=
  match r.chan with
  | none => .ok none
  | some c =>
    match c.kind with
    | none => .error .notImplemented
    | some d =>
      match clockSample d r.time with
      | .error e => .error e
      | .ok p => .ok (some p)

/-- `_add_clock_sample_starts` (409-431). -/
def addStarts {ω : Type} : List (Row ω) → Except Err (List (Row ω × Option (Int × Rat)))
  | [] => .ok []
  | r :: rest =>
    match startOf r with
    | .error e => .error e
    | .ok s =>
      match addStarts rest with
      | .error e => .error e
      | .ok l => .ok ((r, s) :: l)

/-- `_determine_measurement_fixpoint_correction` (309-357) for the common frequency of 600 MHz: the correction
in samples, the first of 0, 3, …, 27 that is right. -/
def correction (start : Int) : Except Err Nat :=
  match (List.range 10).find? fun i => decide (((3 * i : Nat) : Int) % 8 = -start % 8) with
  | some i => .ok (3 * i)
  | none => .error .valueError

/-- The variables of the loop of `_apply_measurement_fixpoint_correction`: `time_corrections` by position,
`prev_idx` and `cumulative_sample_corrections`. -/
structure Fix where
  corr : Nat → Rat
  prev : Nat
  cum : Nat

/-- One round of the loop (388-399). -/
def fixStep (st : Fix) (label : Nat) (sample : Rat) : Except Err Fix :=
  match correction (pyRound (sample + st.cum)) with
  | .error e => .error e
  | .ok n => .ok
      { corr := fun k => if st.prev ≤ k then st.corr k + (n : Rat) / 1800000000 else st.corr k
        prev := label + 1
        cum := st.cum + n }

/-- The loop over the acquisitions (388-399).  An acquisition without channel has no sample (`round` of `nan`
raises an exception). -/
def fixLoop {ω : Type} (st : Fix) : List (Row ω × Option (Int × Rat)) → Except Err Fix
  | [] => .ok st
  | (r, s) :: rest =>
    if r.acq then
      match s with
      | none => .error .valueError
      | some p =>
        match fixStep st r.label p.2 with
        | .error e => .error e
        | .ok st' => fixLoop st' rest
    else fixLoop st rest

/-- The corrections are added by position (401). -/
def shiftFrom {ω : Type} (corr : Nat → Rat) : Nat → List (Row ω) → List (Row ω)
  | _, [] => []
  | k, r :: rest => { r with time := r.time + corr k } :: shiftFrom corr (k + 1) rest

/-- `_apply_measurement_fixpoint_correction` (360-406). -/
def fixpoint {ω : Type} (rows : List (Row ω × Option (Int × Rat))) :
    Except Err (List (Row ω × Option (Int × Rat))) :=
  match fixLoop ⟨fun _ => 0, 0, 0⟩ rows with
  | .error e => .error e
  | .ok st => addStarts (shiftFrom st.corr 0 (rows.map Prod.fst))

/-- The times of the timing table, after latency corrections and sorting (1382-1392). -/
def times {ω : Type} (rows : List (Row ω)) : Except Err (List (Row ω × Option (Int × Rat))) :=
  match addStarts rows with
  | .error e => .error e
  | .ok l => fixpoint l

end Verif.Zi
