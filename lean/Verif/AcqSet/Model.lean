/-
Settings of a sequencer that come from its acquisitions
(quantify_scheduler/backends/qblox/analog.py:227-416, 903-937, backends/qblox/timetag.py:266-436,
backends/qblox/compiler_abc.py:309-320, 484-524, 1234-1281,
backends/qblox/instrument_compilers.py:462-503).

Simplifications:
* Numbers are rational.
* `acq_rotation` and `acq_threshold` are numbers, and an acquisition has both or none of them, as those
  of the library do.
* Acquisition channels are numbers.
-/
import Verif.Numeric.Model
import Verif.Common.Dict

set_option autoLift false

namespace Verif.AcqSet

open Verif.Numeric (pyRound)

/-- Exceptions. -/
inductive Err where
  | valueError | runtimeError | keyError | assertionError
deriving DecidableEq, Repr

/-- Acquisition protocols. -/
inductive Proto where
  | trace | ssb | thresholded
  | weightedSeparated | numSeparated | numWeighted | weightedThresholded
  | trigCount | thresholdedTrigCount
  | dual | timetag | timetagTrace
deriving DecidableEq, Repr

/-- Bin modes. -/
inductive Bin where
  | append | average | sum | distribution | first
deriving DecidableEq, Repr

/-- `TriggerCondition`. -/
inductive Condition where
  | lessThan | atLeast
deriving DecidableEq, Repr

/-- `TimeSource` and `TimeRef`. -/
inductive TimeSource where
  | first | second | last
deriving DecidableEq, Repr
inductive TimeRef where
  | start | end | first | timestamp | port
deriving DecidableEq, Repr

/-- The entries of a timetag acquisition. -/
structure Timing where
  source : TimeSource
  ref : TimeRef
  channel : Option Nat
deriving DecidableEq, Repr

/-- The addresses of a `DualThresholdedTriggerCount` acquisition; 0 where there is none. -/
structure Dual where
  low : Nat
  high : Nat
  aLow : Nat
  aMid : Nat
  aHigh : Nat
  aInvalid : Nat
deriving DecidableEq, Repr

/-- An acquisition: `operation_info.data`. -/
structure Acq where
  proto : Proto
  bin : Bin
  /-- seconds -/
  duration : Rat
  channel : Nat
  /-- `acq_rotation` (degrees) and `acq_threshold` -/
  disc : Option (Rat × Rat)
  /-- `feedback_trigger_address`; `none` if there is no such entry -/
  address : Option Nat
  /-- `thresholded_trigger_count` -/
  count : Option (Nat × Condition)
  dual : Option Dual
  timing : Option Timing
deriving DecidableEq, Repr

/-- `_get_unique_value_or_raise` (compiler_abc.py:309-320). -/
def unique {α : Type} [DecidableEq α] (vs : List α) : Except Err α :=
  match vs with
  | [] => .error .valueError
  | a :: l => if l.all (fun x => decide (x = a)) then .ok a else .error .valueError

/-! ### Analog modules -/

/-- Settings of an analog sequencer. -/
structure Analog where
  autoBin : Option Bool
  input : Option Nat
  trigEn : Option Bool
  trigAddr : Option Nat
  rotation : Option Rat
  threshold : Option Rat
  length : Option Int
deriving DecidableEq, Repr

/-- As they are before. -/
def Analog.init : Analog := ⟨none, none, none, none, none, none, none⟩

/-- Bin modes of a protocol (analog.py:250-259). -/
def modes (acqs : List Acq) (p : Proto) : List Bin :=
  (acqs.filter fun a => decide (a.proto = p)).map (·.bin)

/-- `len(set) > 1`. -/
def several (bs : List Bin) : Bool :=
  match bs with
  | [] => false
  | b :: l => l.any fun x => decide (x ≠ b)

/-- The settings of trigger counts (analog.py:261-289). -/
def ttlSettings (inputs : List Nat) (acqs : List Acq) (s : Analog) : Except Err Analog :=
  let tc := modes acqs .trigCount
  let ttc := modes acqs .thresholdedTrigCount
  if Bin.distribution ∈ tc ∧ several tc then .error .runtimeError
  else if tc ≠ [] ∨ ttc ≠ [] then
    match inputs with
    | [i] => .ok { s with
        autoBin := some (decide (Bin.distribution ∈ tc ∨ Bin.distribution ∈ ttc)), input := some i }
    | _ => .error .valueError
  else .ok s

/-- The trigger address (analog.py:291-315). -/
def triggerSettings (acqs : List Acq) (s : Analog) : Except Err Analog :=
  if acqs.any (fun a => decide (a.proto = .thresholded ∨ a.proto = .thresholdedTrigCount ∨
      a.proto = .weightedThresholded)) then
    match acqs.filterMap (·.address) with
    | [] => .ok { s with trigEn := some false, trigAddr := none }
    | x :: l =>
      match unique (x :: l) with
      | .error e => .error e
      | .ok a => .ok { s with trigEn := some true, trigAddr := some a }
  else .ok s

/-- `constants.MIN_PHASE_ROTATION_ACQ` etc. (constants.py:84-91). -/
def maxRotation : Rat := 360
def maxThreshold : Rat := 16777212

/-- `_prepare_thresholded_acquisition_settings` (analog.py:337-386). -/
def discSettings (relevant : List Acq) (s : Analog) : Except Err Analog :=
  match unique (relevant.filterMap fun a => a.disc.map Prod.fst) with
  | .error e => .error e
  | .ok r =>
    match unique (relevant.filterMap fun a => a.disc.map Prod.snd) with
    | .error e => .error e
    | .ok t =>
      if 0 ≤ r ∧ r ≤ maxRotation then
        if -maxThreshold ≤ t ∧ t ≤ maxThreshold then
          match relevant with
          | [] => .error .valueError
          | a :: _ => .ok { s with rotation := some r, threshold := some (t * (a.duration * 1000000000)) }
        else .error .valueError
      else .error .valueError

/-- `_validate_thresholded_trigger_count_metadata_by_acq_channel` (compiler_abc.py:484-524). -/
def metaStep (d : List (Nat × (Nat × Condition))) (a : Acq) :
    Except Err (List (Nat × (Nat × Condition))) :=
  if a.proto = .thresholdedTrigCount then
    match a.count with
    | none => .error .keyError
    | some c =>
      match Dict.get? d a.channel with
      | some c' => if c' ≠ c then .error .valueError else .ok (Dict.set d a.channel c)
      | none => .ok (Dict.set d a.channel c)
  else .ok d

def validateCounts (acqs : List Acq) : Except Err Unit :=
  match acqs.foldlM metaStep [] with
  | .error e => .error e
  | .ok _ => .ok ()

/-- The settings of discriminated acquisitions (analog.py:317-333). -/
def thresholdSettings (acqs : List Acq) (s : Analog) : Except Err Analog :=
  if acqs.any (fun a => decide (a.proto = .thresholded ∨ a.proto = .weightedThresholded)) then
    discSettings (acqs.filter fun a => a.disc.isSome) s
  else if acqs.any (fun a => decide (a.proto = .thresholdedTrigCount)) then
    match validateCounts acqs with
    | .error e => .error e
    | .ok _ => .ok s
  else .ok s

/-- `SquareAcquisitionStrategy` or `WeightedAcquisitionStrategy` (factory_analog.py:91-102). -/
def integrates : Proto → Bool
  | .trace | .ssb | .thresholded => true
  | .weightedSeparated | .numSeparated | .numWeighted | .weightedThresholded => true
  | _ => false

/-- The loop body of `_get_integration_length_from_acquisitions` (analog.py:396-415). -/
def lengthStep (l : Option Int) (a : Acq) : Except Err (Option Int) :=
  if integrates a.proto then
    let n := pyRound (a.duration * 1000000000)
    if n % 4 ≠ 0 then .error .valueError
    else match l with
      | none => .ok (some n)
      | some m => if m ≠ n then .error .valueError else .ok (some m)
  else .ok l

/-- `_get_integration_length_from_acquisitions` (analog.py:388-416). -/
def integrationLength (acqs : List Acq) : Except Err (Option Int) := acqs.foldlM lengthStep none

/-- `AnalogSequencerCompiler._prepare_acq_settings` (analog.py:227-335). -/
def analog (inputs : List Nat) (acqs : List Acq) : Except Err Analog :=
  match acqs with
  | [] => .ok .init
  | _ :: _ =>
    match ttlSettings inputs acqs .init with
    | .error e => .error e
    | .ok s1 =>
      match triggerSettings acqs s1 with
      | .error e => .error e
      | .ok s2 =>
        match thresholdSettings acqs s2 with
        | .error e => .error e
        | .ok s3 =>
          match integrationLength acqs with
          | .error e => .error e
          | .ok l => .ok { s3 with length := l }

/-! ### Timetag modules -/

/-- `TimetagTraceType`. -/
inductive TraceType where
  | scope | timetag
deriving DecidableEq, Repr

/-- Settings of a sequencer of a QTM. -/
structure Qtm where
  source : Option TimeSource
  ref : Option TimeRef
  refChannel : Option Nat
  trace : Option TraceType
  traceDuration : Option Int
  trigEn : Option Bool
  aLow : Nat
  aMid : Nat
  aHigh : Nat
  aInvalid : Nat
  low : Option Nat
  high : Option Nat
deriving DecidableEq, Repr

def Qtm.init : Qtm := ⟨none, none, none, none, none, none, 0, 0, 0, 0, none, none⟩

/-- One step of collecting an entry. -/
def entryStep {α : Type} (f : Acq → Option α) (a : Acq) (r : Except Err (List α)) : Except Err (List α) :=
  match f a with
  | none => .error .keyError
  | some x =>
    match r with
    | .ok l => .ok (x :: l)
    | .error e => .error e

/-- The entry of every acquisition: a `KeyError` if one has none. -/
def entries {α : Type} (acqs : List Acq) (f : Acq → Option α) : Except Err (List α) :=
  acqs.foldr (entryStep f) (.ok [])

/-- The value of the entry that all acquisitions have (simplification: if one has no entry and others
differ, the exception may be another one). -/
def uniqueOf {α : Type} [DecidableEq α] (acqs : List Acq) (f : Acq → Option α) : Except Err α :=
  match entries acqs f with
  | .error e => .error e
  | .ok l => unique l

/-- `_prepare_thresholded_trigger_count_settings` (timetag.py:330-373).  An acquisition without a
label has no entry `feedback_trigger_address`, which is a `KeyError`. -/
def countSettings (acqs : List Acq) (s : Qtm) : Except Err Qtm :=
  match uniqueOf acqs (fun a => a.count.map Prod.fst) with
  | .error e => .error e
  | .ok t =>
    match uniqueOf acqs (fun a => a.count.map Prod.snd) with
    | .error e => .error e
    | .ok c =>
      match uniqueOf acqs (·.address) with
      | .error e => .error e
      | .ok a =>
        let s' := { s with trigEn := some true, low := some t, high := some t, aMid := 0, aInvalid := 0 }
        match c with
        | .lessThan => .ok { s' with aHigh := 0, aLow := a }
        | .atLeast => .ok { s' with aHigh := a, aLow := 0 }

/-- `_prepare_dual_thresholded_trigger_count_settings` (timetag.py:375-436). -/
def dualSettings (acqs : List Acq) (s : Qtm) : Except Err Qtm :=
  match uniqueOf acqs (fun a => a.dual.map (·.low)) with
  | .error e => .error e
  | .ok low =>
    match uniqueOf acqs (fun a => a.dual.map (·.high)) with
    | .error e => .error e
    | .ok high =>
      match uniqueOf acqs (fun a => a.dual.map (·.aHigh)) with
      | .error e => .error e
      | .ok h =>
        match uniqueOf acqs (fun a => a.dual.map (·.aMid)) with
        | .error e => .error e
        | .ok m =>
          match uniqueOf acqs (fun a => a.dual.map (·.aLow)) with
          | .error e => .error e
          | .ok l =>
            match uniqueOf acqs (fun a => a.dual.map (·.aInvalid)) with
            | .error e => .error e
            | .ok i => .ok { s with
                low := some low, high := some high, aHigh := h, aMid := m, aLow := l, aInvalid := i
                trigEn := some (decide (l ≠ 0 ∨ m ≠ 0 ∨ h ≠ 0 ∨ i ≠ 0)) }

/-- Is the protocol used? -/
def has (acqs : List Acq) (p : Proto) : Bool := acqs.any fun a => decide (a.proto = p)

/-- The settings of traces (timetag.py:304-311). -/
def traceSettings (acqs : List Acq) (s : Qtm) : Qtm :=
  match acqs with
  | [] => s
  | a :: _ =>
    if has acqs .trace then
      { s with trace := some .scope, traceDuration := some (pyRound (a.duration * 1000000000)) }
    else if has acqs .timetagTrace then { s with trace := some .timetag }
    else s

/-- The settings of timetags (timetag.py:313-325). -/
def timeSettings (acqs : List Acq) (s : Qtm) : Except Err Qtm :=
  if has acqs .timetag || has acqs .timetagTrace then
    match uniqueOf acqs (fun a => a.timing.map (·.source)) with
    | .error e => .error e
    | .ok src =>
      match uniqueOf acqs (fun a => a.timing.map (·.ref)) with
      | .error e => .error e
      | .ok ref =>
        match uniqueOf acqs (fun a => a.timing.map (·.channel)) with
        | .error e => .error e
        | .ok ch => .ok { s with source := some src, ref := some ref, refChannel := ch }
  else .ok s

/-- At most one of three. -/
def atMostOne (a b c : Bool) : Bool := !(a && b) && !(a && c) && !(b && c)

/-- `TimetagSequencerCompiler._prepare_acq_settings` (timetag.py:266-330). -/
def qtm (acqs : List Acq) : Except Err Qtm :=
  match acqs with
  | [] => .ok .init
  | _ :: _ =>
    if has acqs .trace && has acqs .timetagTrace then .error .valueError
    else if !atMostOne (has acqs .trigCount) (has acqs .thresholdedTrigCount) (has acqs .dual) then
      .error .valueError
    else
      match timeSettings acqs (traceSettings acqs .init) with
      | .error e => .error e
      | .ok s =>
        if has acqs .thresholdedTrigCount then countSettings acqs s
        else if has acqs .dual then dualSettings acqs s
        else .ok s

/-! ### Reading triggers -/

/-- What a `ConditionalBegin` says: address, inverted, count. -/
structure Read where
  address : Nat
  invert : Bool
  count : Nat
deriving DecidableEq, Repr

/-- The loop body of `_prepare_threshold_settings` (compiler_abc.py:1247-1281). -/
def readStep (d : List (Nat × (Bool × Nat))) (r : Read) : Except Err (List (Nat × (Bool × Nat))) :=
  match Dict.get? d r.address with
  | some x => if x ≠ (r.invert, r.count) then .error .assertionError
              else .ok (Dict.set d r.address (r.invert, r.count))
  | none => .ok (Dict.set d r.address (r.invert, r.count))

/-- `_prepare_threshold_settings` (compiler_abc.py:1234-1281). -/
def readSettings (rs : List Read) : Except Err (List (Nat × (Bool × Nat))) := rs.foldlM readStep []

/-! ### One sequencer with traces -/

/-- The loop body of `_ensure_single_scope_mode_acquisition_sequencer` (analog.py:922-937). -/
def scopeStep (found : Option Nat) (e : Nat × List Acq) : Except Err (Option Nat) :=
  if e.2.any fun a => decide (a.proto = .trace) then
    match found with
    | some _ => .error .valueError
    | none => .ok (some e.1)
  else .ok found

/-- `_ensure_single_scope_mode_acquisition_sequencer` (analog.py:903-937): the sequencers of a module with
their acquisitions. -/
def singleScope (seqs : List (Nat × List Acq)) : Except Err (Option Nat) := seqs.foldlM scopeStep none

/-! ### Reference channels -/

/-- `_set_time_ref_channel` (instrument_compilers.py:462-503) for one acquisition with `TimeRef.PORT`:
`pcs` are the port-clocks of the module, `path` their channel paths. -/
def refChannel {π : Type} [DecidableEq π] (pcs : List (String × String)) (path : String × String → π)
    (port : String) : Except Err π :=
  match pcs.filter (fun pc => decide (pc.1 = port)) with
  | [] => .error .valueError
  | pc :: l => if l.all (fun pc' => decide (path pc' = path pc)) then .ok (path pc) else .error .valueError

end Verif.AcqSet
