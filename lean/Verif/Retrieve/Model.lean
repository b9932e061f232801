/-
Retrieval of acquired data: quantify_scheduler/instrument_coordinator/components/qblox.py:1647-2743
(`_AcquisitionManagerBase`, `_QRMAcquisitionManager`, `_QTMAcquisitionManager`) and
quantify_scheduler/instrument_coordinator/utility.py:114-239.

Simplifications:
* Floats are exact rationals, or not a number (`none`).
* A data array of a binned protocol is its acquisition indices, in order, and its rows, one per
  repetition in append mode and one otherwise; `xarray`'s merge of two of them has the indices of
  both (whose order is not modelled), and prefers values that are not NaN.
* `numpy`'s truth value of an array with other than one element counts as an exception (it is one
  for several elements, and for none either an exception or a reported conflict, depending on the
  version).
* `retrieve` handles binned protocols; what is done for distributions and timetag traces is
  modelled by the functions `convertFromCumulative` and `splitWindows`; scope traces, names and
  attributes of arrays, the instrument driver and warnings are left out.
-/
import Verif.Common.Dict
import Verif.Numeric.Model

namespace Verif.Retrieve

open Verif.Numeric (pyRound)
open Verif

/-- Exceptions. -/
inductive Err where
  | keyError | indexError | valueError | runtimeError | assertionError | incompatibleBinMode
  | zeroDivision
deriving DecidableEq, Repr

/-- A number from the hardware, or NaN. -/
abbrev Val := Option Rat

/-- Acquisition protocols. -/
inductive Protocol where
  | ssbIntegrationComplex | weightedIntegratedSeparated | numericalSeparatedWeightedIntegration
  | numericalWeightedIntegration | thresholdedAcquisition | weightedThresholdedAcquisition
  | triggerCount | thresholdedTriggerCount | dualThresholdedTriggerCount | timetag
  | trace | timetagTrace
deriving DecidableEq, Repr

/-- Bin modes (enums.py). -/
inductive BinMode where
  | append | average | sum | distribution | first
deriving DecidableEq, Repr

/-- Module types with acquisitions: QRM, QRM-RF and QRC on the one hand, QTM on the other. -/
inductive Module where
  | qrm | qtm
deriving DecidableEq, Repr

/-- `QRM_COMPATIBLE_BIN_MODES` and `QTM_COMPATIBLE_BIN_MODES` (bin_mode_compat.py:13-33);
`none` if the protocol is not in the dict. -/
def compatibleModes : Module → Protocol → Option (List BinMode)
  | .qrm, .ssbIntegrationComplex => some [.append, .average]
  | .qrm, .trace => some [.average]
  | .qrm, .thresholdedAcquisition => some [.append, .average]
  | .qrm, .weightedThresholdedAcquisition => some [.append, .average]
  | .qrm, .triggerCount => some [.append, .sum, .distribution]
  | .qrm, .thresholdedTriggerCount => some [.append]
  | .qrm, .weightedIntegratedSeparated => some [.append, .average]
  | .qrm, .numericalSeparatedWeightedIntegration => some [.append, .average]
  | .qrm, .numericalWeightedIntegration => some [.append, .average]
  | .qtm, .triggerCount => some [.append, .sum]
  | .qtm, .thresholdedTriggerCount => some [.append]
  | .qtm, .dualThresholdedTriggerCount => some [.append]
  | .qtm, .timetag => some [.append, .average]
  | .qtm, .trace => some [.first]
  | .qtm, .timetagTrace => some [.append]
  | _, _ => none

/-- `_is_acquisition_binned_average` (helpers/schedule.py:106-127). -/
def binnedAverage : Protocol → BinMode → Bool
  | .ssbIntegrationComplex, .average => true
  | .weightedIntegratedSeparated, .average => true
  | .numericalSeparatedWeightedIntegration, .average => true
  | .numericalWeightedIntegration, .average => true
  | .thresholdedAcquisition, .average => true
  | .weightedThresholdedAcquisition, .average => true
  | .timetag, .average => true
  | .triggerCount, .sum => true
  | .thresholdedTriggerCount, .sum => true
  | .dualThresholdedTriggerCount, .sum => true
  | _, _ => false

/-- `_is_acquisition_binned_append` (helpers/schedule.py:130-146). -/
def binnedAppend : Protocol → BinMode → Bool
  | .trace, _ => false
  | .timetagTrace, _ => false
  | _, .append => true
  | _, _ => false

/-- Trigger conditions (enums.py). -/
inductive Condition where
  | greaterThanEqual | lessThan
deriving DecidableEq, Repr

/-- `QbloxAcquisitionIndexBin` (qblox_acq_index_manager.py:23-55). -/
structure Entry where
  index : Nat
  bin : Nat
  stride : Nat
  meta? : Option (Condition × Int)
deriving DecidableEq, Repr

/-- The `bins` of an acquisition returned by the hardware. -/
structure BinData where
  path0 : List Val
  path1 : List Val
  threshold : List Val
  avgCnt : List Val
  count : Option (List Val)
  timedelta : List Val
deriving DecidableEq, Repr

/-- An acquisition returned by the hardware: its index and its bins. -/
structure HwAcq where
  index : Nat
  bins : BinData
deriving DecidableEq, Repr

/-- A value in the returned data. -/
inductive Out where
  | nan
  | int (n : Int)
  | real (x : Rat)
  | cplx (re im : Rat)
deriving DecidableEq, Repr

/-- Python's `int(x)` for a float: truncation; NaN raises. -/
def pyInt : Val → Except Err Int
  | none => .error .valueError
  | some x => .ok (if x < 0 then -⌊-x⌋ else ⌊x⌋)

/-- `list[i]` -/
def nth (l : List Val) (i : Nat) : Except Err Val :=
  match l[i]? with
  | some v => .ok v
  | none => .error .indexError

/-- `i_data + q_data * 1j` -/
def complexOf : Val → Val → Out
  | some x, some y => .cplx x y
  | _, _ => .nan

/-- `_get_bin_data` (qblox.py:1800-1810), for an acquisition that exists. -/
def getBinData (hw : Nat → Option HwAcq) (index : Nat) : Except Err BinData :=
  match hw index with
  | none => .error .keyError
  | some a => if a.index ≠ index then .error .runtimeError else .ok a.bins

/-- `bin_data["count"] if "count" in bin_data else bin_data["avg_cnt"]` (qblox.py:2003, 2068) -/
def BinData.counts (b : BinData) : List Val := b.count.getD b.avgCnt

/-- `_get_bin` of `_get_integration_weighted_separated_data` (qblox.py:2356-2364). -/
def binSeparated (b : BinData) (k : Nat) : Except Err Out := do
  let i ← nth b.path0 k
  let q ← nth b.path1 k
  .ok (complexOf i q)

/-- Division of a value by the integration length. -/
def divideBy (dur : Nat) : Out → Except Err Out
  | .cplx x y => if dur = 0 then .error .zeroDivision else .ok (.cplx (x / dur) (y / dur))
  | o => if dur = 0 then .error .zeroDivision else .ok o

/-- `_get_bin` of `_get_integration_amplitude_data` (qblox.py:2412-2420). -/
def binAmplitude (dur : Nat) (b : BinData) (k : Nat) : Except Err Out := do
  let o ← binSeparated b k
  divideBy dur o

/-- `complex(i_data + q_data)` -/
def sumOf : Val → Val → Out
  | some x, some y => .cplx (x + y) 0
  | _, _ => .nan

/-- `_get_bin` of `_get_integration_real_data` (qblox.py:2464-2472). -/
def binReal (b : BinData) (k : Nat) : Except Err Out := do
  let i ← nth b.path0 k
  let q ← nth b.path1 k
  .ok (sumOf i q)

/-- `n if not isnan(n) else -1` -/
def orMinusOne : Val → Out
  | some x => .real x
  | none => .int (-1)

/-- `_get_bin` of `_get_threshold_data` (qblox.py:2517-2524). -/
def binThreshold (b : BinData) (k : Nat) : Except Err Out := do
  let n ← nth b.threshold k
  .ok (orMinusOne n)

/-- `_get_bin` of `_get_trigger_count_data` (qblox.py:1995-2012). -/
def binCount (mult : Bool) (mode : BinMode) (reps : Nat) (b : BinData) (k : Nat) : Except Err Out := do
  let v ← nth b.counts k
  let n ← pyInt v
  .ok (.int (if mult = true ∧ mode = .sum then reps * n else n))

/-- The comparison (qblox.py:2070-2090). -/
def compareCount (c : Condition) (threshold : Int) : Val → Out
  | none => .int (-1)
  | some x =>
    match c with
    | .greaterThanEqual => .int (if threshold ≤ pyRound x then 1 else 0)
    | .lessThan => .int (if pyRound x < threshold then 1 else 0)

/-- `_get_bin` of `_get_trigger_count_threshold_data` (qblox.py:2059-2090). -/
def binCountThreshold (m : Option (Condition × Int)) (b : BinData) (k : Nat) : Except Err Out :=
  match m with
  | none => .error .assertionError
  | some (c, threshold) => do
    let v ← nth b.counts k
    .ok (compareCount c threshold v)

/-- A real number divided by 2048. -/
def over2048 : Val → Out
  | some x => .real (x / 2048)
  | none => .nan

/-- `_get_bin` of `_get_timetag_data` (qblox.py:2730-2736). -/
def binTimetag (b : BinData) (k : Nat) : Except Err Out := do
  let v ← nth b.timedelta k
  .ok (over2048 v)

/-- `_protocol_to_acq_function_map` (qblox.py:2146-2158, 2554-2565), as far as binned data are
concerned. -/
def binFunction (mod : Module) (p : Protocol) (mode : BinMode) (reps dur : Nat)
    (m : Option (Condition × Int)) : Except Err (BinData → Nat → Except Err Out) :=
  match mod, p with
  | .qrm, .weightedIntegratedSeparated => .ok binSeparated
  | .qrm, .numericalSeparatedWeightedIntegration => .ok binSeparated
  | .qrm, .numericalWeightedIntegration => .ok binReal
  | .qrm, .ssbIntegrationComplex => .ok (binAmplitude dur)
  | .qrm, .thresholdedAcquisition => .ok binThreshold
  | .qrm, .weightedThresholdedAcquisition => .ok binThreshold
  | .qrm, .thresholdedTriggerCount => .ok (binCountThreshold m)
  | .qrm, .triggerCount => .ok (binCount false mode reps)
  | .qtm, .triggerCount => .ok (binCount true mode reps)
  | .qtm, .thresholdedTriggerCount => .ok (binCountThreshold m)
  | .qtm, .dualThresholdedTriggerCount => .ok (binCount false mode reps)
  | .qtm, .timetag => .ok binTimetag
  | _, _ => .error .keyError

/-- What a channel measures (`AcquisitionChannelData`, schedules/schedule.py). -/
structure Chan where
  protocol : Protocol
  mode : BinMode
deriving DecidableEq, Repr

/-- A sequencer: what the hardware returns for it, and its integration length. -/
structure Seq where
  hw : Nat → Option HwAcq
  dur : Nat

/-- The mapping of a channel: acquisition indices to bins (`QbloxAcquisitionBinMapping`). -/
abbrev Mapping := List (Nat × Entry)

/-- A data array. -/
structure Arr where
  reps : Option Nat
  idx : List Nat
  rows : List (List Out)
deriving DecidableEq, Repr

/-- One value: `bin_data_function(index, bin, metadata)`. -/
def readBin (mod : Module) (c : Chan) (reps : Nat) (s : Seq) (e : Entry) (bin : Nat) :
    Except Err Out := do
  let f ← binFunction mod c.protocol c.mode reps s.dur e.meta?
  let b ← getBinData s.hw e.index
  f b bin

/-- `_get_binned_data` (qblox.py:1816-1906). -/
def getBinned (mod : Module) (c : Chan) (reps : Nat) (s : Seq) (m : Mapping) : Except Err Arr :=
  if binnedAverage c.protocol c.mode then do
    let row ← m.mapM (fun x => readBin mod c reps s x.2 x.2.bin)
    .ok ⟨none, m.map Prod.fst, [row]⟩
  else if binnedAppend c.protocol c.mode then do
    let rows ← (List.range reps).mapM (fun r =>
      m.mapM (fun x => readBin mod c reps s x.2 (x.2.bin + r * x.2.stride)))
    .ok ⟨some reps, m.map Prod.fst, rows⟩
  else .error .assertionError

/-- The data of one channel of one sequencer (qblox.py:1735-1757). -/
def channelData (mod : Module) (c : Chan) (reps : Nat) (s : Seq) (m : Mapping) : Except Err Arr :=
  if m.all (fun x => (s.hw x.2.index).isSome) then getBinned mod c reps s m else .error .keyError

/-- The value of an array in a row, at an acquisition index. -/
def Arr.cell (a : Arr) (row acq : Nat) : Option Out :=
  (a.rows[row]?).bind (fun l => Dict.get? (a.idx.zip l) acq)

/-- Is there a value? (`mask_func`, utility.py:144-145) -/
def Out.isNan : Out → Bool
  | .nan => true
  | _ => false

/-- Both arrays have a value there. -/
def bothAt (a b : Arr) (row acq : Nat) : Bool :=
  match a.cell row acq, b.cell row acq with
  | some x, some y => !x.isNan && !y.isNan
  | _, _ => false

/-- `check_already_existing_acquisition` (utility.py:114-168) for one channel: is an error raised?
In one dimension the elements of `conflict_mask` are numbers, in two dimensions they are rows, and
`conflict.values != [1]` has a truth value only if the row has one element. -/
def conflict (new cur : Arr) : Bool :=
  let common := new.idx.filter (fun i => cur.idx.contains i)
  match new.reps with
  | none => common.any (fun i => bothAt new cur 0 i)
  | some n =>
    if n = 0 then false
    else
      match common with
      | [i] => (List.range n).any (fun r => bothAt new cur r i)
      | _ => true

/-- The value in a merged array. -/
def pick : Option Out → Option Out → Out
  | some x, some y => if x.isNan then y else x
  | some x, none => x
  | none, some y => y
  | none, none => .nan

/-- `Dataset.merge` for one channel. -/
def mergeArr (cur new : Arr) : Arr :=
  let idx := cur.idx ++ new.idx.filter (fun i => !cur.idx.contains i)
  ⟨cur.reps, idx, (List.range cur.rows.length).map (fun r =>
    idx.map (fun i => pick (cur.cell r i) (new.cell r i)))⟩

variable {Ch : Type} [DecidableEq Ch]

/-- Adding the data of one channel of one sequencer (qblox.py:1735-1762). -/
def addJob (mod : Module) (chans : Ch → Option Chan) (reps : Nat) (ds : List (Ch × Arr))
    (job : Seq × Ch × Mapping) : Except Err (List (Ch × Arr)) :=
  match chans job.2.1 with
  | none => .error .keyError
  | some c => do
    let new ← channelData mod c reps job.1 job.2.2
    match Dict.get? ds job.2.1 with
    | none => .ok (Dict.set ds job.2.1 new)
    | some cur =>
      if conflict new cur then .error .runtimeError
      else .ok (Dict.set ds job.2.1 (mergeArr cur new))

/-- `_check_bin_mode_compatible` (qblox.py:2160-2175, 2567-2582), for one channel. -/
def modeOk (mod : Module) (chans : Ch → Option Chan) (ch : Ch) : Except Err Unit :=
  match chans ch with
  | none => .error .keyError
  | some c =>
    match compatibleModes mod c.protocol with
    | none => .error .keyError
    | some l => if c.mode ∈ l then .ok () else .error .incompatibleBinMode

/-- The loop of `retrieve_acquisition` (qblox.py:1726-1764), over all sequencers and their channels. -/
def addJobs (mod : Module) (chans : Ch → Option Chan) (reps : Nat) :
    List (Seq × Ch × Mapping) → List (Ch × Arr) → Except Err (List (Ch × Arr))
  | [], ds => .ok ds
  | j :: js, ds => do
    let ds' ← addJob mod chans reps ds j
    addJobs mod chans reps js ds'

/-- `retrieve_acquisition` (qblox.py:1709-1764) of a module with these sequencers. -/
def retrieve (mod : Module) (chans : Ch → Option Chan) (reps : Nat)
    (jobs : List (Seq × Ch × Mapping)) : Except Err (List (Ch × Arr)) := do
  let _ ← jobs.mapM (fun j => modeOk mod chans j.2.1)
  addJobs mod chans reps jobs []

/-- `_convert_from_cumulative` (qblox.py:1956-1976), with the last cumulative value, over the
reversed list of counts and values: the result in order of insertion. -/
def convertLoop (last : Rat) : List (Nat × Val) → List (Nat × Rat)
  | [] => []
  | (k, v) :: rest =>
    match v with
    | none => convertLoop last rest
    | some x => if last ≠ x then (k + 1, x - last) :: convertLoop x rest else convertLoop last rest

/-- The distribution of counts: pairs of count and number, in the order in which they are returned
(qblox.py:1956-1994, which reverses the result). -/
def convertFromCumulative (values : List Val) : List (Nat × Rat) :=
  (convertLoop 0 (((List.range values.length).zip values).reverse)).reverse

/-- `add_acquisition_coords_nonbinned` (utility.py:213-239): `xarray` refuses coordinates of length
one along a dimension of another length. -/
def nonbinnedCoordsOk (n : Nat) (keys : List String) : Bool := keys.isEmpty || n == 1

/-- Events in the scope data of a QTM. -/
inductive Event where
  | opened | closed | rise
deriving DecidableEq, Repr

/-- The first loop of `_split_timetag_trace_data_per_window` (qblox.py:2702-2709); the windows so
far, the latest one first, with its events in reverse. -/
def windowsLoop : List (Event × Rat) → List (List Rat) → Except Err (List (List Rat))
  | [], acc => .ok acc
  | (.opened, _) :: rest, acc => windowsLoop rest ([] :: acc)
  | (.closed, _) :: rest, acc => windowsLoop rest acc
  | (.rise, _) :: _, [] => .error .indexError
  | (.rise, t) :: rest, w :: acc => windowsLoop rest ((w ++ [t]) :: acc)

/-- The times of one window (qblox.py:2712-2718). -/
def windowTimes (ref : Rat) (w : List Rat) : List Rat :=
  match w with
  | [] => []
  | first :: _ => w.map (fun e => (ref + e - first) / 2048)

/-- `_split_timetag_trace_data_per_window` (qblox.py:2682-2719). -/
def splitWindows (timetags : List Rat) (scope : List (Event × Rat)) : Except Err (List (List Rat)) := do
  let ws ← windowsLoop scope []
  .ok (List.zipWith windowTimes timetags ws.reverse)

/-- `add_acquisition_coords_binned` (utility.py:171-210): the column of a coordinate; `none` is NaN. -/
def coordColumn {U : Type} (key : String) (coords : List (List (String × U))) (idx : List Nat) :
    Except Err (List (Option U)) :=
  idx.mapM (fun a =>
    match coords[a]? with
    | none => .error .indexError
    | some d => .ok (Dict.get? d key))

end Verif.Retrieve
