/-
Acquisitions of a UHFQA (quantify_scheduler/backends/zhinst_backend.py:80-81, 118-121, 1970-1990, 2036-2187;
zhinst/helpers.py:428-545; zhinst/settings.py:655-790; zhinst/resolvers.py;
instrument_coordinator/components/zhinst.py:267-342).

Simplifications:
* Only the settings of the quantum analyser that matter for the results are modelled, in the order in which they are
  written; weights are lists of rationals.
* `acq_channel` is a natural number.
* `waveform_id` is an arbitrary type `ι`; `wf` is `numerical_wf_dict`, complex samples are pairs.
* A dataset is the list of its arrays.
-/
import Verif.Zi.Time
import Verif.Zi.Seqc
import Verif.Common.Dict

namespace Verif.Zi

open Verif.Numeric (pyRound)

/-- Acquisition protocols. -/
inductive Proto where
  | trace | ssb | other
deriving DecidableEq, Repr

/-- Bin modes (enums.py:40-44). -/
inductive BinMode where
  | average | append | other
deriving DecidableEq, Repr

/-- Settings of the quantum analyser: integration weights of a node, integration length, result length, averages, and
the input monitor. -/
inductive Setting where
  | real (node : Nat) (w : List Rat)
  | imag (node : Nat) (w : List Rat)
  | integrationLength (n : Int)
  | resultLength (n : Nat)
  | resultAverages (n : Nat)
  | resultEnable (on : Bool)
  | monitorEnable (on : Bool)
  | monitorAverages (n : Nat)
  | monitorLength (n : Int)
deriving DecidableEq, Repr

/-- `acquisition_info` of an acquisition and its waveform. -/
structure AcqInfo (ι : Type) where
  wave : ι
  channel : Nat
  protocol : Proto
  duration : Rat
deriving DecidableEq, Repr

/-- `ZIAcquisitionConfig`; the resolver of a channel depends on the channel and the protocol only. -/
structure AcqConfig where
  n : Nat
  resolvers : List (Nat × Proto)
  binMode : BinMode
deriving DecidableEq, Repr

/-- `_extract_acquisition_metadata_from_acquisition_protocols` (helpers.py:480-545): the bin mode of all acquisitions of
the schedule. -/
def binModeOf : List (Proto × BinMode) → Except Err BinMode
  | [] => .error .indexError
  | a :: rest => if (a :: rest).all fun b => decide (b = a) then .ok a.2 else .error .runtimeError

/-- `drop_duplicates(subset="waveform_id")` (2042-2044). -/
def firstAcqs {ι : Type} [DecidableEq ι] : List ι → List (AcqInfo ι) → List (AcqInfo ι)
  | _, [] => []
  | seen, a :: rest => if a.wave ∈ seen then firstAcqs seen rest else a :: firstAcqs (a.wave :: seen) rest

/-- Zeros, or ones, for all nodes (1984-1990, 2108-2114). -/
def allWeights (x : Rat) : List Setting :=
  (List.range 10).map (fun k => .real k (List.replicate 4096 x)) ++
    (List.range 10).map fun k => .imag k (List.replicate 4096 x)

/-- `weights[0 : len(waveform)] = waveform` (2133-2137). -/
def padded (w : List Rat) : List Rat := w ++ List.replicate (4096 - w.length) 0

/-- The four weights of an acquisition channel (2139-2150); a node above 9 is refused (settings.py:731, 774). -/
def ssbWeights (channel : Nat) (w : List (Rat × Rat)) : Except Err (List Setting) :=
  if 4096 < w.length then .error .valueError
  else if 10 ≤ 2 * channel + 1 then .error .valueError
  else .ok
    [.real (2 * channel) (padded (w.map Prod.fst)), .imag (2 * channel) (padded (w.map Prod.snd)),
      .real (2 * channel + 1) (padded (w.map Prod.snd)),
      .imag (2 * channel + 1) ((padded (w.map Prod.fst)).map fun x => -1 * x)]

/-- The settings of one acquisition (2103-2160). -/
def acqSettings {ι : Type} (rate : Rat) (averages : Nat) (wf : ι → Option (List (Rat × Rat))) (a : AcqInfo ι) :
    Except Err (List Setting) :=
  match a.protocol with
  | .other => .error .valueError
  | .trace => .ok ([.monitorEnable true, .monitorAverages averages, .monitorLength (pyRound (a.duration * rate))] ++
      allWeights 1)
  | .ssb =>
    match wf a.wave with
    | none => .error .keyError
    | some w => ssbWeights a.channel w

/-- The loop over the unique acquisitions (2061-2160): `dur` is `acq_duration`, `used` is `acq_channels_used`. -/
def acqLoop {ι : Type} (rate : Rat) (averages : Nat) (wf : ι → Option (List (Rat × Rat))) :
    Option Rat → List Nat → List (AcqInfo ι) → Except Err (List Setting × List (Nat × Proto))
  | _, _, [] => .ok ([], [])
  | dur, used, a :: rest =>
    if dur.getD a.duration ≠ a.duration then .error .valueError
    else if a.protocol = .other then .error .valueError
    else if a.channel ∈ used then .error .valueError
    else
      match acqSettings rate averages wf a with
      | .error e => .error e
      | .ok s =>
        match acqLoop rate averages wf (some a.duration) (a.channel :: used) rest with
        | .error e => .error e
        | .ok (s', r) => .ok (s ++ s', (a.channel, a.protocol) :: r)

/-- The settings and the configuration of the acquisitions of a UHFQA (`_compile_for_uhfqa`, 1984-1990, 2036-2187).
`acqs` are all its acquisitions in the order of time. -/
def configure {ι : Type} [DecidableEq ι] (rate : Rat) (reps : Nat) (bm : BinMode)
    (wf : ι → Option (List (Rat × Rat))) (acqs : List (AcqInfo ι)) : Except Err (List Setting × AcqConfig) :=
  match bm with
  | .other => .error .notImplemented
  | _ =>
    let n := acqs.length
    let length := if bm = .append then n * reps else n
    let averages := if bm = .append then 1 else reps
    match acqLoop rate averages wf none [] (firstAcqs [] acqs) with
    | .error e => .error e
    | .ok (s, r) =>
      match acqs with
      | [] => .ok (allWeights 0 ++ s, ⟨n, r, bm⟩)
      | a :: _ =>
        if 4096 < pyRound (a.duration * rate) then .error .assertionError
        else .ok
          (allWeights 0 ++ s ++ [.integrationLength (pyRound (a.duration * rate)), .resultEnable false,
            .monitorEnable false, .resultLength length, .resultEnable true, .resultAverages averages], ⟨n, r, bm⟩)

/-! ### Results -/

/-- An array of a dataset: dimensions `acq_index`; `repetition` and `acq_index`; `acq_index` and `trace_index`. -/
inductive Arr where
  | average (v : List (Rat × Rat))
  | append (v : List (List (Rat × Rat)))
  | trace (v : List (Rat × Rat))
deriving DecidableEq, Repr

/-- `result_acquisition_resolver` (resolvers.py:36-58), from the values of the two nodes. -/
def combine (v0 v1 : List (Rat × Rat)) : List (Rat × Rat) :=
  List.zipWith (fun a b => (a.1 + a.2, b.1 + b.2)) v0 v1

/-- `data.reshape((-1, n))`: rows of length `n`; an array of another size cannot be reshaped.  `fuel` is the number of
rows. -/
def chunks (n : Nat) : Nat → List (Rat × Rat) → List (List (Rat × Rat))
  | 0, _ => []
  | fuel + 1, l => l.take n :: chunks n fuel (l.drop n)

/-- The array of a channel (components/zhinst.py:281-336). -/
def arrayOf (cfg : AcqConfig) (protocol : Proto) (data monitor : List (Rat × Rat)) : Except Err Arr :=
  match protocol, cfg.binMode with
  | .trace, .average => .ok (.trace monitor)
  | .ssb, .average => if data.length = cfg.n then .ok (.average data) else .error .valueError
  | .ssb, .append =>
    if cfg.n = 0 ∨ data.length % cfg.n ≠ 0 then .error .valueError
    else .ok (.append (chunks cfg.n (data.length / cfg.n) data))
  | _, _ => .error .notImplemented

/-- `retrieve_acquisition` (components/zhinst.py:267-342), from the values of the result nodes and the monitor. -/
def retrieveQa (cfg : AcqConfig) (nodes : Nat → List (Rat × Rat)) (monitor : List (Rat × Rat)) :
    List (Nat × Proto) → Except Err (List (Nat × Arr))
  | [] => .ok []
  | (c, pr) :: rest =>
    match arrayOf cfg pr (combine (nodes (2 * c)) (nodes (2 * c + 1))) monitor with
    | .error e => .error e
    | .ok a =>
      match retrieveQa cfg nodes monitor rest with
      | .error e => .error e
      | .ok l => .ok ((c, a) :: l)

end Verif.Zi
