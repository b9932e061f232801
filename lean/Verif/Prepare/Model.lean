/-
Preparing the modules of a cluster
(quantify_scheduler/instrument_coordinator/components/qblox.py:234-271, 349-411, 446-577, 592-643,
748-965, 968-1060, 1063-1170, 1195-1240, 1276-1312, 1315-1416, 1449-1636;
quantify_scheduler/instrument_coordinator/utility.py:77-123;
quantify_scheduler/backends/types/qblox.py:95-118).

Simplifications:
* Numbers are rational; the sequence of a sequencer (program, waveforms, weights and acquisitions) is a
  value of any type.
* All parameters exist on the instrument.
* The settings of a sequencer and of a module are objects, not dictionaries.
* Names of sequencers are numbers: `seq{n}` is `n`.
* The acquisition managers are in `Retrieve`.
-/
import Verif.Settings.Options
import Verif.AcqSet.Model
import Verif.Common.Dict

set_option autoLift false

namespace Verif.Prepare

open Verif.Connect (Chan Mode Dir ModType)
open Verif.Settings (FParam ModSettings outputIndices)

/-- Exceptions. -/
inductive Err where
  | keyError | valueError
deriving DecidableEq, Repr

/-- Parameters of a sequencer. -/
inductive SeqParam where
  /-- `mod_en_awg`, `demod_en_acq`, `nco_freq` -/
  | modEn | demodEn | ncoFreq
  /-- `offset_awg_path{i}`, `gain_awg_path{i}` -/
  | offset0 | offset1 | gain0 | gain1
  /-- `connect_out{i}`, `connect_acq_I`, `connect_acq_Q`, `connect_acq` -/
  | out (i : Nat) | acqI | acqQ | acq
  /-- `sync_en`, `sequence`, `trigger{a}_threshold_invert`, `trigger{a}_count_threshold` -/
  | sync | sequence | readInvert (a : Nat) | readCount (a : Nat)
  /-- `integration_length_acq`, `ttl_acq_*`, `thresholded_acq_*` -/
  | length | autoBin | ttlThreshold | ttlInput | rotation | threshold | trigAddr | trigEn | trigInvert
  /-- `marker_ovr_en` -/
  | markerOvr
  /-- `mixer_corr_phase_offset_degree`, `mixer_corr_gain_ratio` -/
  | phase | ratio
deriving DecidableEq, Repr

/-- Parameters of an input or output channel of a QTM. -/
inductive IoParam where
  | mode | analogThreshold | forward | onInvalid | scopeTrigger | scopeMode | timeSource | timeRef
  | addrHigh | addrMid | addrLow | addrInvalid | trigEn
deriving DecidableEq, Repr

/-- Parameters of a module. -/
inductive Param where
  | seq (k : Nat) (p : SeqParam)
  | io (ch : Nat) (p : IoParam)
  /-- offsets, gains, attenuations and LO frequencies (`Settings.writes`) -/
  | glob (name : String)
  /-- `Settings.filterWrites` -/
  | filt (p : FParam)
  /-- `scope_acq_trigger_mode_path{i}`, `scope_acq_avg_mode_en_path{i}`, `scope_acq_sequencer_select` -/
  | scopeMode (path : Nat) | scopeAvg (path : Nat) | scopeSelect
deriving DecidableEq, Repr

/-- Values of parameters. -/
inductive Val (σ : Type) where
  | none
  | bool (b : Bool)
  | nat (n : Nat)
  | int (n : Int)
  | num (q : Rat)
  | str (s : String)
  | lit (v : Settings.Val)
  | program (p : σ)
deriving DecidableEq, Repr

/-- Automatic calibrations: of the sideband of a sequencer and of the leakage of an output. -/
inductive Cal where
  | sideband (k : Nat)
  | lo (o : Nat)
deriving DecidableEq, Repr

/-- A module: the values of the parameters, the values the driver remembers (`parameter.cache`,
`none` if not valid), and the calibrations that were run so far. -/
structure Dev (σ : Type) where
  hw : Param → Val σ
  cache : Param → Option (Val σ)
  cals : List Cal

/-- Setting a parameter (qcodes): the value goes to the instrument and to the cache. -/
def Dev.put {σ : Type} (d : Dev σ) (p : Param) (v : Val σ) : Dev σ :=
  { d with
    hw := fun q => if q = p then v else d.hw q
    cache := fun q => if q = p then some v else d.cache q }

/-- `_set_parameter` (components/qblox.py:234-271) and `lazy_set` (utility.py:103-123); `force` is
`force_set_parameters()`. -/
def setParam {σ : Type} [DecidableEq σ] (force : Bool) (d : Dev σ) (e : Param × Val σ) : Dev σ :=
  if force then d.put e.1 e.2
  else if d.cache e.1 = some e.2 then d else d.put e.1 e.2

/-- Several parameters, one after the other. -/
def setAll {σ : Type} [DecidableEq σ] (force : Bool) (ws : List (Param × Val σ)) (d : Dev σ) : Dev σ :=
  ws.foldl (setParam force) d

/-- What running a calibration does to the instrument (the routine of the driver). -/
abbrev Run (σ : Type) := Cal → Dev σ → Dev σ

/-- A calibration is run. -/
def calibrate {σ : Type} (run : Run σ) (c : Cal) (d : Dev σ) : Dev σ :=
  let d' := run c d
  { d' with cals := d.cals ++ [c] }

/-! ### Settings -/

/-- `AnalogSequencerSettings` (types/qblox.py:603-762). -/
structure Analog (σ : Type) where
  syncEn : Bool
  chan : Chan
  outs : List Nat
  ins : List Nat
  sequence : σ
  reads : List (Nat × (Bool × Nat))
  trigEn : Option Bool
  trigAddr : Option Nat
  trigInvert : Bool
  ncoEn : Bool
  offsetI : Rat
  offsetQ : Rat
  gainI : Rat
  gainQ : Rat
  freq : Option Rat
  phase : Option Rat
  ratio : Option Rat
  autoSideband : Bool
  length : Option Int
  threshold : Option Rat
  rotation : Option Rat
  ttlInput : Option Nat
  ttlThreshold : Option Rat
  autoBin : Option Bool

/-- `_get_connected_io_indices` (types/qblox.py:95-98). -/
def ioIndices (c : Chan) : List Nat :=
  match c.mode with
  | .complex => [2 * c.idx, 2 * c.idx + 1]
  | _ => [c.idx]

/-- `_get_connected_input_indices` (types/qblox.py:105-118).  A list of two or more inputs is
`(0, 1)`. -/
def inputIndices (c : Chan) (measure : Option (List Chan)) : List Nat :=
  match c.dir, measure with
  | .input, none => ioIndices c
  | .input, some _ => []
  | .output, none => []
  | .output, some [m] => ioIndices m
  | .output, some _ => [0, 1]

/-- A parameter that is set unless the setting is `None`. -/
def opt {σ α : Type} (p : Param) (f : α → Val σ) : Option α → List (Param × Val σ)
  | none => []
  | some a => [(p, f a)]

/-! ### Sequencers of analog modules -/

/-- `_ModuleComponentBase._configure_sequencer_settings` (390-411). -/
def baseWrites {σ : Type} (k : Nat) (syncEn : Bool) (sequence : σ) (reads : List (Nat × (Bool × Nat))) :
    List (Param × Val σ) :=
  [(.seq k .sync, .bool syncEn), (.seq k .sequence, .program sequence)] ++
  reads.flatMap fun r =>
    [(.seq k (.readInvert r.1), .bool r.2.1), (.seq k (.readCount r.1), .nat r.2.2)]

/-- `number_of_sequencers` and `number_of_output_channels` (137-186). -/
def numSeqs : ModType → Nat
  | .qrc => 12
  | .qtm => 8
  | _ => 6
def numOuts : ModType → Nat
  | .qcm => 4
  | .qrm => 2
  | .qcmRf => 2
  | .qrmRf => 1
  | .qrc => 6
  | .qtm => 8

/-- The setting of an output of a baseband module (531-553). -/
def basebandOut {σ : Type} (s : Analog σ) (i : Nat) : String :=
  if i ∈ s.outs then
    match s.chan.mode with
    | .complex => if i % 2 = 0 then "I" else "Q"
    | .real => "I"
    | .digital => "off"
  else "off"

/-- The setting of an output of an RF module (1129-1150). -/
def rfOut {σ : Type} (s : Analog σ) (i : Nat) : String :=
  if s.chan.mode ≠ .digital ∧ s.outs = [2 * i, 2 * i + 1] then "IQ" else "off"

/-- RF modules. -/
def isRf : ModType → Bool
  | .qcmRf | .qrmRf | .qrc => true
  | _ => false

/-- `_determine_output_channel_map_parameters`. -/
def outWrites {σ : Type} (t : ModType) (k : Nat) (s : Analog σ) : List (Param × Val σ) :=
  (List.range (numOuts t)).map fun i =>
    (.seq k (.out i), .str (if isRf t then rfOut s i else basebandOut s i))

/-- `_determine_input_channel_map_parameters` (920-938, 1303-1312, 1396-1408). -/
def inWrites {σ : Type} (t : ModType) (k : Nat) (s : Analog σ) : List (Param × Val σ) :=
  match t with
  | .qrm => [(.seq k .acqI, .str (if 0 ∈ s.ins then "in0" else "off")),
             (.seq k .acqQ, .str (if 1 ∈ s.ins then "in1" else "off"))]
  | .qrmRf => [(.seq k .acq, .str (if s.ins = [0, 1] then "in0" else "off"))]
  | .qrc => [(.seq k .acq, .str (if s.ins = [0, 1] then "in0" else if s.ins = [2, 3] then "in1" else "off"))]
  | _ => []

/-- `None` or a number. -/
def optNum {σ : Type} : Option Rat → Val σ
  | none => .none
  | some q => .num q

/-- `_AnalogModuleComponent._configure_sequencer_settings` (462-517). -/
def analogWrites {σ : Type} (t : ModType) (k : Nat) (s : Analog σ) : List (Param × Val σ) :=
  (if s.ncoEn then [(.seq k .ncoFreq, optNum s.freq)] else []) ++
  [(.seq k .offset0, .num s.offsetI), (.seq k .offset1, .num s.offsetQ),
   (.seq k .gain0, .num s.gainI), (.seq k .gain1, .num s.gainQ)] ++
  outWrites t k s ++ inWrites t k s ++ baseWrites k s.syncEn s.sequence s.reads

/-- The trigger of thresholded acquisitions (890-905). -/
def trigWrites {σ : Type} (k : Nat) (invert : Bool) : Option Bool → List (Param × Val σ)
  | none => []
  | some b => [(.seq k .trigEn, .bool b), (.seq k .trigInvert, .bool invert)]

/-- The additional settings of readout modules (859-908). -/
def readoutWrites {σ : Type} (k : Nat) (s : Analog σ) : List (Param × Val σ) :=
  opt (.seq k .length) .int s.length ++ opt (.seq k .autoBin) .bool s.autoBin ++
  opt (.seq k .ttlThreshold) .num s.ttlThreshold ++ opt (.seq k .ttlInput) .nat s.ttlInput ++
  opt (.seq k .rotation) .num s.rotation ++ opt (.seq k .threshold) .num s.threshold ++
  opt (.seq k .trigAddr) .nat s.trigAddr ++
  trigWrites k s.trigInvert s.trigEn

/-- `_configure_sequencer_settings` of each class (640-643, 859-908, 1055-1060, 1120-1127, 1410-1414):
the parameters that are set, in the order in which they are set. -/
def seqWrites {σ : Type} (t : ModType) (k : Nat) (s : Analog σ) : List (Param × Val σ) :=
  match t with
  | .qcm => (.seq k .modEn, .bool s.ncoEn) :: analogWrites t k s
  | .qcmRf => (.seq k .modEn, .bool s.ncoEn) :: analogWrites t k s ++ [(.seq k .markerOvr, .bool false)]
  | .qrm => (.seq k .modEn, .bool s.ncoEn) :: (.seq k .demodEn, .bool s.ncoEn) :: analogWrites t k s ++
      readoutWrites k s
  | .qrmRf => (.seq k .modEn, .bool s.ncoEn) :: (.seq k .demodEn, .bool s.ncoEn) :: analogWrites t k s ++
      readoutWrites k s ++ [(.seq k .markerOvr, .bool false)]
  | .qrc => analogWrites t k s ++ readoutWrites k s ++ [(.seq k .markerOvr, .bool false)]
  | .qtm => []

/-- The mixer corrections that are set if there is no calibration (566-577). -/
def mixerWrites {σ : Type} (k : Nat) (s : Analog σ) : List (Param × Val σ) :=
  opt (.seq k .phase) .num s.phase ++ opt (.seq k .ratio) .num s.ratio

/-- A module while it is prepared, with `_nco_frequency_changed`. -/
structure Prep (σ : Type) where
  dev : Dev σ
  changed : List (Nat × Bool)

/-- `_configure_sequencer_settings` of a sequencer in the program (614-628, 778-794).  A QRC needs the
NCO (1410-1414). -/
def configure {σ : Type} [DecidableEq σ] (force : Bool) (t : ModType) (x : Prep σ)
    (e : Nat × Analog σ) : Except Err (Prep σ) :=
  if e.1 < numSeqs t then
    if t = .qrc ∧ e.2.ncoEn = false then .error .valueError
    else .ok
      { dev := setAll force (seqWrites t e.1 e.2) x.dev
        changed := Dict.set x.changed e.1
          (e.2.ncoEn && decide (x.dev.cache (.seq e.1 .ncoFreq) ≠ some (optNum e.2.freq))) }
  else .error .keyError

/-- `_configure_nco_mixer_calibration` (555-577). -/
def mixer {σ : Type} [DecidableEq σ] (force : Bool) (run : Run σ) (x : Prep σ)
    (e : Nat × Analog σ) : Except Err (Prep σ) :=
  if e.2.autoSideband then
    match Dict.get? x.changed e.1 with
    | none => .error .keyError
    | some true => .ok { x with dev := calibrate run (.sideband e.1) x.dev }
    | some false => .ok { x with dev := setAll force (mixerWrites e.1 e.2) x.dev }
  else .ok { x with dev := setAll force (mixerWrites e.1 e.2) x.dev }

/-- A sequencer of a QCM (614-630). -/
def qcmStep {σ : Type} [DecidableEq σ] (force : Bool) (run : Run σ) (t : ModType) (x : Prep σ)
    (e : Nat × Analog σ) : Except Err (Prep σ) :=
  match configure force t x e with
  | .error err => .error err
  | .ok x' => mixer force run x' e

/-! ### Modules -/

/-- `LoCalEnum` (enums.py). -/
inductive LoCal where
  | off | loChange | loIntermChange
deriving DecidableEq, Repr

/-- The program of a module: settings of the sequencers, of the module, and where traces are. -/
structure Program (σ : Type) where
  seqs : List (Nat × Analog σ)
  settings : Option (ModSettings × Settings.Filters)
  /-- `out{i}_lo_freq_cal_type_default` -/
  loCal : Nat → LoCal
  /-- `acq_hardware_mapping`: the acquisition channels of each sequencer -/
  mapping : Option (List (Nat × List Nat))
  /-- acquisition channels with traces (in `acq_channels_data`) -/
  traces : List Nat

/-- Sync is disabled on all sequencers (608-609, 774-775). -/
def syncOff {σ : Type} (t : ModType) : List (Param × Val σ) :=
  (List.range (numSeqs t)).map fun k => (.seq k .sync, .bool false)

/-- The settings of the module without LO frequencies (659-719, 818-855, 1178-1196, 1254-1272,
1356-1366). -/
def globalWrites {σ : Type} (t : ModType) (p : Program σ) : List (Param × Val σ) :=
  match p.settings with
  | none => []
  | some (m, f) => (Settings.writes t { m with los := [] }).map (fun e => (.glob e.1, .lit e.2)) ++
      (Settings.filterWrites t f).map (fun e => (.filt e.1, .lit e.2))

/-- The outputs of the module with an LO, and the parameters of its frequency (1202-1216, 1279-1288,
1368-1382). -/
def loParams : ModType → List (Nat × String)
  | .qcmRf => [(0, "out0_lo_freq"), (1, "out1_lo_freq")]
  | .qrmRf => [(0, "out0_in0_lo_freq")]
  | .qrc => [(0, "out0_in0_lo_freq"), (1, "out1_in1_lo_freq"), (2, "out2_lo_freq"), (3, "out3_lo_freq"),
      (4, "out4_lo_freq"), (5, "out5_lo_freq")]
  | _ => []

/-- The sequencers at an output (1101-1107, 1152-1168). -/
def connectedSeqs {σ : Type} (p : Program σ) (o : Nat) : List Nat :=
  (p.seqs.filter fun e => decide (rfOut e.2 o = "IQ")).map Prod.fst

/-- The frequency of an LO, and its calibration (1198-1240, 1274-1301, 1368-1382).  The QRC has no
calibration. -/
def loStep {σ : Type} [DecidableEq σ] (force : Bool) (m : ModSettings) (d : Dev σ × List (Nat × Bool))
    (e : Nat × String) : Dev σ × List (Nat × Bool) :=
  match Settings.getOpt m.los e.1 with
  | none => (d.1, d.2 ++ [(e.1, false)])
  | some f =>
    (setParam force d.1 (.glob e.2, .lit (.num f)),
     d.2 ++ [(e.1, decide (d.1.cache (.glob e.2) ≠ some (.lit (.num f))))])

/-- Is the LO calibrated? (1219-1240) -/
def loNeeds {σ : Type} (p : Program σ) (changed : List (Nat × Bool)) (o : Nat) (loChanged : Bool) : Bool :=
  match p.loCal o with
  | .off => false
  | .loChange => loChanged
  | .loIntermChange => loChanged ||
      (connectedSeqs p o).any fun k => (Dict.get? changed k).getD false

/-- The calibrations of the LOs, after all frequencies were set. -/
def loCalStep {σ : Type} (run : Run σ) (p : Program σ) (changed : List (Nat × Bool)) (d : Dev σ)
    (e : Nat × Bool) : Dev σ :=
  if loNeeds p changed e.1 e.2 then calibrate run (.lo e.1) d else d

/-- `_configure_lo_settings`. -/
def loSettings {σ : Type} [DecidableEq σ] (force : Bool) (run : Run σ) (t : ModType) (p : Program σ)
    (x : Prep σ) : Dev σ :=
  match p.settings with
  | none => x.dev
  | some (m, _) =>
    let r := (loParams t).foldl (loStep force m) (x.dev, [])
    if t = .qrc then r.1 else r.2.foldl (loCalStep run p x.changed) r.1

/-- The inner part of `_determine_scope_mode_acquisition_sequencer_and_qblox_acq_index` (940-965). -/
def scopeStep (ch : Nat) (found : Option Nat) (e : Nat × List Nat) :
    Except Err (Option Nat) :=
  if ch ∈ e.2 then
    match found with
    | some k => if k ≠ e.1 then .error .valueError else .ok (some e.1)
    | none => .ok (some e.1)
  else .ok found

/-- `_determine_scope_mode_acquisition_sequencer_and_qblox_acq_index`. -/
def scopeSeq (traces : List Nat) (mapping : List (Nat × List Nat)) : Except Err (Option Nat) :=
  traces.foldlM (fun found ch => mapping.foldlM (scopeStep ch) found) none

/-- The sequencer whose traces are recorded (796-803, 1046-1052, 1336-1352). -/
def scopeOf {σ : Type} (p : Program σ) : Except Err (Option Nat) :=
  match p.mapping with
  | none => .ok none
  | some m => scopeSeq p.traces m

/-- Settings of scopes that are always the same (820-822). -/
def scopeWrites {σ : Type} (t : ModType) : List (Param × Val σ) :=
  let paths := match t with
    | .qrm | .qrmRf => 2
    | .qrc => 4
    | _ => 0
  (List.range paths).flatMap fun i =>
    [(.scopeMode i, .str "sequencer"), (.scopeAvg i, .bool true)]

/-- `prepare` of a QCM and QCM-RF (592-638, 1063-1118). -/
def prepareQcm {σ : Type} [DecidableEq σ] (force : Bool) (run : Run σ) (t : ModType) (p : Program σ)
    (d : Dev σ) : Except Err (Dev σ) :=
  match p.seqs.foldlM (qcmStep force run t) ⟨setAll force (globalWrites t p ++ syncOff t) d, []⟩ with
  | .error e => .error e
  | .ok x => .ok (loSettings force run t p x)

/-- `prepare` of a QRM, QRM-RF and QRC (748-822, 994-1052, 1086-1118, 1334-1352). -/
def prepareQrm {σ : Type} [DecidableEq σ] (force : Bool) (run : Run σ) (t : ModType) (p : Program σ)
    (d : Dev σ) : Except Err (Dev σ) :=
  match p.seqs.foldlM (configure force t) ⟨setAll force (syncOff t) d, []⟩ with
  | .error e => .error e
  | .ok x =>
    match scopeOf p with
    | .error e => .error e
    | .ok scope =>
      let select : List (Param × Val σ) := opt .scopeSelect .nat scope
      let y : Prep σ := { x with dev := setAll force (globalWrites t p ++ scopeWrites t) x.dev }
      if t = .qrc then
        .ok (setAll force select (loSettings force run t p y))
      else
        match p.seqs.foldlM (mixer force run) y with
        | .error e => .error e
        | .ok z => .ok (loSettings force run t p { z with dev := setAll force select z.dev })

/-- `prepare` of an analog module. -/
def prepare {σ : Type} [DecidableEq σ] (force : Bool) (run : Run σ) (t : ModType) (p : Program σ)
    (d : Dev σ) : Except Err (Dev σ) :=
  match t with
  | .qcm | .qcmRf => prepareQcm force run t p d
  | _ => prepareQrm force run t p d

/-! ### Timetag modules -/

/-- `TimetagSequencerSettings` (types/qblox.py:866-975); `acq` are the settings that come from the
acquisitions (`AcqSet.qtm`). -/
structure Timetag (σ : Type) where
  syncEn : Bool
  outs : List Nat
  ins : List Nat
  sequence : σ
  reads : List (Nat × (Bool × Nat))
  analogThreshold : Option Rat
  acq : AcqSet.Qtm

/-- `str` of a `TimeSource` (enums.py). -/
def sourceName : AcqSet.TimeSource → String
  | .first => "first"
  | .second => "second"
  | .last => "last"

/-- The name of a reference (components/qblox.py:1586-1596). -/
def refName (r : AcqSet.TimeRef) (channel : Option Nat) : String :=
  match r with
  | .timestamp => "sequencer"
  | .port => "first" ++ (match channel with
    | some c => toString c
    | none => "None")
  | .start => "start"
  | .end => "end"
  | .first => "first"

/-- The scope of a channel (1562-1576). -/
def traceWrites {σ : Type} (k : Nat) : Option AcqSet.TraceType → List (Param × Val σ)
  | none => []
  | some .scope => [(.io k .scopeTrigger, .str "sequencer"), (.io k .scopeMode, .str "scope")]
  | some .timetag => [(.io k .scopeTrigger, .str "sequencer"), (.io k .scopeMode, .str "timetags-windowed")]

/-- `_configure_io_channel_settings` (components/qblox.py:1514-1628). -/
def ioWrites {σ : Type} (k : Nat) (s : Timetag σ) : List (Param × Val σ) :=
  s.ins.map (fun c => (.io c .mode, .str "input")) ++
  s.outs.map (fun c => (.io c .mode, .str "output")) ++
  opt (.io k .analogThreshold) .num s.analogThreshold ++
  [(.io k .forward, .bool false), (.io k .onInvalid, .str "record_0")] ++
  traceWrites k s.acq.trace ++
  opt (.io k .timeSource) (fun x => .str (sourceName x)) s.acq.source ++
  opt (.io k .timeRef) (fun x => .str (refName x s.acq.refChannel)) s.acq.ref ++
  [(.io k .addrHigh, .nat s.acq.aHigh), (.io k .addrMid, .nat s.acq.aMid),
   (.io k .addrLow, .nat s.acq.aLow), (.io k .addrInvalid, .nat s.acq.aInvalid)] ++
  opt (.io k .trigEn) .bool s.acq.trigEn

/-- A sequencer of a QTM (1474-1487). -/
def qtmStep {σ : Type} [DecidableEq σ] (force : Bool) (d : Dev σ) (e : Nat × Timetag σ) :
    Except Err (Dev σ) :=
  if e.1 < numSeqs .qtm then
    .ok (setAll force (baseWrites e.1 e.2.syncEn e.2.sequence e.2.reads ++ ioWrites e.1 e.2) d)
  else .error .keyError

/-- `prepare` of a QTM (1449-1503). -/
def prepareQtm {σ : Type} [DecidableEq σ] (force : Bool) (seqs : List (Nat × Timetag σ)) (d : Dev σ) :
    Except Err (Dev σ) :=
  seqs.foldlM (qtmStep force) (setAll force (syncOff .qtm) d)

end Verif.Prepare
