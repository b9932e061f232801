/-
Settings of a module that come from hardware options and channel descriptions
(quantify_scheduler/backends/qblox/analog.py:701-901, 1204-1278, backends/qblox/instrument_compilers.py:186-275,
backends/qblox/helpers.py:986-1040, backends/types/qblox.py:271-330, 397-505,
instrument_coordinator/components/qblox.py:659-716, 823-854, 1186-1204, 1262-1276, 1363-1390).

Simplifications:
* Numbers are rational; channel indices have one digit.
* An option that is not given (`None`) and an empty one are the same.
* `model_fields_set`, a Python set, is a list in an arbitrary order.
-/
import Verif.Settings.Freq

set_option autoLift false

namespace Verif.Settings

open Verif.Connect (PC Chan Mode Dir ModType)

/-! ### Input gains -/

/-- `RealInputGain` or `ComplexInputGain` (types/qblox.py:1345-1388). -/
inductive Gain where
  | complex (i q : Int)
  | real (g : Int)
deriving DecidableEq, Repr

/-- The gains found so far, and those found up to the last port-clock with a gain. -/
structure GainSt where
  in0 : Option Int
  in1 : Option Int
  prev : Option (Option Int × Option Int)
deriving DecidableEq, Repr

/-- Two values that are both there and differ. -/
def differ (a b : Option Int) : Bool :=
  match a, b with
  | some x, some y => decide (x ≠ y)
  | _, _ => false

/-- The new `in0_gain` (analog.py:720-727). -/
def newIn0 (g : Gain) (idx : Nat) (old : Option Int) : Option Int :=
  match g with
  | .complex i _ => some i
  | .real x => if idx = 0 then some x else old

/-- The new `in1_gain` (analog.py:720-727). -/
def newIn1 (g : Gain) (idx : Nat) (old : Option Int) : Option Int :=
  match g with
  | .complex _ q => some q
  | .real x => if idx = 1 then some x else old

/-- The loop body of `_configure_input_gains` (analog.py:711-752). -/
def gainStep (gains : PC → Option Gain) (st : GainSt) (e : PC × Chan) : Except Err GainSt :=
  match gains e.1 with
  | none => .ok st
  | some g =>
    let in0 := newIn0 g e.2.idx st.in0
    let in1 := newIn1 g e.2.idx st.in1
    match st.prev with
    | none => .ok ⟨in0, in1, some (in0, in1)⟩
    | some (p0, p1) =>
      if differ in0 p0 || differ in1 p1 then .error .valueError
      else .ok ⟨in0, in1, some (in0, in1)⟩

/-- `_configure_input_gains` (analog.py:701-755): `in0_gain` and `in1_gain`. -/
def inputGains (pcs : List (PC × Chan)) (gains : PC → Option Gain) :
    Except Err (Option Int × Option Int) :=
  match pcs.foldlM (gainStep gains) ⟨none, none, none⟩ with
  | .error e => .error e
  | .ok st => .ok (st.in0, st.in1)

/-! ### Attenuation -/

/-- Channel names. -/
def complexOut (i : Nat) : Chan := ⟨.complex, .output, i⟩
def complexIn (i : Nat) : Chan := ⟨.complex, .input, i⟩

/-- `_convert_to_int` (analog.py:1213-1220): `math.isclose(value % 1, 0)` holds for zero only. -/
def toInt (v : Option Rat) : Except Err (Option Int) :=
  match v with
  | none => .ok none
  | some x => if x.den = 1 then .ok (some x.num) else .error .valueError

/-- The first loop of `assign_attenuation` (analog.py:1228-1233). -/
def inAttLoop (pcs : List (PC × Chan)) (att : PC → Option Rat) : Option Rat :=
  pcs.foldl (fun a e => if e.2 = complexIn 0 then att e.1 else a) none

/-- Attenuations found so far. -/
structure AttSt where
  in0 : Option Rat
  out0 : Option Rat
  out1 : Option Rat
deriving DecidableEq, Repr

/-- The body of the second loop of `assign_attenuation` (analog.py:1235-1256). -/
def attStep (inAtt outAtt : PC → Option Rat) (st : AttSt) (e : PC × Chan) : Except Err AttSt :=
  if e.2 = complexOut 0 then
    match inAtt e.1 with
    | none => .ok { st with out0 := outAtt e.1 }
    | some a =>
      match st.in0 with
      | some _ => .error .valueError
      | none => .ok { st with in0 := some a, out0 := outAtt e.1 }
  else if e.2 = complexOut 1 then .ok { st with out1 := outAtt e.1 }
  else .ok st

/-- The attenuations of an RF module: `in0_att`, `out0_att`, `out1_att`. -/
structure Att where
  in0 : Option Int
  out0 : Option Int
  out1 : Option Int
deriving DecidableEq, Repr

/-- `RFModuleCompiler.assign_attenuation` (analog.py:1204-1260).  If `output_att` is not given at all, the
values stay `None`, which is what looking up nothing gives. -/
def attenuation (pcs : List (PC × Chan)) (inAtt outAtt : PC → Option Rat) : Except Err Att :=
  match pcs.foldlM (attStep inAtt outAtt) ⟨inAttLoop pcs inAtt, none, none⟩ with
  | .error e => .error e
  | .ok st =>
    match toInt st.in0 with
    | .error e => .error e
    | .ok i =>
      match toInt st.out0 with
      | .error e => .error e
      | .ok o0 =>
        match toInt st.out1 with
        | .error e => .error e
        | .ok o1 => .ok ⟨i, o0, o1⟩

/-! ### Mixer offsets -/

/-- `BoundedParameter` of the mixer offsets: range, and whether the unit is millivolts
(instrument_compilers.py:181, 286, 307, 333, 358). -/
def offsetRange : ModType → Rat × Rat × Bool
  | .qcm => (-5/2, 5/2, false)
  | .qrm => (-1/2, 1/2, false)
  | _ => (-50, 50, true)

/-- `calc_from_units_volt` (helpers.py:986-1040). -/
def unitsVolt (t : ModType) (v : Rat) : Except Err Rat :=
  let r := offsetRange t
  let x := if r.2.2 then v * 1000 else v
  if x < r.1 ∨ x > r.2.1 then .error .valueError else .ok x

/-- Offsets of the two paths of an output. -/
abbrev Offsets := Option (Rat × Rat)

/-- The inner loop of `_configure_mixer_offsets` (analog.py:762-811) for output `k`; `corr` are the
offsets of the mixer corrections of a port-clock. -/
def offsetStep (t : ModType) (corr : PC → Option (Rat × Rat)) (k : Nat) (st : Offsets) (e : PC × Chan) :
    Except Err Offsets :=
  if e.2 = complexOut k then
    match corr e.1 with
    | none => .ok st
    | some (i, q) =>
      match unitsVolt t i with
      | .error e => .error e
      | .ok i' =>
        match unitsVolt t q with
        | .error e => .error e
        | .ok q' => .ok (some (i', q'))
  else .ok st

/-- `_configure_mixer_offsets` (analog.py:757-811): the offsets of outputs 0 and 1. -/
def mixerOffsets (t : ModType) (pcs : List (PC × Chan)) (corr : PC → Option (Rat × Rat)) :
    Except Err (Offsets × Offsets) :=
  match pcs.foldlM (offsetStep t corr 0) none with
  | .error e => .error e
  | .ok a =>
    match pcs.foldlM (offsetStep t corr 1) none with
    | .error e => .error e
    | .ok b => .ok (a, b)

/-! ### Hardware filters -/

/-- The real-time filters of an output. -/
inductive Stage where
  | exp0 | exp1 | exp2 | exp3 | fir
deriving DecidableEq, Repr

/-- `QbloxFilterConfig` (qblox/enums.py:18-23). -/
inductive FConfig where
  | bypassed | enabled | delayComp
deriving DecidableEq, Repr

/-- `QbloxRealTimeFilter` (types/qblox.py:271-284); `markerDelay` is true for `DELAY_COMP`. -/
structure Filter where
  coeffs : Option (List Rat)
  config : FConfig
  markerDelay : Bool
deriving DecidableEq, Repr

/-- The filters of an output as they are constructed (types/qblox.py:304-316). -/
def Filter.init : Filter := ⟨none, .bypassed, false⟩

/-- `distortion_corrections` of the module (types/qblox.py:412-414): four outputs. -/
abbrev Filters := Nat → Stage → Filter

def Filters.init : Filters := fun _ _ => .init

/-- The bit of a filter in `distortion_correction_latency_compensation` (qblox/enums.py:33-47). -/
def Stage.bit : Stage → Nat
  | .exp0 => 1
  | .exp1 => 2
  | .exp2 => 3
  | .exp3 => 4
  | .fir => 5

/-- Changes the filters of output `o`. -/
def Filters.update (f : Filters) (o : Nat) (g : Stage → Filter → Filter) : Filters :=
  fun o' s => if o' = o then g s (f o' s) else f o' s

/-- `_configure_dc_latency_comp_for_output` (analog.py:857-875). -/
def latencyOutput (f : Filters) (o comp : Nat) : Except Err Filters :=
  if o < 4 then
    .ok (f.update o fun s x => { x with config := if comp.testBit s.bit then .delayComp else .bypassed })
  else .error .indexError

/-- `_configure_dc_latency_comp_for_marker` (analog.py:877-897, for RF modules 1262-1278). -/
def latencyMarker (t : ModType) (f : Filters) (o comp : Nat) : Except Err Filters :=
  let o' := if isRf t then o + 2 else o
  if o' < 4 then .ok (f.update o' fun s x => { x with markerDelay := comp.testBit s.bit })
  else .error .indexError

/-- The part of a channel description that has to do with filters. -/
structure FDesc where
  comp : Nat
  debug : Bool
deriving DecidableEq, Repr

/-- The marker of an RF output (instrument_compilers.py:306-361): the values of
`channel_name_to_digital_marker` for complex outputs. -/
def rfMarker : ModType → Nat → Option Nat
  | .qcmRf, 0 => some 1
  | .qcmRf, 1 => some 2
  | .qrmRf, 0 => some 2
  | _, _ => none

/-- The loop over the outputs of a channel (analog.py:836-855). -/
def latencyStep (t : ModType) (used : List Chan) (c : Chan) (d : FDesc) (f : Filters) (o : Nat) :
    Except Err Filters :=
  if c.mode = .digital then latencyMarker t f o d.comp
  else if d.debug then
    if (⟨.digital, .output, o⟩ : Chan) ∈ used then .error .valueError
    else
      let marker := match c.mode, c.dir with
        | .complex, .output => match rfMarker t c.idx with | some m => (m + 1) % 2 | none => o
        | _, _ => o
      match latencyMarker t f marker d.comp with
      | .error e => .error e
      | .ok f' => latencyOutput f' o d.comp
  else latencyOutput f o d.comp

/-- `_configure_distortion_correction_latency_compensations` (analog.py:813-855); `descs` are the
channels that have a description. -/
def latencies (t : ModType) (used : List Chan) (descs : List (Chan × FDesc)) (f : Filters) :
    Except Err Filters :=
  descs.foldlM (fun f e =>
    if e.1 ∈ used then (outputIndices e.1).foldlM (latencyStep t used e.1 e.2) f else .ok f) f

/-- `QbloxHardwareDistortionCorrection` (types/qblox.py:1576-1588). -/
abbrev Coeffs := Stage → Option (List Rat)

/-- A distortion correction of a port-clock. -/
inductive Corr where
  | hardware (c : Coeffs)
  | pair (i q : Coeffs)
  | software

/-- `_get_distortion_configs_per_output` (instrument_compilers.py:220-262): the corrections of each
output. -/
def filterStep (pcs : List (PC × Chan)) (st : List (Nat × Coeffs)) (e : PC × Corr) :
    Except Err (List (Nat × Coeffs)) :=
  match Verif.Dict.get? pcs e.1 with
  | none => .ok st
  | some c =>
    match e.2 with
    | .software => .ok st
    | .hardware k =>
      if (Verif.Dict.get? st c.idx).isSome then .error .valueError
      else .ok (Verif.Dict.set st c.idx k)
    | .pair i q =>
      if (Verif.Dict.get? st c.idx).isSome then .error .valueError
      else .ok (Verif.Dict.set (Verif.Dict.set st (2 * c.idx) i) (2 * c.idx + 1) q)

/-- The check of the coefficients (instrument_compilers.py:203-216).  `np.any(value) < -2` compares a
Boolean with -2: only the number of the coefficients of the FIR filter is checked. -/
def coeffsOk (s : Stage) (v : List Rat) : Bool :=
  match s with
  | .fir => decide (v.length = 32)
  | _ => match v with
    | [a, b] => decide (6 ≤ a) && decide (-1 ≤ b) && decide (b < 1)
    | _ => false

/-- All filters of an output. -/
def stages : List Stage := [.exp0, .exp1, .exp2, .exp3, .fir]

/-- The inner part of `_configure_hardware_distortion_corrections` and `_configure_filter`
(instrument_compilers.py:191-218, 264-275): the filters of an output that has corrections. -/
def enableStep (debug : Nat → Bool) (f : Filters) (e : Nat × Coeffs) : Except Err Filters :=
  if stages.all (fun s => ((e.2 s).map (coeffsOk s)).getD true) then
    if e.1 < 4 then
      .ok (f.update e.1 fun s x => match e.2 s with
        | none => x
        | some v => { coeffs := some v, config := .enabled, markerDelay := debug e.1 || x.markerDelay })
    else .error .indexError
  else .error .valueError

/-- `_configure_hardware_distortion_corrections` (analog.py:899-901; for the QCM
instrument_compilers.py:186-218).  `debug o` is
`marker_debug_mode_enable` for output `o` (simplification: any function). -/
def filters (t : ModType) (pcs : List (PC × Chan)) (descs : List (Chan × FDesc))
    (corrs : List (PC × Corr)) (debug : Nat → Bool) : Except Err Filters :=
  if t = .qcm then
    match corrs.foldlM (filterStep pcs) [] with
    | .error e => .error e
    | .ok cfg =>
      match latencies t (pcs.map Prod.snd) descs .init with
      | .error e => .error e
      | .ok f => cfg.foldlM (enableStep debug) f
  else latencies t (pcs.map Prod.snd) descs .init

/-! ### What is written to the instrument -/

/-- Values of parameters. -/
inductive Val where
  | int (i : Int)
  | num (q : Rat)
  | bool (b : Bool)
  | str (s : String)
  | nums (l : List Rat)
deriving DecidableEq, Repr

/-- The settings of a module. -/
structure ModSettings where
  off0 : Offsets
  off1 : Offsets
  gain : Option Int × Option Int
  att : Att
  los : List (Nat × Option Rat)

/-- Settings that are not `None`. -/
def wr (name : String) (v : Option Val) : List (String × Val) :=
  match v with
  | none => []
  | some x => [(name, x)]

/-- `_configure_global_settings` without the filters, and `_configure_lo_settings`
(components/qblox.py:659-679, 823-843, 1178-1216, 1254-1290, 1360-1395): the parameters that are set, in
the order in which they are set.  For the QRC, `if out_att := getattr(..) is not None` gives `out_att`
the value `True`. -/
def writes (t : ModType) (s : ModSettings) : List (String × Val) :=
  let lo (i : Nat) (name : String) := wr name ((getOpt s.los i).map .num)
  match t with
  | .qcm =>
    wr "out0_offset" (s.off0.map (.num ·.1)) ++ wr "out1_offset" (s.off0.map (.num ·.2)) ++
    wr "out2_offset" (s.off1.map (.num ·.1)) ++ wr "out3_offset" (s.off1.map (.num ·.2))
  | .qrm =>
    wr "out0_offset" (s.off0.map (.num ·.1)) ++ wr "out1_offset" (s.off0.map (.num ·.2)) ++
    wr "in0_gain" (s.gain.1.map .int) ++ wr "in1_gain" (s.gain.2.map .int)
  | .qcmRf =>
    wr "out0_offset_path0" (s.off0.map (.num ·.1)) ++ wr "out0_offset_path1" (s.off0.map (.num ·.2)) ++
    wr "out1_offset_path0" (s.off1.map (.num ·.1)) ++ wr "out1_offset_path1" (s.off1.map (.num ·.2)) ++
    wr "out0_att" (s.att.out0.map .int) ++ wr "out1_att" (s.att.out1.map .int) ++
    lo 0 "out0_lo_freq" ++ lo 1 "out1_lo_freq"
  | .qrmRf =>
    wr "out0_offset_path0" (s.off0.map (.num ·.1)) ++ wr "out0_offset_path1" (s.off0.map (.num ·.2)) ++
    wr "out0_att" (s.att.out0.map .int) ++ wr "in0_att" (s.att.in0.map .int) ++
    lo 0 "out0_in0_lo_freq"
  | .qrc =>
    wr "out0_att" (s.att.out0.map fun _ => .bool true) ++
    wr "out1_att" (s.att.out1.map fun _ => .bool true) ++
    lo 0 "out0_in0_lo_freq" ++ lo 1 "out1_in1_lo_freq" ++
    lo 2 "out2_lo_freq" ++ lo 3 "out3_lo_freq" ++ lo 4 "out4_lo_freq" ++ lo 5 "out5_lo_freq"
  | _ => []

/-- Parameters of the filters of an output: `out{o}_{s}_config`, `marker{o}_{s}_config`,
`out{o}_{s}_time_constant`, `out{o}_{s}_amplitude` and `out{o}_fir_coeffs`. -/
inductive FParam where
  | config (o : Nat) (s : Stage)
  | marker (o : Nat) (s : Stage)
  | time (o : Nat) (s : Stage)
  | amplitude (o : Nat) (s : Stage)
  | fir (o : Nat)
deriving DecidableEq, Repr

/-- The values of the enumerations (qblox/enums.py:18-30). -/
def FConfig.name : FConfig → String
  | .bypassed => "bypassed"
  | .enabled => "enabled"
  | .delayComp => "delay_comp"

/-- The coefficients of a filter that are written (components/qblox.py:684-696, 707-710).  Exponential
filters have two (`coeffsOk`). -/
def coeffWrites (o : Nat) (s : Stage) (x : Filter) : List (FParam × Val) :=
  match s, x.coeffs with
  | _, none => []
  | .fir, some v => [(.fir o, .nums v)]
  | s, some [a, b] => [(.time o s, .num a), (.amplitude o s, .num b)]
  | _, some _ => []

/-- The filters of an output (components/qblox.py:683-719; for the QRM 846-855). -/
def outputWrites (t : ModType) (f : Filters) (o : Nat) : List (FParam × Val) :=
  stages.flatMap fun s =>
    match t with
    | .qcm => coeffWrites o s (f o s) ++ [(.config o s, .str (f o s).config.name),
        (.marker o s, .str (if (f o s).markerDelay then "delay_comp" else "bypassed"))]
    | _ => [(.config o s, .str (f o s).config.name)]

/-- The part of `_configure_global_settings` that is about filters (components/qblox.py:680-719,
843-855).  RF modules and the QRC do not have it. -/
def filterWrites (t : ModType) (f : Filters) : List (FParam × Val) :=
  match t with
  | .qcm => (List.range 4).flatMap (outputWrites t f)
  | .qrm => (List.range 2).flatMap (outputWrites t f)
  | _ => []

end Verif.Settings
