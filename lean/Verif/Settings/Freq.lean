/-
Frequencies of local oscillators and sequencers
(quantify_scheduler/backends/qblox/analog.py:159-201, 653-690, 961-1022, 1072-1202,
backends/qblox/instrument_compilers.py:97-136, backends/types/qblox.py:95-103, 537-577, 790-803,
backends/qblox_backend.py:1001-1017, 1053-1067, 1320-1404, 1965-1985,
backends/qblox/operation_handling/virtual.py:117-161).

Simplifications:
* Frequencies are rational numbers; NaN is left out.
* Channel descriptions are reduced to `downconverter_freq` and `mix_lo`.
* A dict whose missing keys read as `None` is a dict of optional values.
-/
import Verif.Connect.Model
import Verif.Numeric.Model

set_option autoLift false

namespace Verif.Settings

open Verif.Connect (PC Chan Mode Dir ModType Path Elem)
open Verif.Numeric (isClose determineFreqs ncoFreq)

/-- Exceptions. -/
inductive Err where
  | valueError | keyError | indexError | runtimeError
deriving DecidableEq, Repr

/-- `ModulationFrequencies` (types/common.py:182-206). -/
structure ModFreq where
  interm : Option Rat
  lo : Option Rat
deriving DecidableEq, Repr

/-- `ComplexChannelDescription` and `RealChannelDescription` (types/qblox.py:986-1033); the latter has
no `downconverter_freq`. -/
structure ChanDesc where
  dc : Option Rat
  mixLo : Bool
deriving DecidableEq, Repr

/-- The part of a sequencer compiler that has to do with frequencies (analog.py:98-145). -/
structure SeqF where
  pc : PC
  chan : Chan
  extLo : Option String
  dc : Option Rat
  mixLo : Bool
  ncoEn : Bool
  freq : Option Rat
deriving DecidableEq, Repr

/-- `_get_connected_output_indices` (types/qblox.py:95-103). -/
def outputIndices (c : Chan) : List Nat :=
  match c.dir with
  | .input => []
  | .output =>
    match c.mode with
    | .complex => [2 * c.idx, 2 * c.idx + 1]
    | _ => [c.idx]

/-- `nco_en` (types/qblox.py:790-803); `default_nco_en` is set for the QRC only. -/
def ncoEnabled (t : ModType) (c : Chan) (interm : Option Rat) : Bool :=
  decide (t = .qrc) ||
    !(decide (interm = some 0) || decide (c.mode = .digital) || decide ((outputIndices c).length = 0))

/-- A sequencer compiler as it is constructed (analog.py:98-145, qblox_backend.py:1320-1404).
`channelToLo` is a dict (1322). -/
def initSeq (t : ModType) (desc : Chan → Option ChanDesc) (channelToLo : List (Chan × String))
    (freqs : PC → Option ModFreq) (e : PC × Chan) : SeqF :=
  let d := (desc e.2).getD ⟨none, true⟩
  let interm := (freqs e.1).bind ModFreq.interm
  { pc := e.1, chan := e.2, extLo := Verif.Dict.get? channelToLo e.2,
    dc := match e.2.mode with | .complex => d.dc | _ => none,
    mixLo := d.mixLo, ncoEn := ncoEnabled t e.2 interm, freq := interm }

/-- The setter of `AnalogSequencerCompiler.frequency` (analog.py:174-201). -/
def SeqF.setFreq (s : SeqF) (f : Rat) : Except Err SeqF :=
  match s.freq with
  | none => .ok { s with freq := some f }
  | some old => if isClose old f then .ok { s with freq := some f } else .error .valueError

/-- The setter of `LocalOscillatorCompiler.frequency` (instrument_compilers.py:108-135). -/
def setLo (old : Option Rat) (f : Rat) : Except Err (Option Rat) :=
  match old with
  | none => .ok (some f)
  | some o => if f = o then .ok (some f) else .error .valueError

/-- `_set_lo_frequency` (analog.py:1170-1202) once the index is known to be valid. -/
def setRfLo (old : Option Rat) (f : Rat) : Except Err (Option Rat) :=
  match old with
  | none => .ok (some f)
  | some o => if isClose f o then .ok (some f) else .error .valueError

/-- The value of a dict of optional values, `None` if the key is missing. -/
def getOpt {κ : Type} [DecidableEq κ] (d : List (κ × Option Rat)) (k : κ) : Option Rat :=
  (Verif.Dict.get? d k).getD none

/-- `RFModuleSettings.extract_settings_from_mapping` (types/qblox.py:537-577): the frequencies of the
module's local oscillators. -/
def rfSettings (freqs : PC → Option ModFreq) (pcs : List (PC × Chan)) : List (Nat × Option Rat) :=
  pcs.foldl (fun d e =>
    if e.2.mode = .complex ∧ e.2.dir = .output ∧ e.2.idx < 6 then
      Verif.Dict.set d e.2.idx ((freqs e.1).bind ModFreq.lo)
    else d) []

/-- Is it a module with internal local oscillators (`RFModuleCompiler`)? -/
def isRf : ModType → Bool
  | .qcmRf | .qrmRf | .qrc => true
  | _ => false

/-- `_validate_lo_index` (analog.py:1134-1145). -/
def loIndexOk : ModType → Nat → Bool
  | .qrmRf, i => decide (i = 0)
  | .qcmRf, i => decide (i < 2)
  | .qrc, i => decide (i < 6)
  | _, _ => false

/-- `_get_connected_lo_indices` (analog.py:1121-1132). -/
def loIndices (c : Chan) : List Nat :=
  ((outputIndices c).filter (fun i => decide (i % 2 = 0))).map (fun i => i / 2)

/-- The body of the loop of `RFModuleCompiler.assign_frequencies` (analog.py:1096-1119). -/
def rfStep (t : ModType) (clock : Rat) (st : SeqF × List (Nat × Option Rat)) (i : Nat) :
    Except Err (SeqF × List (Nat × Option Rat)) :=
  if loIndexOk t i then
    match determineFreqs clock (getOpt st.2 i) st.1.freq st.1.dc true with
    | .error _ => .error .valueError
    | .ok f =>
      match setRfLo (getOpt st.2 i) f.lo with
      | .error e => .error e
      | .ok lo =>
        match st.1.setFreq f.fi with
        | .error e => .error e
        | .ok s => .ok (s, Verif.Dict.set st.2 i lo)
  else .error .indexError

/-- `RFModuleCompiler.assign_frequencies` (analog.py:1072-1119). -/
def assignRf (t : ModType) (clock : Rat) (s : SeqF) (rf : List (Nat × Option Rat)) :
    Except Err (SeqF × List (Nat × Option Rat)) :=
  (loIndices s.chan).foldlM (rfStep t clock) (s, rf)

/-- `BasebandModuleCompiler.assign_frequencies` (analog.py:961-1022); `lo` is the frequency of the
local oscillator if there is one. -/
def assignBaseband (clock : Rat) (s : SeqF) (lo : Option (Option Rat)) :
    Except Err (SeqF × Option Rat) :=
  match lo with
  | none =>
    if s.ncoEn then
      match s.setFreq clock with
      | .error e => .error e
      | .ok s' => .ok (s', none)
    else .ok (s, none)
  | some l =>
    match determineFreqs clock l s.freq s.dc s.mixLo with
    | .error _ => .error .valueError
    | .ok f =>
      match setLo l f.lo with
      | .error e => .error e
      | .ok l' =>
        match s.setFreq f.fi with
        | .error e => .error e
        | .ok s' => .ok (s', l')

/-- The frequencies of the local oscillators: those of other instruments and those of the module. -/
structure Los where
  ext : List (String × Option Rat)
  rf : List (Nat × Option Rat)
deriving DecidableEq, Repr

/-- The body of the loop over the sequencers in `AnalogModuleCompiler.prepare`
(analog.py:679-694); `clocks` are the frequencies of the clocks of the schedule. -/
def assignSeq (t : ModType) (clocks : String → Option Rat) (los : Los) (s : SeqF) :
    Except Err (SeqF × Los) :=
  match clocks s.pc.2 with
  | none => .ok (s, los)
  | some clock =>
    if s.chan.mode = .digital then .ok (s, los)
    else
      match s.extLo with
      | none =>
        if isRf t then
          match assignRf t clock s los.rf with
          | .error e => .error e
          | .ok (s', rf) => .ok (s', { los with rf := rf })
        else
          match assignBaseband clock s none with
          | .error e => .error e
          | .ok (s', _) => .ok (s', los)
      | some name =>
        match Verif.Dict.get? los.ext name with
        | none => .error .keyError
        | some l =>
          if isRf t then
            match assignRf t clock s los.rf with
            | .error e => .error e
            | .ok (s', rf) => .ok (s', { los with rf := rf })
          else
            match assignBaseband clock s (some l) with
            | .error e => .error e
            | .ok (s', l') => .ok (s', { los with ext := Verif.Dict.set los.ext name l' })

/-- The loop over the sequencers of a module (analog.py:679-694). -/
def assignSeqs (t : ModType) (clocks : String → Option Rat) :
    List SeqF → Los → Except Err (List SeqF × Los)
  | [], los => .ok ([], los)
  | s :: rest, los =>
    match assignSeq t clocks los s with
    | .error e => .error e
    | .ok (s', los') =>
      match assignSeqs t clocks rest los' with
      | .error e => .error e
      | .ok (ss, los'') => .ok (s' :: ss, los'')

/-- A module: its type, the configured frequencies of its local oscillators and its sequencers. -/
structure Mod where
  type : ModType
  rf : List (Nat × Option Rat)
  seqs : List SeqF
deriving DecidableEq, Repr

/-- A module as it is constructed (analog.py:1057-1070, 599-622), `pcs` being its port-clocks and
`used` those that get a sequencer. -/
def initMod (t : ModType) (desc : Chan → Option ChanDesc) (channelToLo : List (Chan × String))
    (freqs : PC → Option ModFreq) (pcs used : List (PC × Chan)) : Mod :=
  ⟨t, rfSettings freqs pcs, used.map (initSeq t desc channelToLo freqs)⟩

/-- `prepare` of all modules, one after the other (compiler_container.py:62-75,
instrument_compilers.py:625-660): the local oscillators of other instruments are shared. -/
def assignAll (clocks : String → Option Rat) :
    List Mod → List (String × Option Rat) → Except Err (List Mod × List (String × Option Rat))
  | [], ext => .ok ([], ext)
  | m :: rest, ext =>
    match assignSeqs m.type clocks m.seqs ⟨ext, m.rf⟩ with
    | .error e => .error e
    | .ok (ss, los) =>
      match assignAll clocks rest los.ext with
      | .error e => .error e
      | .ok (ms, ext') => .ok (⟨m.type, los.rf, ss⟩ :: ms, ext')

/-- One step of the loop that gives the local oscillators their frequencies
(qblox_backend.py:1001-1017): `named` are the oscillators found so far, with the frequency of the
first port-clock. -/
def nameLo (pcs : List (PC × Path)) (loPaths : List (String × Path))
    (named : List (String × Option Rat)) (e : PC × ModFreq) : List (String × Option Rat) :=
  match Verif.Dict.get? pcs e.1 with
  | none => named
  | some path =>
    loPaths.foldl (fun d l =>
      if path = l.2 ∧ l.1 ∉ Verif.Dict.keys d then d ++ [(l.1, e.2.lo)] else d) named

/-- The local oscillators that are used, with their configured frequencies
(qblox_backend.py:1001-1017, 1053-1067): those that are not found are deleted.  `given` are the
oscillators whose description has an `instrument_name`: they are kept and their frequency is not set.
Each cluster comes with its port-clocks and the paths of its local oscillators. -/
def extractLos (given : List String) (clusters : List (List (PC × Path) × List (String × Path)))
    (freqs : List (PC × ModFreq)) : List (String × Option Rat) :=
  freqs.foldl (fun d e => clusters.foldl (fun d c => nameLo c.1 c.2 d e) d)
    (given.map (fun n => (n, none)))

/-- `LocalOscillatorCompiler.compile` (instrument_compilers.py:137-165): the frequency that the
oscillator is set to, if any. -/
def loProgram (los : List (String × Option Rat)) (name : String) : Option Rat :=
  (Verif.Dict.get? los name).getD none

/-- `channel_to_lo` (qblox_backend.py:1322). -/
def channelToLo (loPaths : List (String × Path)) : List (Chan × String) :=
  loPaths.foldl (fun d e => Verif.Dict.set d e.2.chan e.1) []

/-- The new frequency of the oscillator of a sequencer for `SetClockFrequency` (virtual.py:127-152):
`new` is the new frequency of the clock, `old` its frequency in the schedule
(qblox_backend.py:1965-1985). -/
def newInterm (s : SeqF) (old : Option Rat) (new : Option Rat) : Except Err Rat :=
  match old, s.freq with
  | none, _ => .error .runtimeError
  | _, none => .error .runtimeError
  | some o, some i =>
    match new with
    | none => .ok i
    | some n => .ok (i + n - o)

/-- The argument of the instruction for `SetClockFrequency` (virtual.py:154-159). -/
def setFreqArg (s : SeqF) (old : Option Rat) (new : Option Rat) : Except Err Int :=
  match newInterm s old new with
  | .error e => .error e
  | .ok f =>
    match ncoFreq f with
    | .error _ => .error .valueError
    | .ok n => .ok n

end Verif.Settings
