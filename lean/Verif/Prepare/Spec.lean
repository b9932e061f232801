/-
Specification: what a prepared module is set to.
-/
import Verif.Prepare.Model

namespace Verif.Prepare.Spec

open Verif.Connect (Chan Mode Dir ModType)

/-- The driver remembers the values that the instrument has. -/
def Coherent {σ : Type} (d : Dev σ) : Prop := ∀ p v, d.cache p = some v → d.hw p = v

/-- The parameters of the offsets of output `o` of an RF module, which a calibration of its LO changes. -/
def LeakageOf (o : Nat) (p : Param) : Prop :=
  p = .glob s!"out{o}_offset_path0" ∨ p = .glob s!"out{o}_offset_path1"

/-- What a calibration changes. -/
def Changes : Cal → Param → Prop
  | .sideband k, p => p = .seq k .phase ∨ p = .seq k .ratio
  | .lo o, p => LeakageOf o p

/-- The calibrations of the driver change nothing else, and what the driver remembers stays right; it may
forget values of the sequencer or of the module. -/
structure CalOk {σ : Type} (run : Run σ) : Prop where
  coherent : ∀ c d, Coherent d → Coherent (run c d)
  changes : ∀ c d p, ¬Changes c p → (run c d).hw p = d.hw p
  sideband : ∀ k d p, (∀ q, p ≠ .seq k q) → (run (.sideband k) d).cache p = d.cache p
  lo : ∀ o d p, (∀ n, p ≠ .glob n) → (run (.lo o) d).cache p = d.cache p

/-- A setting that is left alone if it is `None`. -/
def IfSome {α : Type} (a : Option α) (P : α → Prop) : Prop := ∀ x, a = some x → P x

/-- What a sequencer of an analog module must be set to, apart from its channels and mixer. -/
structure Sequencer {σ : Type} (t : ModType) (hw : Param → Val σ) (k : Nat) (s : Analog σ) : Prop where
  sync : hw (.seq k .sync) = .bool s.syncEn
  sequence : hw (.seq k .sequence) = .program s.sequence
  reads : ∀ a i c, (a, (i, c)) ∈ s.reads →
    hw (.seq k (.readInvert a)) = .bool i ∧ hw (.seq k (.readCount a)) = .nat c
  nco : t ≠ .qrc → hw (.seq k .modEn) = .bool s.ncoEn
  demod : t = .qrm ∨ t = .qrmRf → hw (.seq k .demodEn) = .bool s.ncoEn
  freq : s.ncoEn = true → IfSome s.freq fun f => hw (.seq k .ncoFreq) = .num f
  offset : hw (.seq k .offset0) = .num s.offsetI ∧ hw (.seq k .offset1) = .num s.offsetQ
  gain : hw (.seq k .gain0) = .num s.gainI ∧ hw (.seq k .gain1) = .num s.gainQ
  marker : t = .qcmRf ∨ t = .qrmRf ∨ t = .qrc → hw (.seq k .markerOvr) = .bool false
  acq : t = .qrm ∨ t = .qrmRf ∨ t = .qrc →
    (IfSome s.length fun n => hw (.seq k .length) = .int n) ∧
    (IfSome s.autoBin fun b => hw (.seq k .autoBin) = .bool b) ∧
    (IfSome s.ttlThreshold fun q => hw (.seq k .ttlThreshold) = .num q) ∧
    (IfSome s.ttlInput fun n => hw (.seq k .ttlInput) = .nat n) ∧
    (IfSome s.rotation fun q => hw (.seq k .rotation) = .num q) ∧
    (IfSome s.threshold fun q => hw (.seq k .threshold) = .num q) ∧
    (IfSome s.trigAddr fun n => hw (.seq k .trigAddr) = .nat n) ∧
    (IfSome s.trigEn fun b => hw (.seq k .trigEn) = .bool b ∧ hw (.seq k .trigInvert) = .bool s.trigInvert)

/-- The outputs of a module. -/
def outputs : ModType → Nat
  | .qcm => 4
  | .qrm => 2
  | .qcmRf => 2
  | .qrmRf => 1
  | .qrc => 6
  | .qtm => 8

/-- Which part of the signal of a sequencer for channel `c` belongs on output `i`: a complex channel `j`
of a baseband module consists of outputs `2j` and `2j+1`, of an RF module it is output `j`. -/
def OnOutput (t : ModType) (c : Chan) (i : Nat) (part : String) : Prop :=
  match t with
  | .qcm | .qrm =>
    (c.mode = .complex ∧ c.dir = .output ∧ i = 2 * c.idx ∧ part = "I") ∨
    (c.mode = .complex ∧ c.dir = .output ∧ i = 2 * c.idx + 1 ∧ part = "Q") ∨
    (c.mode = .real ∧ c.dir = .output ∧ i = c.idx ∧ part = "I")
  | _ => c.mode = .complex ∧ c.dir = .output ∧ i = c.idx ∧ part = "IQ"

/-- The channels that are read: the channel itself or those for measurements. -/
def inputsOf (c : Chan) (measure : Option (List Chan)) : List Chan :=
  if c.dir = .input then [c] else measure.getD []

/-- The inputs of a path: that of the channel itself, those for measurements of an output, which are one
or both real inputs. -/
def ProperInputs (c : Chan) (measure : Option (List Chan)) : Prop :=
  (c.dir = .input → measure = none) ∧
  ∀ ms, measure = some ms → (∃ m, ms = [m]) ∨
    (ms.length ≠ 1 ∧ (∀ m ∈ ms, m = ⟨.real, .input, 0⟩ ∨ m = ⟨.real, .input, 1⟩) ∧
      ⟨.real, .input, 0⟩ ∈ ms ∧ ⟨.real, .input, 1⟩ ∈ ms)

/-- Sequencer `k` reads input `i` of a baseband module. -/
def Reads {σ : Type} (hw : Param → Val σ) (k i : Nat) : Prop :=
  (i = 0 ∧ hw (.seq k .acqI) = .str "in0") ∨ (i = 1 ∧ hw (.seq k .acqQ) = .str "in1")

/-- Input `i` of a baseband module belongs to one of these channels. -/
def InputOf (cs : List Chan) (i : Nat) : Prop :=
  ∃ c ∈ cs, (c.mode = .complex ∧ (i = 2 * c.idx ∨ i = 2 * c.idx + 1)) ∨ (c.mode ≠ .complex ∧ i = c.idx)

/-- The sequencers of a module. -/
def sequencers : ModType → Nat
  | .qrc => 12
  | .qtm => 8
  | _ => 6

/-- The driver does not know that the NCO has the frequency of the settings. -/
def FreqNew {σ : Type} (d : Dev σ) (k : Nat) (s : Analog σ) : Prop :=
  s.ncoEn = true ∧ (∀ f, s.freq = some f → d.cache (.seq k .ncoFreq) ≠ some (.num f)) ∧
    (s.freq = none → d.cache (.seq k .ncoFreq) ≠ some .none)

/-- The sideband of a sequencer is to be calibrated: automatic calibration is on, and the frequency is
new. -/
def SidebandCal {σ : Type} (t : ModType) (p : Program σ) (d : Dev σ) (k : Nat) : Prop :=
  t ≠ .qrc ∧ ∃ s, (k, s) ∈ p.seqs ∧ s.autoSideband = true ∧ FreqNew d k s

/-- The parameter of the LO of an output. -/
def LoOf : ModType → Nat → String → Prop
  | .qcmRf, o, n => (o = 0 ∧ n = "out0_lo_freq") ∨ (o = 1 ∧ n = "out1_lo_freq")
  | .qrmRf, o, n => o = 0 ∧ n = "out0_in0_lo_freq"
  | _, _, _ => False

/-- The driver does not know that the LO has the frequency of the settings. -/
def LoNew {σ : Type} (t : ModType) (m : Settings.ModSettings) (d : Dev σ) (o : Nat) : Prop :=
  ∃ n f, LoOf t o n ∧ Dict.get? m.los o = some (some f) ∧ d.cache (.glob n) ≠ some (.lit (.num f))

/-- The leakage of an output of a QCM-RF or QRM-RF is to be calibrated: because the LO frequency is new, or
the frequency of a sequencer at the output is new, depending on the setting of the output. -/
def LeakageCal {σ : Type} (t : ModType) (p : Program σ) (d : Dev σ) (o : Nat) : Prop :=
  ∃ m f, p.settings = some (m, f) ∧ (∃ n, LoOf t o n) ∧
    ((p.loCal o = .loChange ∧ LoNew t m d o) ∨
     (p.loCal o = .loIntermChange ∧ (LoNew t m d o ∨
        ∃ k s, (k, s) ∈ p.seqs ∧ s.chan = ⟨.complex, .output, o⟩ ∧ FreqNew d k s)))

/-- An acquisition channel with traces is on this sequencer. -/
def TraceOn {σ : Type} (p : Program σ) (k : Nat) : Prop :=
  ∃ ch ∈ p.traces, ∃ m, p.mapping = some m ∧ ∃ chs, (k, chs) ∈ m ∧ ch ∈ chs

/-- What a channel of a QTM must be set to. -/
structure IoChannel {σ : Type} (hw : Param → Val σ) (k : Nat) (s : Timetag σ) : Prop where
  sync : hw (.seq k .sync) = .bool s.syncEn
  sequence : hw (.seq k .sequence) = .program s.sequence
  reads : ∀ a i c, (a, (i, c)) ∈ s.reads →
    hw (.seq k (.readInvert a)) = .bool i ∧ hw (.seq k (.readCount a)) = .nat c
  input : s.ins = [k] → hw (.io k .mode) = .str "input"
  output : s.outs = [k] → hw (.io k .mode) = .str "output"
  threshold : IfSome s.analogThreshold fun q => hw (.io k .analogThreshold) = .num q
  addresses : hw (.io k .addrLow) = .nat s.acq.aLow ∧ hw (.io k .addrMid) = .nat s.acq.aMid ∧
    hw (.io k .addrHigh) = .nat s.acq.aHigh ∧ hw (.io k .addrInvalid) = .nat s.acq.aInvalid
  trigger : IfSome s.acq.trigEn fun b => hw (.io k .trigEn) = .bool b
  scope : s.acq.trace = some .scope →
    hw (.io k .scopeMode) = .str "scope" ∧ hw (.io k .scopeTrigger) = .str "sequencer"
  timetags : s.acq.trace = some .timetag →
    hw (.io k .scopeMode) = .str "timetags-windowed" ∧ hw (.io k .scopeTrigger) = .str "sequencer"
  source : (s.acq.source = some .first → hw (.io k .timeSource) = .str "first") ∧
    (s.acq.source = some .second → hw (.io k .timeSource) = .str "second") ∧
    (s.acq.source = some .last → hw (.io k .timeSource) = .str "last")
  ref : (s.acq.ref = some .start → hw (.io k .timeRef) = .str "start") ∧
    (s.acq.ref = some .end → hw (.io k .timeRef) = .str "end") ∧
    (s.acq.ref = some .first → hw (.io k .timeRef) = .str "first") ∧
    (s.acq.ref = some .timestamp → hw (.io k .timeRef) = .str "sequencer") ∧
    (s.acq.ref = some .port → IfSome s.acq.refChannel fun c => hw (.io k .timeRef) = .str ("first" ++ toString c))

end Verif.Prepare.Spec
