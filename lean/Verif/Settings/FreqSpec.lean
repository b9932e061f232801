/-
Specification: the frequency at a port.
-/
import Verif.Settings.Freq
import Mathlib.Algebra.Order.Field.Rat

namespace Verif.Settings.Spec

open Verif.Connect (Chan ModType)

/-- What comes out of mixer and downconverter: the sum of the frequencies of the local oscillator and
of the sequencer's oscillator, taken from the frequency of the downconverter if there is one. -/
def emitted (dc : Option Rat) (lo nco : Rat) : Rat :=
  match dc with
  | none => lo + nco
  | some d => d - (lo + nco)

/-- The frequency that has to come out of the mixer for the clock: without a downconverter that of the
clock. -/
def wanted (dc : Option Rat) (clock : Rat) : Rat :=
  match dc with
  | none => clock
  | some d => d - clock

/-- The frequency is that of the clock, up to a relative error of 1e-9 that comes from configuring both
oscillators; a configured frequency of the sequencer's oscillator is used, and without one the frequency
is exact. -/
def OnFreq (dc : Option Rat) (lo nco : Rat) (configured : Option Rat) (clock : Rat) : Prop :=
  |emitted dc lo nco - clock| ≤
      1 / 1000000000 * max |lo + nco| |wanted dc clock| ∧
    (configured = none → emitted dc lo nco = clock) ∧
    (∀ x, configured = some x → nco = x)

/-- Modules with local oscillators of their own. -/
def Rf (t : ModType) : Prop := t = .qcmRf ∨ t = .qrmRf ∨ t = .qrc

/-- A sequencer before (`s`) and after (`s'`) its frequency is determined, with the frequencies of the
local oscillators at the end. -/
def Tuned (t : ModType) (clocks : String → Option Rat) (los : Los) (s s' : SeqF) : Prop :=
  s' = { s with freq := s'.freq } ∧
  ∀ clock, clocks s.pc.2 = some clock → s.chan.mode ≠ .digital →
    (Rf t → s.chan.mode = .complex → s.chan.dir = .output →
      ∃ lo nco, Verif.Dict.get? los.rf s.chan.idx = some (some lo) ∧ s'.freq = some nco ∧
        OnFreq s.dc lo nco s.freq clock) ∧
    (¬Rf t → ∀ name, s.extLo = some name →
      ∃ lo nco, Verif.Dict.get? los.ext name = some (some lo) ∧ s'.freq = some nco ∧
        (s.mixLo = true → OnFreq s.dc lo nco s.freq clock) ∧
        (s.mixLo = false → s.freq = some nco ∧ emitted s.dc lo 0 = clock)) ∧
    (¬Rf t → s.extLo = none → s.ncoEn = true → s'.freq = some clock ∧
      ∀ x, s.freq = some x → |x - clock| ≤ 1 / 1000000000 * max |x| |clock|)

/-- Frequencies that are set are not changed. -/
def Kept {κ : Type} [DecidableEq κ] (a b : List (κ × Option Rat)) : Prop :=
  ∀ k f, Verif.Dict.get? a k = some (some f) → Verif.Dict.get? b k = some (some f)

/-- The configured frequencies fit the clock of a sequencer: the local oscillator has a frequency, and
the sequencer's oscillator has none or one that fits. -/
def Fits (t : ModType) (clocks : String → Option Rat) (los : Los) (s : SeqF) : Prop :=
  ∀ clock, clocks s.pc.2 = some clock → s.chan.mode ≠ .digital →
    (Rf t → s.chan.mode = .complex ∧ (s.chan.dir = .output →
        s.chan.idx < (if t = .qrmRf then 1 else if t = .qcmRf then 2 else 6) ∧
        (∀ d, s.dc = some d → 0 ≤ d ∧ clock ≤ d) ∧
        ∃ lo, Verif.Dict.get? los.rf s.chan.idx = some (some lo) ∧
          ∀ x, s.freq = some x → OnFreq s.dc lo x (some x) clock) ∧
        (∀ name, s.extLo = some name → name ∈ Verif.Dict.keys los.ext)) ∧
    (¬Rf t → ∀ name, s.extLo = some name → s.mixLo = true ∧
        (∀ d, s.dc = some d → 0 ≤ d ∧ clock ≤ d) ∧
        ∃ lo, Verif.Dict.get? los.ext name = some (some lo) ∧
          ∀ x, s.freq = some x → OnFreq s.dc lo x (some x) clock) ∧
    (¬Rf t → s.extLo = none → s.ncoEn = true →
      ∀ x, s.freq = some x → |x - clock| ≤ 1 / 1000000000 * max |x| |clock|)

end Verif.Settings.Spec
