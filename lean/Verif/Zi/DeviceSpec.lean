/-
Specification: the programs of devices of Zurich Instruments.
-/
import Verif.Zi.Device
import Verif.Zi.SeqcSpec
import Verif.Zi.TimeSpec

namespace Verif.Zi.Spec

open Verif.Zi

/-- The output that the hardware configuration calls `channel_a`. -/
def channel {σ : Type} (d : Hdawg σ) : Nat → Option (Out σ)
  | 0 => some d.channel0
  | 1 => d.channel1
  | 2 => d.channel2
  | 3 => d.channel3
  | _ => none

/-- The outputs are used one after the other, without gaps, and exist. -/
def NoGaps {σ : Type} (d : Hdawg σ) : Prop :=
  ∀ a, (channel d a).isSome → a < d.awgs ∧ ∀ b, b < a → (channel d b).isSome

/-- Rows of the same waveform have the same samples, and no pulse has the name of integration weights: waveforms are
not mixed up. -/
def Consistent {ω α : Type} (shape : Row ω → Option (List α)) (rows : List (Row ω)) : Prop :=
  ∀ r ∈ rows, ∀ r' ∈ rows, r.wave = r'.wave → r.chan.isSome → r'.chan.isSome → shape r = shape r'

/-- What is meant to happen because of a row that starts at clock cycle `n`. -/
def wanted {ω α : Type} (shape : Row ω → Option (List α)) (r : Row ω) : Event α :=
  if r.acq then .acquire else .samples (shape r)

/-- Two operations happen one after the other. -/
def Disjoint {ω : Type} (r r' : Row ω) : Prop := r.time + r.duration ≤ r'.time ∨ r'.time + r'.duration ≤ r.time

end Verif.Zi.Spec
