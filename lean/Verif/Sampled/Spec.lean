/-
What is expected of a converted pulse.  What a pulse puts out is `Long.output`.
-/
import Verif.Sampled.Model
import Verif.Long.Spec
import Verif.Shapes.Model

namespace Verif.Sampled.Spec

open Verif.Long (Info V PC)

/-- An operation ends at `e`: the end of its last pulse or acquisition. -/
structure Ends (op : Operation) (e : Rat) : Prop where
  exist : (∃ p ∈ op.pulses, p.t0 + p.dur = e) ∨ e ∈ op.acqEnds
  pulses : ∀ p ∈ op.pulses, p.t0 + p.dur ≤ e
  acqs : ∀ a ∈ op.acqEnds, a ≤ e

/-- All times are natural multiples of `m` ns, and voltage offsets are as made by `VoltageOffset`, with
duration 0. -/
structure OnGrid (m : Nat) (op : Operation) : Prop where
  pos : 0 < m
  pulses : ∀ p ∈ op.pulses, (∃ a : Nat, p.t0 = (m : Rat) * a) ∧ ∃ b : Nat, p.dur = (m : Rat) * b
  acqs : ∀ e ∈ op.acqEnds, ∃ c : Nat, e = (m : Rat) * c
  offsets : ∀ p ∈ op.pulses, ∀ v, p.what = .offset v → p.dur = 0

/-- A pair of rationals as a complex number. -/
noncomputable def toC (v : V) : ℂ := ((v.1 : ℝ) : ℂ) + ((v.2 : ℝ) : ℂ) * Complex.I

/-- What is played for a numerical pulse with `fs` samples per nanosecond: `generate_waveform_data` of its
`pulse_info` (times in nanoseconds). -/
noncomputable def played (p : Numerical) (fs : ℝ) : Except Shapes.Err (List ℂ) :=
  Shapes.generateWaveformData (.interpolated (p.samples.map toC) (p.tSamples.map (fun t : Rat => (t : ℝ))))
    (p.dur : ℝ) none fs

end Verif.Sampled.Spec
