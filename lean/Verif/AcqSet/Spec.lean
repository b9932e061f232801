/-
Specification: what acquisitions ask of a sequencer, and what triggers mean.
-/
import Verif.AcqSet.Model

namespace Verif.AcqSet.Spec

/-- Protocols that integrate the signal over the integration length of the sequencer. -/
def Integrating (p : Proto) : Prop :=
  p = .trace ∨ p = .ssb ∨ p = .thresholded ∨ p = .weightedSeparated ∨ p = .numSeparated ∨
  p = .numWeighted ∨ p = .weightedThresholded

/-- Protocols whose result is found by comparing an integrated signal with a threshold. -/
def Discriminated (p : Proto) : Prop := p = .thresholded ∨ p = .weightedThresholded

/-- Protocols whose result may be sent to the trigger network by an analog module. -/
def Sending (p : Proto) : Prop :=
  p = .thresholded ∨ p = .weightedThresholded ∨ p = .thresholdedTrigCount

/-- Protocols that count triggers at an input. -/
def Counting (p : Proto) : Prop := p = .trigCount ∨ p = .thresholdedTrigCount

/-- A duration in nanoseconds, to the nearest integer. -/
def Nearest (duration : Rat) (n : Int) : Prop := n = Numeric.pyRound (duration * 1000000000)

/-- A duration of precisely `n` nanoseconds. -/
def Exactly (duration : Rat) (n : Int) : Prop := duration * 1000000000 = n

/-- The condition of a trigger count. -/
def Holds (c : Condition) (n threshold : Nat) : Prop :=
  match c with
  | .lessThan => n < threshold
  | .atLeast => threshold ≤ n

/-- A QTM that has counted `n` events in a window sends a trigger to the address of the range `n` is in:
below the lower threshold, between the thresholds, or from the upper threshold on.  There is no address
0. -/
def Sends (s : Qtm) (n a : Nat) : Prop :=
  s.trigEn = some true ∧ a ≠ 0 ∧ ∃ low high, s.low = some low ∧ s.high = some high ∧
    ((n < low ∧ s.aLow = a) ∨ (low ≤ n ∧ n < high ∧ s.aMid = a) ∨ (low ≤ n ∧ high ≤ n ∧ s.aHigh = a))

/-- A sequencer that reads an address plays the conditional part after `n` triggers if their number
reaches the count, or, inverted, if it does not. -/
def Plays (invert : Bool) (count n : Nat) : Prop := if invert then n < count else count ≤ n

end Verif.AcqSet.Spec
