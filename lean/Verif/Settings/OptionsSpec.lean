/-
Specification: what hardware options ask for.
-/
import Verif.Settings.Options
import Mathlib.Algebra.Order.Field.Rat

namespace Verif.Settings.Spec

open Verif.Connect (PC Chan ModType)

/-- The gain that a port-clock asks for input `i`: a complex gain is for both inputs, a real one for the
input with the number of the channel. -/
def Asks (gains : PC → Option Gain) (e : PC × Chan) (i : Nat) (g : Int) : Prop :=
  (∃ q, gains e.1 = some (.complex g q) ∧ i = 0) ∨ (∃ p, gains e.1 = some (.complex p g) ∧ i = 1) ∨
  (gains e.1 = some (.real g) ∧ e.2.idx = i ∧ i < 2)

/-- The gain of an input is what every port-clock that asks for one asks for, and it is not set if none
does. -/
def GainOf (gains : PC → Option Gain) (pcs : List (PC × Chan)) (i : Nat) (v : Option Int) : Prop :=
  (∀ e ∈ pcs, ∀ g, Asks gains e i g → v = some g) ∧ ∀ g, v = some g → ∃ e ∈ pcs, Asks gains e i g

/-- All port-clocks on the channel have the value, and there is one. -/
def All {α : Type} (pcs : List (PC × Chan)) (c : Chan) (opt : PC → Option α) (v : α) : Prop :=
  (∃ e ∈ pcs, e.2 = c) ∧ ∀ e ∈ pcs, e.2 = c → opt e.1 = some v

/-- No port-clock on the channel has a value. -/
def Without {α : Type} (pcs : List (PC × Chan)) (c : Chan) (opt : PC → Option α) : Prop :=
  ∀ e ∈ pcs, e.2 = c → opt e.1 = none

/-- One port-clock on the channel, at least, has the value, and those that have one agree. -/
def Agree {α : Type} (pcs : List (PC × Chan)) (c : Chan) (opt : PC → Option α) (v : α) : Prop :=
  (∃ e ∈ pcs, e.2 = c ∧ opt e.1 = some v) ∧ ∀ e ∈ pcs, e.2 = c → ∀ w, opt e.1 = some w → w = v

/-- Offsets are given in volts; RF modules are set in millivolts. -/
def volts (t : ModType) (setting : Rat) : Rat :=
  if t = .qcm ∨ t = .qrm then setting else setting / 1000

/-- The largest offset, in volts. -/
def maxOffset : ModType → Rat
  | .qcm => 5/2
  | .qrm => 1/2
  | _ => 1/20

/-- The offsets of an output. -/
def OffsetsOf (t : ModType) (pcs : List (PC × Chan)) (corr : PC → Option (Rat × Rat)) (k : Nat)
    (v : Offsets) : Prop :=
  (Without pcs ⟨.complex, .output, k⟩ corr → v = none) ∧
  (∀ i q, Agree pcs ⟨.complex, .output, k⟩ corr (i, q) →
    ∃ i' q', v = some (i', q') ∧ volts t i' = i ∧ volts t q' = q ∧
      |i| ≤ maxOffset t ∧ |q| ≤ maxOffset t)

/-- Output `o` of a module is one of the outputs of the analog channel. -/
def Covers (c : Chan) (o : Nat) : Prop :=
  c.dir = .output ∧ ((c.mode = .complex ∧ (o = 2 * c.idx ∨ o = 2 * c.idx + 1)) ∨
    (c.mode = .real ∧ o = c.idx))

/-- The latency bit of a filter: 2, 4, 8, 16 for the exponential filters, 32 for the FIR filter. -/
def HasBit (comp : Nat) : Stage → Prop
  | .exp0 => comp / 2 % 2 = 1
  | .exp1 => comp / 4 % 2 = 1
  | .exp2 => comp / 8 % 2 = 1
  | .exp3 => comp / 16 % 2 = 1
  | .fir => comp / 32 % 2 = 1

/-- Valid coefficients of an exponential filter. -/
def ValidExp (v : List Rat) : Prop := ∃ a b, v = [a, b] ∧ 6 ≤ a ∧ -1 ≤ b ∧ b < 1

end Verif.Settings.Spec
