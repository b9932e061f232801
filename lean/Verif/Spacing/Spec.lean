/-
C62: which distances in time are allowed.
-/
import Verif.Spacing.Model

namespace Verif.Spacing.Spec

open Verif.Numeric (pyRound)

/-- The start and the end of an operation in ps: on the grid of 1 ns, and then the fine delay. -/
def edges (o : FOp) : List Int :=
  [1000 * pyRound (o.timing * 1000000000) + pyRound (o.fineStart * 1000000000000),
   1000 * (pyRound (o.timing * 1000000000) + pyRound (o.duration * 1000000000)) +
     pyRound (o.fineEnd * 1000000000000)]

/-- The edges of the operations of a kind. -/
def edgesOf (k : FKind) (ops : List FOp) : List Int := (ops.filter (fun o => decide (o.kind = k))).flatMap edges

/-- What the hardware can do: a whole number of ns between the edges, or at least 7 ns. -/
def Executable (a b : Int) : Prop := (1000 : Int) ∣ b - a ∨ 7000 ≤ b - a

/-- The same for edges in units of 1/128 ns, the resolution of the hardware. -/
def HwExecutable (a b : Int) : Prop := (128 : Int) ∣ b - a ∨ 896 ≤ b - a

/-- Each with the next. -/
def Consecutive (R : Int → Int → Prop) : List Int → Prop
  | [] => True
  | [_] => True
  | a :: b :: l => R a b ∧ Consecutive R (b :: l)

/-- Frequency or phase. -/
def Same (a b : NOp) : Prop :=
  (a.kind = .frequency ∧ b.kind = .frequency) ∨
  ((a.kind = .phaseShift ∨ a.kind = .resetPhase) ∧ (b.kind = .phaseShift ∨ b.kind = .resetPhase))

end Verif.Spacing.Spec
