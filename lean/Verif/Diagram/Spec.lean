/-
What a pulse diagram should show.
-/
import Verif.Diagram.Model
import Verif.Table.Spec

namespace Verif.Diagram.Spec

open Verif.Table (Op Items Row Info)
open Verif.Table.Spec

/-- The way ends in an acquisition, or in a pulse. -/
def Ends (acqs : Bool) (p : List Step) : Prop :=
  ∃ q k, p = q ++ [if acqs then Step.acq k else Step.pulse k]

/-- The ports to be shown; all of them if no ports are given. -/
def Shown (ports : Option (List String)) (port : Option String) : Prop :=
  ∀ l, ports = some l → ∃ p, port = some p ∧ p ∈ l

/-- The value of the curve through these points at time `t`: the points are joined by straight lines; 0 outside. -/
def value : Points → Rat → C
  | [], _ => (0, 0)
  | [(t, v)], x => if x = t then v else (0, 0)
  | (t, v) :: (t', v') :: rest, x =>
    if x < t then (0, 0)
    else if x < t' then (v.1 + (v'.1 - v.1) * ((x - t) / (t' - t)), v.2 + (v'.2 - v.2) * ((x - t) / (t' - t)))
    else value ((t', v') :: rest) x

/-- After the `i`-th offset and before the next one (by at least `ε`), or before the end: the value in force. -/
def InForce (ε stop : Rat) (offsets : Points) (x : Rat) (v : C) : Prop :=
  ∃ i t, offsets[i]? = some (t, v) ∧ t ≤ x ∧
    ((∃ t' v', offsets[i + 1]? = some (t', v') ∧ x ≤ t' - ε) ∨ (offsets[i + 1]? = none ∧ x < stop))

/-- The offsets are listed in the order of time, more than `ε` apart, and before `stop`. -/
def Listed (ε stop : Rat) (offsets : Points) : Prop :=
  offsets.Pairwise (fun a b => a.1 + ε < b.1) ∧ ∀ o ∈ offsets, o.1 < stop

end Verif.Diagram.Spec
