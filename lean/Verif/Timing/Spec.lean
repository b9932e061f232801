/-
What the timing constraints of a schedule mean, independent of how the pass computes times.
-/
import Verif.Timing.Model
import Mathlib.Logic.Relation

namespace Verif.Timing

variable {κ : Type} [DecidableEq κ]

/-- Where in an operation a reference point lies, as a fraction of its duration. -/
def RefPt.frac : RefPt → Rat
  | .start => 0
  | .center => 1 / 2
  | .stop => 1
  | .other => 0

/-- The schedulable an operation is placed relative to when its first constraint names none:
the one added just before (ASAP) or just after (ALAP). -/
def neighbour (strat : Strategy) (s : List (Item κ)) (i : Nat) : Option κ :=
  match strat with
  | .asap => if i = 0 then none else (s[i - 1]?).map (·.key)
  | .alap => (s[i + 1]?).map (·.key)

/-- What constraint number `j` (`c`) of the `i`-th schedulable refers to. -/
def refOf (strat : Strategy) (s : List (Item κ)) (i j : Nat) (c : Constraint κ) : Option κ :=
  match c.ref with
  | some r => some r
  | none => if j = 0 then neighbour strat s i else none

/-- Default points: "end" of the reference to "start" of the new operation, except that for the
ALAP strategy it is "start" of the reference to "end" of the new operation. -/
def ptOf (strat : Strategy) (c : Constraint κ) : RefPt :=
  match c.refPt with
  | some p => p
  | none => match strat with | .asap => .stop | .alap => .start

/-- See `ptOf`. -/
def ptNewOf (strat : Strategy) (c : Constraint κ) : RefPt :=
  match c.refPtNew with
  | some p => p
  | none => match strat with | .asap => .start | .alap => .stop

/-- `Requires strat s T i t`: given start times `T`, some timing constraint of the `i`-th
schedulable asks it to start at `t`: the point on the reference operation, plus the relative
time, plus the delay the reference operation imposes on its successors, minus the offset of the
point on the new operation. -/
def Requires (strat : Strategy) (s : List (Item κ)) (T : κ → Rat) (i : Nat) (t : Rat) : Prop :=
  ∃ it j c ri, s[i]? = some it ∧ it.cons[j]? = some c ∧ ri ∈ s ∧
    refOf strat s i j c = some ri.key ∧
    t = T ri.key + (ptOf strat c).frac * ri.dur + c.rel + ri.delay.getD 0
          - (ptNewOf strat c).frac * it.dur

/-- `RefersTo strat s a b`: a constraint of schedulable `b` refers to schedulable `a`. -/
def RefersTo (strat : Strategy) (s : List (Item κ)) (a b : κ) : Prop :=
  ∃ i j it c, s[i]? = some it ∧ it.key = b ∧ it.cons[j]? = some c ∧ refOf strat s i j c = some a

/-- The references contain a cycle. -/
def Circular (strat : Strategy) (s : List (Item κ)) : Prop :=
  ∃ k, Relation.TransGen (RefersTo strat s) k k

/-- Some constraint refers to something that is not in the schedule. -/
def Dangling (strat : Strategy) (s : List (Item κ)) : Prop :=
  ∃ a b, RefersTo strat s a b ∧ a ∉ s.map (·.key)

/-- The shape of constraints the public API produces: at least one constraint per schedulable
(exactly one for ALAP), only the first one may leave the reference open, and only the three
documented reference points are used. -/
def WellFormed (strat : Strategy) (s : List (Item κ)) : Prop :=
  ∀ it ∈ s, it.cons ≠ [] ∧ (strat = .alap → it.cons.length = 1) ∧
    (∀ c ∈ it.cons.tail, c.ref ≠ none) ∧
    (∀ c ∈ it.cons, c.refPt ≠ some .other ∧ c.refPtNew ≠ some .other)

/-- The start time a timed schedule gives to a label (0 for absent labels). -/
def startOf (out : List (Item κ)) (k : κ) : Rat :=
  ((findItem out k).bind (·.abs)).getD 0

/-- A schedule on which the pass has not run yet. -/
def Fresh (s : List (Item κ)) : Prop := ∀ it ∈ s, it.abs = none

/-- Labels of a schedule are unique (they are dict keys). -/
def UniqueKeys (s : List (Item κ)) : Prop := (s.map (·.key)).Nodup

/-- `order` lists every schedulable once, each after everything its constraints refer to. -/
def TopologicalOrder (s : List (Item κ)) (order : List κ) : Prop :=
  order.Perm (s.map (·.key)) ∧
  ∀ it ∈ s, ∀ c ∈ it.cons, ∀ r, c.ref = some r →
    ∃ i j : Nat, order[i]? = some r ∧ order[j]? = some it.key ∧ i < j

end Verif.Timing
