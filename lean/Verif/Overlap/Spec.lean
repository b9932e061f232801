/-
Overlapping pulses.
-/
import Verif.Overlap.Model

namespace Verif.Overlap

/-- The entries of an operation that play or set something on a port-clock. -/
def Plain.on (p : Plain) (pc : String × String) : List Info :=
  p.infos.filter (fun i => (i.wave || i.offset) && decide ((i.port, i.clock) = pc))

/-- Times between the start of the first and the end of the last pulse of an operation on a
port-clock ("all pulse info entries with the same port and clock count as one pulse"). -/
def During (e : Rat × Plain) (pc : String × String) (t : Rat) : Prop :=
  (∃ i ∈ e.2.on pc, e.1 + i.t0 ≤ t) ∧ (∃ i ∈ e.2.on pc, t ≤ e.1 + i.t0 + i.dur)

/-- The same without the ends. -/
def Within (e : Rat × Plain) (pc : String × String) (t : Rat) : Prop :=
  (∃ i ∈ e.2.on pc, e.1 + i.t0 < t) ∧ (∃ i ∈ e.2.on pc, t < e.1 + i.t0 + i.dur)

/-- Two operations that overlap on some port-clock: one of them is underway when the other one
starts or ends there, or in between. -/
def Overlap (a b : Rat × Plain) : Prop :=
  ∃ pc t, (Within a pc t ∧ During b pc t) ∨ (During a pc t ∧ Within b pc t)

mutual
/-- The operations that are played, with the times at which they start; loops with all iterations. -/
def plays : Op → Rat → List (Rat × Plain)
  | .plain p, off => if p.infos = [] then [] else [(off, p)]
  | .loop n d body, off => (List.range n).flatMap (fun k : Nat => plays body (off + (k : Rat) * d))
  | .conditional body, off => plays body off
  | .sched items, off => playsItems items off
/-- The same for schedulables. -/
def playsItems : Items → Rat → List (Rat × Plain)
  | .nil, _ => []
  | .cons abs op rest, off => plays op (off + abs) ++ playsItems rest off
end

mutual
/-- All loops are run at least `lo` and at most `hi` times. -/
def Runs (lo : Nat) (hi : Option Nat) : Op → Prop
  | .plain _ => True
  | .loop n _ body => lo ≤ n ∧ (∀ h, hi = some h → n ≤ h) ∧ Runs lo hi body
  | .conditional body => Runs lo hi body
  | .sched items => RunsItems lo hi items
/-- The same for schedulables. -/
def RunsItems (lo : Nat) (hi : Option Nat) : Items → Prop
  | .nil => True
  | .cons _ op rest => Runs lo hi op ∧ RunsItems lo hi rest
end

/-- Two operations in a list of operations played, at different places in it. -/
def Both (l : List (Rat × Plain)) (a b : Rat × Plain) : Prop := ∃ rest, l.Perm (a :: b :: rest)

/-- The duration of an operation covers its entries, which have no negative times. -/
def Plain.Proper (p : Plain) : Prop :=
  ∀ i ∈ p.infos, 0 ≤ i.t0 ∧ 0 ≤ i.dur ∧ i.t0 + i.dur ≤ p.dur

/-- An operation plays on one port-clock all the time. -/
def Plain.Full (p : Plain) (pc : String × String) : Prop :=
  p.Proper ∧ (∃ i ∈ p.on pc, i.t0 = 0) ∧ (∃ i ∈ p.on pc, i.t0 + i.dur = p.dur)

end Verif.Overlap
