/-
What the timing table of a schedule should list.
-/
import Verif.Table.Model

namespace Verif.Table.Spec

variable {D : Type}

/-- A step on the way from a schedule to one of its pulses: the schedulable with this number, this repetition of a loop,
the body of a conditional, the pulse or the acquisition with this number of an operation. -/
inductive Step where
  | item (k : Nat)
  | round (i : Nat)
  | body
  | pulse (k : Nat)
  | acq (k : Nat)
deriving DecidableEq, Repr

/-- The schedulable with number `k` has this `operation_id`, start and operation. -/
inductive ItemAt : Items D → Nat → String → Rat → Op D → Prop
  | head {id t op rest} : ItemAt (.cons id (some t) op rest) 0 id t op
  | tail {id time op rest k id' t' op'} : ItemAt rest k id' t' op' → ItemAt (.cons id time op rest) (k + 1) id' t' op'

/-- What is played when operation `op` (of operation id `id`) is run at `start`: one row for every way from the operation
to a pulse or acquisition.  Repetition `i` of a loop starts `i` durations of the body after the loop. -/
inductive Plays : Op D → Rat → Option String → List Step → Row D → Prop
  | pulse {name pulses acqs start id k i} (h : pulses[k]? = some i) :
      Plays (.plain name pulses acqs) start id [.pulse k] ⟨name, k, id, start + i.t0, i.duration, i.acq, i.data⟩
  | acq {name pulses acqs start id k i} (h : acqs[k]? = some i) :
      Plays (.plain name pulses acqs) start id [.acq k] ⟨name, k, id, start + i.t0, i.duration, i.acq, i.data⟩
  | item {dur items start id k id' t op path r} (h : ItemAt items k id' t op)
      (hp : Plays op (start + t) (some id') path r) : Plays (.sched dur items) start id (.item k :: path) r
  | round {n : Nat} {body start id} {i : Nat} {d path r} (hi : i < n) (hd : body.duration = some d)
      (hp : Plays body (start + (i : Rat) * d) id path r) : Plays (.loop n body) start id (.round i :: path) r
  | cond {b body start id path r} (hp : Plays body start id path r) :
      Plays (.cond b body) start id (.body :: path) r

/-- A schedulable has no time. -/
inductive MissingTime : Items D → Prop
  | head {id op rest} : MissingTime (.cons id none op rest)
  | tail {id time op rest} (h : MissingTime rest) : MissingTime (.cons id time op rest)

/-- A schedulable, at any depth that is reached, has no time. -/
inductive Untimed : Op D → Prop
  | here {dur items} (h : MissingTime items) : Untimed (.sched dur items)
  | item {dur items k id t op} (h : ItemAt items k id t op) (hop : Untimed op) : Untimed (.sched dur items)
  | round {n body} (hn : 0 < n) (h : Untimed body) : Untimed (.loop n body)
  | cond {b body} (h : Untimed body) : Untimed (.cond b body)

/-- `m` is the last end of the schedulables, or 0. -/
structure LastEnd (items : Items D) (m : Rat) : Prop where
  nonneg : 0 ≤ m
  bound : ∀ k id t op, ItemAt items k id t op → ∃ d, op.duration = some d ∧ t + d ≤ m
  reached : m = 0 ∨ ∃ k id t op d, ItemAt items k id t op ∧ op.duration = some d ∧ t + d = m

mutual
/-- The times of a schedule have been determined: the duration of every schedule is that of its longest schedulable,
times the repetitions, and no schedulable, pulse or acquisition starts before its schedule or operation. -/
inductive Timed : Op D → Prop
  | plain {name pulses acqs} (h : ∀ i ∈ pulses ++ acqs, 0 ≤ i.t0 ∧ 0 ≤ i.duration) : Timed (.plain name pulses acqs)
  | sched {items m} (reps : Nat) (hr : 0 < reps) (hm : LastEnd items m) (h : TimedItems items) :
      Timed (.sched (some (m * reps)) items)
  | loop {n body} (h : Timed body) : Timed (.loop n body)
  | cond {b body} (hb : 0 ≤ b) (h : Timed body) : Timed (.cond b body)
/-- The same for schedulables. -/
inductive TimedItems : Items D → Prop
  | nil : TimedItems .nil
  | cons {id t op rest} (ht : 0 ≤ t) (h : Timed op) (hrest : TimedItems rest) :
      TimedItems (.cons id (some t) op rest)
end

end Verif.Table.Spec
