/-
Examples for the timing table.
-/
import Verif.Table.Props

namespace Verif.Table.Examples

open Verif.Table Spec

/-- A measurement: a pulse of 20 and, 5 later, an acquisition of 30. -/
def measure : Op Nat := .plain "M" [⟨0, 20, false, 1⟩] [⟨5, 30, true, 2⟩]

/-- A pulse of 10. -/
def pulse : Op Nat := .plain "X" [⟨0, 10, false, 3⟩] []

/-- A schedule of a pulse and a measurement. -/
def inner : Op Nat := .sched (some 50) (.cons "a" (some 0) pulse (.cons "b" (some 15) measure .nil))

/-- Two repetitions of it, and a conditional pulse at the same time as the second one. -/
def items : Items Nat := .cons "c" (some 100) (.loop 2 inner) (.cons "d" (some 150) (.cond 4 pulse) .nil)

/-- The rows. -/
theorem items_rows : rows items = .ok
    [⟨"X", 0, some "a", 100, 10, false, 3⟩, ⟨"M", 0, some "b", 115, 20, false, 1⟩, ⟨"M", 0, some "b", 120, 30, true, 2⟩,
     ⟨"X", 0, some "a", 150, 10, false, 3⟩, ⟨"M", 0, some "b", 165, 20, false, 1⟩, ⟨"M", 0, some "b", 170, 30, true, 2⟩,
     ⟨"X", 0, some "d", 150, 10, false, 3⟩] := by
  decide +kernel

/-- The duration of three repetitions. -/
theorem items_duration : scheduleDuration 3 items = some 600 := by decide +kernel

theorem pulse_timed : Timed pulse := .plain (by decide +kernel)

theorem measure_timed : Timed measure := .plain (by decide +kernel)

theorem inner_timed : Timed inner := by
  have h : scheduleDuration 1 (.cons "a" (some 0) pulse (.cons "b" (some 15) measure .nil)) = some 50 := by decide +kernel
  obtain ⟨m, hm, he⟩ := schedule_duration h
  have := Timed.sched 1 one_pos hm (.cons le_rfl pulse_timed (.cons (by decide +kernel) measure_timed .nil))
  rw [← he] at this
  exact this

/-- The hypotheses of the theorems are met. -/
theorem items_timed : TimedItems items :=
  .cons (by decide +kernel) (.loop inner_timed) (.cons (by decide +kernel) (.cond (by decide +kernel) pulse_timed) .nil)

/-- The measurement in the second repetition. -/
theorem second_round : Plays (.sched none items) 0 none [.item 0, .round 1, .item 1, .acq 0]
    ⟨"M", 0, some "b", 170, 30, true, 2⟩ := by
  refine .item .head (.round (by decide) (d := 50) (by decide +kernel) (.item (.tail .head) ?_))
  have := Plays.acq (name := "M") (pulses := [⟨0, 20, false, 1⟩]) (acqs := [⟨5, 30, true, 2⟩]) (k := 0) (id := some "b")
    (start := 0 + 100 + ((1 : Nat) : Rat) * 50 + 15) (i := (⟨5, 30, true, 2⟩ : Info Nat)) rfl
  have h : (0 + 100 + ((1 : Nat) : Rat) * 50 + 15 + 5) = 170 := by decide +kernel
  simp only [h] at this
  exact this

/-- A schedulable without time. -/
example : Untimed (.sched none (.cons "c" (some 1) (.loop 2 (.sched none (.cons "a" none pulse .nil))) .nil)) :=
  .item .head (.round (by decide) (.here .head))

/-- **The pulse and the acquisition of a measurement have the same `waveform_op_id`** (name and index). -/
theorem same_waveform_op_id : ∃ l, rows (.cons "b" (some 0) measure .nil) = .ok l ∧
    l.map (fun r => (r.name, r.index, r.acq)) = [("M", 0, false), ("M", 0, true)] :=
  ⟨[⟨"M", 0, some "b", 0, 20, false, 1⟩, ⟨"M", 0, some "b", 5, 30, true, 2⟩], by decide +kernel, rfl⟩

/-- **A subschedule with repetitions is listed once only**, but its duration counts all of them. -/
theorem repeated_subschedule : ∃ sub d, scheduleDuration 3 sub = some d ∧ d = 30 ∧
    rows (.cons "s" (some 0) (.sched (some d) sub) .nil) = .ok [(⟨"X", 0, some "x", 0, 10, false, 3⟩ : Row Nat)] :=
  ⟨.cons "x" (some 0) pulse .nil, 30, by decide +kernel, rfl, by decide +kernel⟩

end Verif.Table.Examples
