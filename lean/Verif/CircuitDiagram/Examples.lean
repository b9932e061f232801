/-
Examples and counterexamples for C76.
-/
import Verif.CircuitDiagram.Props2

set_option linter.unusedSimpArgs false
set_option linter.unusedVariables false

namespace Verif.CircuitDiagram.Examples

/-- A gate. -/
def gate (p : Plot) (tex : String) (es : List String) (label : Option String := none) : Node :=
  .op { name := tex, gate := some ⟨p, es, tex, label⟩ }

/-- X. -/
def X (q : String) : Node := gate .gateBox "X" [q]
/-- A measurement with a label. -/
def M (q : String) : Node := gate .meter "M" [q] (some q)
/-- CNOT. -/
def CNOT (a b : String) : Node := gate .cnot "CNOT" [a, b]
/-- A pulse. -/
def pulse (port : Option String) (clock : String := "cl0.baseband") : Node :=
  .op { name := "P", pulses := [⟨port, clock⟩], dur := 1 / 10000000 }

/-- Schedulables. -/
def items : List (Rat × Node) → Items
  | [] => .nil
  | (t, n) :: rest => .cons t n (items rest)

/-- The clocks. -/
def res : List (String × Rat) := [("cl0.baseband", 0), ("q0.01", 5)]

/-- X, CNOT, a measurement of q1, a loop over (X, X), a conditional X on q0. -/
def good : Node := .sched 1 (items [(0, X "q0"), (1, CNOT "q0" "q1"), (2, M "q1"),
  (3, .loop 5 (.sched 1 (items [(0, X "q0"), (1, X "q0")]))), (5, .cond "q1" 0 (X "q0"))])

/-- What is drawn. -/
def drawn (order : List String) (s : Node) : Option (List (String × Nat) × List Glyph × Rat) :=
  match diagram order res s with
  | .ok d => some (d.lines, d.glyphs, d.right)
  | .error _ => none

/-- The exception. -/
def refused (order : List String) (s : Node) : Option Err :=
  match diagram order res s with
  | .ok _ => none
  | .error e => some e

/-- The diagram of `good`. -/
theorem good_drawn : drawn [] good = some ([("q0", 0), ("q1", 1)],
    [.mark (.box "X") 0 0, .link 1 0 1, .mark .plus 1 1, .mark .meter 2 1, .mark (.box "X") 3 0, .mark (.box "X") 4 0,
     .brackets 5 (265 / 100) (435 / 100) (-(3 / 10)) (3 / 10), .mark (.box "X") 5 0, .arrow 2 (125 / 100) 5 (25 / 100)], 6) := by
  decide +kernel

/-- The hypotheses of the theorems hold for `good`. -/
theorem good_fine : Fine [] res good ∧ Seq good ∧ PlainTop good := by
  refine ⟨⟨?_, ?_, ?_, ?_, ?_⟩, ?_, ?_⟩
  · simp [good, items, Simple, SimpleItems, NotFlow, X, M, CNOT, gate]
  · refine ⟨by simp, ?_⟩
    intro p
    simp [IsPort, good, items, leaves, leavesItems, X, M, CNOT, gate]
  · simp [IsElement, good, items, leaves, leavesItems, X, M, CNOT, gate]
  · decide +kernel
  · simp [Pure, good, items, leaves, leavesItems, X, M, CNOT, gate]
  · simp [good, items, Seq, SeqItems, X, M, CNOT, gate, depth, ownDepth, duration, latest]
    norm_num
  · simp [good, items, PlainTop, PlainTop.PlainTopItems, Plain, PlainItems, X, M, CNOT, gate]

/-- A loop of three times (X, X) in a sub-schedule, then X on q0 and X on q1 at the same time. -/
def hidden : Node := .sched 1 (items [
  (0, .sched 1 (items [(0, .loop 3 (.sched 1 (items [(0, X "q0"), (1, X "q0")])))])), (4, X "q0"), (4, X "q1")])

/-- The two simultaneous gates are drawn in different columns, and that of q1 is to the right of the diagram. -/
theorem out_of_sight : Seq hidden ∧ drawn [] hidden = some ([("q0", 0), ("q1", 1)],
    [.mark (.box "X") 0 0, .mark (.box "X") 1 0, .brackets 3 (65 / 100) (135 / 100) (-(3 / 10)) (3 / 10),
     .mark (.box "X") 2 0, .mark (.box "X") 4 1], 3) := by
  refine ⟨?_, by decide +kernel⟩
  simp [hidden, items, Seq, SeqItems, X, gate, depth, ownDepth, duration, latest]
  norm_num

/-- A loop that is the first operation of a schedule: its opening bracket comes after its closing bracket and after what is
inside. -/
theorem first_loop : drawn [] (.sched 1 (items [(0, .loop 2 (X "q0"))])) = some ([("q0", 0)],
    [.mark (.box "X") 0 0, .brackets 2 (65 / 100) (35 / 100) (-(3 / 10)) (3 / 10)], 1) := by
  decide +kernel

/-- A gate on q0, a pulse on a port of q0 and a pulse on another port. -/
def mixed : Node := .sched 1 (items [(0, X "q0"), (1, pulse (some "q0:mw")), (2, pulse (some "ext:out"))])

/-- The pulse on the port of q0 is drawn on the line "other", depending on the order of the set of ports. -/
theorem misplaced :
    drawn ["q0:mw", "ext:out"] mixed = some ([("q0", 1), ("other", 0)],
      [.mark (.box "X") 0 1, .mark .baseband 1 0, .mark (.text "P") 1 0, .mark .baseband 2 0, .mark (.text "P") 2 0], 3) ∧
    drawn ["ext:out", "q0:mw"] mixed = some ([("q0", 1), ("other", 0)],
      [.mark (.box "X") 0 1, .mark .baseband 1 1, .mark (.text "P") 1 1, .mark .baseband 2 0, .mark (.text "P") 2 0], 3) := by
  decide +kernel

/-- The hypotheses of `ports_misplaced` and `ports_placed_partial` hold. -/
theorem mixed_fine : Fine ["q0:mw", "ext:out"] res mixed ∧ Owned mixed "q0:mw" ∧ Foreign mixed "ext:out" := by
  have hel : ∀ e, IsElement mixed e ↔ e = "q0" := by
    intro e; simp [IsElement, mixed, items, leaves, leavesItems, X, gate, pulse]
  have hpo : ∀ p, IsPort mixed p ↔ p = "q0:mw" ∨ p = "ext:out" := by
    intro p
    simp [IsPort, mixed, items, leaves, leavesItems, X, gate, pulse]
    simp only [eq_comm]
  refine ⟨⟨?_, ?_, ?_, ?_, ?_⟩, ?_, ?_, ?_⟩
  · simp [mixed, items, Simple, SimpleItems, NotFlow, X, pulse, gate]
  · refine ⟨by simp, ?_⟩
    intro p
    rw [hpo]; simp
  · rw [hel]; decide
  · decide +kernel
  · simp [Pure, mixed, items, leaves, leavesItems, X, pulse, gate]
  · exact ⟨"q0", (prefix_iff _ _).2 (by decide +kernel), (hel _).2 rfl⟩
  · exact (hpo _).2 (Or.inr rfl)
  · rintro ⟨e, h1, h2⟩
    rw [prefix_iff] at h1
    rw [hel] at h2
    rw [h1] at h2
    revert h2
    decide +kernel

/-- A device element with the name "other" is drawn on the line of the ports that belong to none. -/
theorem element_other : drawn ["ext:out"] (.sched 1 (items [(0, X "other"), (1, X "q0"), (2, pulse (some "ext:out"))])) =
    some ([("other", 0), ("q0", 2)],
      [.mark (.box "X") 0 0, .mark (.box "X") 1 2, .mark .baseband 2 0, .mark (.text "P") 2 0], 3) := by
  decide +kernel

/-- A loop whose body is a loop: what is inside is not drawn, and the number of repetitions is that of the inner loop. -/
theorem nested_loop : drawn [] (.sched 1 (items [(0, X "q0"), (1, .loop 2 (.loop 3 (X "q0")))])) = some ([("q0", 0)],
    [.mark (.box "X") 0 0, .brackets 3 (65 / 100) (35 / 100) (-(3 / 10)) (3 / 10)], 1) := by
  decide +kernel

/-- An operation with a pulse and an acquisition is drawn as a pulse. -/
theorem acquisition_not_drawn : drawn ["q0:res"] (.sched 1 (items [(0, .op
      { name := "R", pulses := [⟨some "q0:res", "q0.01"⟩], acqs := [⟨"q0:res", none⟩] })])) =
    some ([("other", 0)], [.mark .modulated 0 0, .mark (.text "R") 0 0], 1) := by
  decide +kernel

/-- A loop over an idle pulse cannot be drawn; the idle pulse alone can. -/
theorem idle_loop : refused [] (.sched 1 (items [(0, .loop 2 (pulse none))])) = some .keyError ∧
    drawn [] (.sched 1 (items [(0, pulse none)])) = some ([], [], 1) := by
  decide +kernel

/-- A conditional operation without a measurement. -/
theorem no_measurement : refused [] (.sched 1 (items [(0, .cond "q0" 0 (X "q0"))])) = some .keyError := by
  decide +kernel

end Verif.CircuitDiagram.Examples
