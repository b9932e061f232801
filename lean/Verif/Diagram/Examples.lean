/-
Examples for pulse diagrams.
-/
import Verif.Diagram.Props

namespace Verif.Diagram.Examples

open Verif.Diagram Spec
open Verif.Table (Op Items Row Info)
open Verif.Table.Spec

/-- A ramp of 4 ns. -/
def ramp : Rat → C := fun t => (0 + 250000000 * t, 0 + 0 * t)

/-- A pulse, and an offset on another port, in a loop of three. -/
def body : Op Piece := .sched (some (10 / 1000000000)) (.cons "a" (some 0)
  (.plain "P" [⟨0, 4 / 1000000000, false, ⟨some "p", some "c", .wave true ramp⟩⟩,
    ⟨2 / 1000000000, 0, false, ⟨some "q", some "c", .offset (1 / 2, 0)⟩⟩] []) .nil)

def items : Items Piece := .cons "l" (some 0) (.loop 3 body) .nil

/-- The pulses on port `p`: three of them. -/
theorem items_collected : (extract false (some ["p"]) (.sched none items) 0 none).map (fun l => l.map fun r => (r.name, r.index, r.time)) =
    .ok [("P", 0, 0), ("P", 0, 10 / 1000000000), ("P", 0, 20 / 1000000000)] := by
  decide +kernel

/-- `collected` applies. -/
example : ∃ l, extract false (some ["p"]) (.sched none items) 0 none = .ok l ∧ l.length = 3 := by
  have h := items_collected
  cases hl : extract false (some ["p"]) (.sched none items) 0 none with
  | error e => rw [hl] at h; cases h
  | ok l =>
    rw [hl] at h
    refine ⟨l, rfl, ?_⟩
    have : l.map (fun r => (r.name, r.index, r.time)) = [("P", 0, 0), ("P", 0, 10 / 1000000000), ("P", 0, 20 / 1000000000)] := by
      simpa [Except.map] using h
    simpa using congrArg List.length this

/-- The curve of the second pulse in the middle. -/
example : ∃ pts, samplePulse 1000000000 none none (10 / 1000000000) (4 / 1000000000) true ramp = some pts ∧
    value pts (12 / 1000000000) = (1 / 2, 0) := by
  obtain ⟨pts, h1, h2, _⟩ := linear_value_partial (rate := 1000000000) (start := 10 / 1000000000) (duration := 4 / 1000000000)
    (lo := none) (hi := none) (u := (0, 0)) (v := (250000000, 0)) (n := 4) (by norm_num) (by norm_num) (by norm_num)
    (by simp) (by simp)
  refine ⟨pts, h1, ?_⟩
  rw [h2 _ (by norm_num) (by norm_num)]
  norm_num

/-- A waveform that is drawn with its samples. -/
example : ∃ pts, samplePulse 1000000000 none none 0 (4 / 1000000000) false (fun t => (t * t, 0)) = some pts ∧
    value pts (0 + ((3 : Nat) : Rat) / 1000000000) = (9 / 1000000000000000000, 0) := by
  obtain ⟨pts, h1, h2, _⟩ := pulse_value_partial (rate := 1000000000) (start := 0) (duration := 4 / 1000000000) (lo := none)
    (hi := none) (f := fun t => (t * t, 0)) (n := 4) (by norm_num) (by norm_num) (by norm_num) (by simp) (by simp)
  refine ⟨pts, h1, ?_⟩
  rw [h2 3 (by decide)]
  norm_num

/-- **A pulse that starts before the left limit is drawn from its beginning**: 3 ns after the start of the ramp its value is
3/4, but the diagram shows 1/4. -/
theorem cut_pulse_wrong : (samplePulse 1000000000 (some (2 / 1000000000)) none 0 (4 / 1000000000) false ramp).map
    (fun pts => value pts (3 / 1000000000)) = some (1 / 4, 0) ∧ ramp (3 / 1000000000) = (3 / 4, 0) := by
  decide +kernel

/-- Offsets in the order of time. -/
theorem offsets_listed : Listed (1 / 100) 10 [(1, (1, 0)), (3, (0, 2)), (5, (0, 0))] := by
  refine ⟨?_, by decide +kernel⟩
  simp only [List.pairwise_cons, List.mem_cons, List.not_mem_nil, or_false, forall_eq_or_imp, forall_eq, false_implies,
    implies_true, List.Pairwise.nil, and_true]
  norm_num

/-- The second of them is in force at 4. -/
theorem offset_in_force : InForce (1 / 100) 10 [(1, (1, 0)), (3, (0, 2)), (5, (0, 0))] 4 (0, 2) :=
  ⟨1, 3, rfl, by norm_num, .inl ⟨5, (0, 0), rfl, by norm_num⟩⟩

/-- **Offsets that are not listed in the order of time are drawn wrongly**: the offset of 1 at time 0 is reset at time 100,
but the diagram shows it until the end. -/
theorem offsets_out_of_order : (sampleOffsets (1 / 100) none none 200 [(100, (0, 0)), (0, (1, 0))]).map (fun pts => pts.drop 1) =
    .ok [(-1 / 100, (0, 0)), (0, (1, 0)), (200, (1, 0))] := by
  decide +kernel

/-- **A diagram that starts after an offset has been reset raises an exception.** -/
theorem offsets_limit : sampleOffsets (1 / 100) (some 20) none 100 [(0, (1, 0)), (10, (0, 0))] = .error .stopIteration := by
  decide +kernel

/-- **Drawing a numerical pulse changes the schedule.** -/
theorem drawing_changes (f : List Rat → Rat → C) : afterDrawing (.numerical [1, 2, 3] f) = .numerical [0, 1, 2] f := by
  simp only [afterDrawing, shiftSamples, List.map, List.headD]
  norm_num

end Verif.Diagram.Examples
