/-
Cases that meet the hypotheses of C69, and operations whose converted pulses are not what they put out.
-/
import Verif.Sampled.Props

namespace Verif.Sampled

open Verif.Long (Info V PC output)
open Spec

/-- A voltage offset for 8 ns, with a ramp on top of it from 4 ns on, started at `t0`. -/
def exampleOp (t0 : Rat) : Operation :=
  ⟨[⟨("q0:mw", "q0.01"), t0, 0, .offset (1 / 2, 1 / 4)⟩, ⟨("q0:mw", "q0.01"), t0 + 8, 0, .offset (0, 0)⟩,
    ⟨("q0:mw", "q0.01"), t0 + 4, 4, .wave (.ramp (1 / 4) 0)⟩], [], false⟩

/-- The operation from 0 to 8 ns meets the hypotheses of `converted_played_partial` with samples each
nanosecond. -/
theorem example_grid (t0 : Nat) : OnGrid 1 (exampleOp t0) ∧ Ends (exampleOp t0) (t0 + 8) ∧
    ∀ p ∈ (exampleOp t0).pulses, p.pc = ("q0:mw", "q0.01") := by
  refine ⟨⟨by norm_num, ?_, ?_, ?_⟩, ⟨?_, ?_, ?_⟩, ?_⟩
  · intro p hp
    simp only [exampleOp, List.mem_cons, List.not_mem_nil, or_false] at hp
    rcases hp with rfl | rfl | rfl
    · exact ⟨⟨t0, by simp⟩, 0, by simp⟩
    · exact ⟨⟨t0 + 8, by simp⟩, 0, by simp⟩
    · exact ⟨⟨t0 + 4, by simp⟩, 4, by simp⟩
  · simp [exampleOp]
  · intro p hp v
    simp only [exampleOp, List.mem_cons, List.not_mem_nil, or_false] at hp
    rcases hp with rfl | rfl | rfl <;> simp
  · left
    exact ⟨⟨("q0:mw", "q0.01"), t0 + 8, 0, .offset (0, 0)⟩, by simp [exampleOp], by simp⟩
  · intro p hp
    simp only [exampleOp, List.mem_cons, List.not_mem_nil, or_false] at hp
    rcases hp with rfl | rfl | rfl <;> norm_num
    linarith
  · simp [exampleOp]
  · intro p hp
    simp only [exampleOp, List.mem_cons, List.not_mem_nil, or_false] at hp
    rcases hp with rfl | rfl | rfl <;> rfl

/-- So it is played as it should be. -/
theorem example_played (other : Nat → Rat → V) :
    ∃ np, convert other (exampleOp 0) 0 (1 / (1 : Nat)) = .ok (.numerical np) ∧
      played np (1 / (1 : Nat)) = .ok ((List.range 8).map (fun k : Nat =>
        toC (output other (exampleOp 0).pulses ("q0:mw", "q0.01") (((1 : Nat) : Rat) * k)))) := by
  obtain ⟨h1, h2, h3⟩ := example_grid 0
  obtain ⟨np, h, _, _, _, h'⟩ := converted_played_partial other (exampleOp 0) 1 _ 8 (by norm_num)
    (by simpa using h1) h3 (by simpa using h2) ⟨_, by simp [exampleOp]; left; rfl, rfl⟩
  exact ⟨np, by simpa [exampleOp] using h, h'⟩

/-- The output of the operation is not trivial. -/
theorem example_output (other : Nat → Rat → V) :
    output other (exampleOp 0).pulses ("q0:mw", "q0.01") 2 = (1 / 2, 1 / 4) ∧
    output other (exampleOp 0).pulses ("q0:mw", "q0.01") 6 = (5 / 8, 1 / 4) ∧
    output other (exampleOp 0).pulses ("q0:mw", "q0.01") 8 = (0, 0) := by
  have hc : ∀ a b c d : Rat, ((a, b) : V) + ((c, d) : V) = (a + c, b + d) := fun _ _ _ _ => rfl
  refine ⟨?_, ?_, ?_⟩ <;>
    (simp only [output, Long.valueAt, Long.latest, Long.later, Long.sets, exampleOp, List.filterMap_cons,
      List.filterMap_nil, List.map_cons, List.map_nil, List.sum_cons, List.sum_nil, Info.wave, Long.Wave.value]
     norm_num [hc, Long.latest, Long.later])

/-- The full statement is false: the same operation started 4 ns later.  It cannot be played. -/
theorem late_example_refused (other : Nat → Rat → V) :
    ∃ np, convert other (exampleOp 4) 0 (1 / (1 : Nat)) = .ok (.numerical np) ∧
      played np 1 = .error .valueError := by
  obtain ⟨h1, h2, h3⟩ := example_grid 4
  have e4 : ((4 : Nat) : Rat) = 4 := by norm_num
  rw [e4] at h1 h2 h3
  obtain ⟨np, h, h'⟩ := late_start_refused other (exampleOp 4) 1 _ _ 0 (by simp [exampleOp]) h1 h3 h2
    (by norm_num) (by
      intro p hp
      simp only [exampleOp, List.mem_cons, List.not_mem_nil, or_false] at hp
      rcases hp with rfl | rfl | rfl <;> norm_num) 1 (by norm_num) (by norm_num)
  exact ⟨np, by simpa [exampleOp] using h, h'⟩

/-- An offset without a pulse on it, from `t0` to `t0 + 2`. -/
def offsetOp (t0 : Rat) : Operation :=
  ⟨[⟨("q0:fl", "cl0.baseband"), t0, 0, .offset (1 / 2, 0)⟩, ⟨("q0:fl", "cl0.baseband"), t0 + 2, 0, .offset (0, 0)⟩],
    [], false⟩

/-- The full statement is false: an offset from 1 ns to 3 ns is converted to a pulse from 1 ns to 4 ns that is
as high all the time. -/
theorem late_example_too_long (other : Nat → Rat → V) :
    convert other (offsetOp 1) = .ok (.numerical ⟨("q0:fl", "cl0.baseband"), 1, 3,
      [(1 / 2, 0), (1 / 2, 0), (1 / 2, 0), (1 / 2, 0)], [1, 2, 3, 4]⟩) ∧
    output other (offsetOp 1).pulses ("q0:fl", "cl0.baseband") 3 = (0, 0) := by
  constructor
  · unfold convert
    simp only [offsetOp, StableSort.sortBy_eq_insSort, StableSort.insSort, StableSort.insertBy]
    have e : ((1 : Rat) ≤ 1 + 2) := by norm_num
    simp only [e, if_true, List.foldl_cons, List.foldl_nil, setOffset, List.foldlM_cons, List.foldlM_nil, addPulse,
      bind, Except.bind, pure, Except.pure]
    decide +kernel
  · simp only [output, Long.valueAt, Long.latest, Long.later, Long.sets, offsetOp, List.filterMap_cons,
      List.filterMap_nil, List.map_cons, List.map_nil, List.sum_cons, List.sum_nil, Info.wave]
    norm_num [Long.latest, Long.later]

/-- With two samples per nanosecond, the times are rounded to nanoseconds and the conversion of a square
pulse fails. -/
theorem two_samples_per_ns :
    convert (fun _ _ => 0) ⟨[⟨("q0:mw", "q0.01"), 0, 2, .wave (.square (1, 0))⟩], [], false⟩ 0 2 = .error .valueError := by
  unfold convert
  simp only [StableSort.sortBy_eq_insSort, StableSort.insSort, StableSort.insertBy, List.foldl_cons, List.foldl_nil,
    setOffset, List.foldlM_cons, List.foldlM_nil, addPulse, samplesOf,
    bind, Except.bind, pure, Except.pure]
  decide +kernel

end Verif.Sampled
