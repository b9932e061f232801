/-
C57: concrete cases, and findings.
-/
import Verif.AcqSet.Analog
import Verif.AcqSet.Qtm

namespace Verif.AcqSet.Examples

open Verif.AcqSet

/-- An acquisition of one microsecond. -/
def base (p : Proto) : Acq := ⟨p, .append, 1/1000000, 0, none, none, none, none, none⟩

/-- Two thresholded acquisitions with a label. -/
def disc : List Acq :=
  [{ base .thresholded with disc := some (45, 1/2), address := some 3 },
   { base .thresholded with disc := some (45, 1/2), address := some 3, channel := 1 }]

example : analog [0, 1] disc =
    .ok ⟨none, none, some true, some 3, some 45, some 500, some 1000⟩ := by decide +kernel

/-- Other thresholds on the same sequencer are refused, and another duration. -/
example : analog [0, 1] ({ base .thresholded with disc := some (45, 1/4) } :: disc) = .error .valueError := by
  decide +kernel
example : analog [0, 1] ({ base .ssb with duration := 1/500000 } :: disc) = .error .valueError := by
  decide +kernel

/-- The hypotheses of `threshold_meaning`. -/
example : ∃ (n : Int) (th : Rat), Spec.Exactly (1/1000000) n ∧ th = 500 ∧
    ∀ sum : Rat, th ≤ sum ↔ 1/2 ≤ sum / n := by
  obtain ⟨n, th, h1, h2, h3, h4, h5⟩ := threshold_meaning (inputs := [0, 1]) (acqs := disc)
    (s := ⟨none, none, some true, some 3, some 45, some 500, some 1000⟩) (by decide +kernel)
    (a := { base .thresholded with disc := some (45, 1/2), address := some 3 })
    (List.mem_cons_self ..) (Or.inl rfl) (r := 45) (t := 1/2) rfl
    (by
      intro b hb _
      simp only [disc, List.mem_cons, List.not_mem_nil, or_false] at hb
      rcases hb with rfl | rfl <;> exact Or.inr (Or.inr (Or.inl rfl)))
    (by
      intro b hb _
      simp only [disc, List.mem_cons, List.not_mem_nil, or_false] at hb
      rcases hb with rfl | rfl <;> exact ⟨1000, by unfold Spec.Exactly; decide +kernel⟩)
    (by decide +kernel)
  refine ⟨n, th, h1, ?_, h5⟩
  simp only [Option.some.injEq] at h4
  exact h4.symm

/-- Trigger counts need precisely one input. -/
example : analog [1] [{ base .trigCount with bin := .distribution }] =
    .ok ⟨some true, some 1, none, none, none, none, none⟩ := by decide +kernel
example : analog [0, 1] [base .trigCount] = .error .valueError := by decide +kernel

/-- A QTM counts photons, and sends a trigger if there are fewer than four. -/
def few : List Acq := [{ base .thresholdedTrigCount with count := some (4, .lessThan), address := some 2 }]
def fewSet : Qtm := ⟨none, none, none, none, none, some true, 2, 0, 0, 0, some 4, some 4⟩
example : qtm few = .ok fewSet := by decide +kernel
example : Spec.Sends fewSet 3 2 ∧ ¬Spec.Sends fewSet 4 2 := by
  obtain ⟨t, c, x, h1, h2, h3⟩ := qtm_triggers (acqs := few) (s := fewSet) (by decide +kernel)
    (List.mem_cons_self ..) rfl
  cases h1; cases h2
  exact ⟨(h3 3 2 (by decide)).mpr ⟨rfl, by simp [Spec.Holds]⟩,
    fun h => absurd ((h3 4 2 (by decide)).mp h).2 (by simp [Spec.Holds])⟩

/-- Two thresholds. -/
def range : List Acq := [{ base .dual with dual := some ⟨2, 5, 0, 7, 8, 0⟩ }]
example : ∃ s, qtm range = .ok s ∧ Spec.Sends s 3 7 ∧ Spec.Sends s 5 8 ∧ ∀ y, ¬Spec.Sends s 1 y := by
  refine ⟨⟨none, none, none, none, none, some true, 0, 7, 8, 0, some 2, some 5⟩, by decide +kernel, ?_⟩
  obtain ⟨d, h1, h2⟩ := qtm_dual_triggers (acqs := range)
    (s := ⟨none, none, none, none, none, some true, 0, 7, 8, 0, some 2, some 5⟩) (by decide +kernel)
    (List.mem_cons_self ..) rfl
  cases h1
  refine ⟨(h2 3 7).mpr (by decide), (h2 5 8).mpr (by decide), fun y h => ?_⟩
  obtain ⟨h0, h | h | h⟩ := (h2 1 y).mp h
  · exact h0 h.2
  · exact absurd h.1 (by decide)
  · exact absurd h.1 (by decide)

/-- Times relative to another port. -/
example : qtm [{ base .timetag with timing := some ⟨.last, .port, some 3⟩ }] =
    .ok ⟨some .last, some .port, some 3, none, none, none, 0, 0, 0, 0, none, none⟩ := by decide +kernel

/-- Reading: the same address with other settings is refused. -/
example : readSettings [⟨1, false, 1⟩, ⟨2, true, 5⟩, ⟨1, false, 1⟩] = .ok [(1, (false, 1)), (2, (true, 5))] := by
  decide +kernel
example : readSettings [⟨1, false, 1⟩, ⟨1, true, 1⟩] = .error .assertionError := by decide +kernel

/-- Two sequencers with traces. -/
example : singleScope [(0, [base .trace]), (1, [base .ssb])] = .ok (some 0) := by decide +kernel
example : singleScope [(0, [base .trace]), (1, [base .ssb, base .trace])] = .error .valueError := by
  decide +kernel

example : refChannel [("q0:switch", "digital"), ("q1:in", "digital")] (fun pc => if pc.1 = "q1:in" then 4 else 0)
    "q1:in" = .ok 4 := by decide +kernel

/-! ### Findings -/

/-- The range of the threshold is checked before it is multiplied by the integration length: a threshold
of 10000 for 2000 ns is accepted and set to 20000000, more than the 16777212 the sequencer takes. -/
theorem threshold_out_of_range :
    analog [0, 1] [{ base .thresholded with disc := some (0, 10000), duration := 1/500000 }] =
      .ok ⟨none, none, some false, none, some 0, some 20000000, some 2000⟩ ∧ maxThreshold < 20000000 := by
  decide +kernel

/-- On a QTM, `ThresholdedTriggerCount` without a label is a `KeyError`; on a QRM it is accepted. -/
theorem unlabelled_count :
    qtm [{ base .thresholdedTrigCount with count := some (4, .atLeast) }] = .error .keyError ∧
    ∃ s, analog [0] [{ base .thresholdedTrigCount with count := some (4, .atLeast) }] = .ok s := by
  refine ⟨by decide +kernel, ⟨some false, some 0, some false, none, none, none, none⟩, by decide +kernel⟩

/-- On a QTM, the duration of traces is that of the first acquisition, even if it is not a trace. -/
theorem trace_duration_of_other :
    (qtm [{ base .trigCount with duration := 1/2000000 }, base .trace]).toOption.map (·.traceDuration) =
      some (some 500) ∧
    (qtm [base .trace, { base .trigCount with duration := 1/2000000 }]).toOption.map (·.traceDuration) =
      some (some 1000) := by
  decide +kernel

/-- On a QTM, timetags and trigger counts of the same port and clock are a `KeyError`, as the counts have
no source of times. -/
theorem timetag_and_count :
    qtm [{ base .timetag with timing := some ⟨.first, .start, none⟩ }, base .trigCount] = .error .keyError := by
  decide +kernel

/-- On a QRM, thresholded counts of one acquisition channel with different thresholds are refused, but not
if there is a thresholded acquisition as well. -/
theorem counts_not_validated :
    let c1 := { base .thresholdedTrigCount with count := some (4, .atLeast) }
    let c2 := { base .thresholdedTrigCount with count := some (5, .atLeast) }
    (∃ e, analog [0] [c1, c2] = .error e) ∧
    ∃ s, analog [0] [c1, c2, { base .thresholded with disc := some (0, 1), channel := 1 }] = .ok s := by
  refine ⟨⟨.valueError, by decide +kernel⟩,
    ⟨some false, some 0, some false, none, some 0, some 1000, some 1000⟩, by decide +kernel⟩

/-- A distribution makes the sequencer fill consecutive bins for all its counts, also for those with
another bin mode. -/
theorem distribution_and_append :
    ∃ s, analog [0] [{ base .trigCount with bin := .distribution },
      { base .thresholdedTrigCount with count := some (4, .atLeast), channel := 1 }] = .ok s ∧
      s.autoBin = some true :=
  ⟨⟨some true, some 0, some false, none, none, none, none⟩, by decide +kernel, rfl⟩

end Verif.AcqSet.Examples
