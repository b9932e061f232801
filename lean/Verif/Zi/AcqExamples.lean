/-
Concrete cases for C66, and cases where the full statement fails.
-/
import Verif.Zi.AcqProps

namespace Verif.Zi.Examples

open Spec

def weights : String → Option (List (Rat × Rat))
  | "ro0" => some [(1, 0), (0, 1)]
  | "ro1" => some [(2, 0), (0, 2)]
  | _ => none

/-- Two acquisitions on channel 0, and one on channel 1. -/
def acqs : List (AcqInfo String) :=
  [⟨"ro0", 0, .ssb, 2 / 1800000000⟩, ⟨"ro0", 0, .ssb, 2 / 1800000000⟩, ⟨"ro1", 1, .ssb, 2 / 1800000000⟩]

/-- The acquisitions meet the hypotheses of C66. -/
theorem acqs_fine : (∀ a ∈ acqs, ∀ b ∈ acqs, a.wave = b.wave → a = b) ∧ (∀ a ∈ acqs, a.protocol = .ssb) ∧ acqs ≠ [] ∧
    ∀ reps bm, bm = .average ∨ bm = .append → ∃ out, configure 1800000000 reps bm weights acqs = .ok out := by
  have h1 : ∀ a ∈ acqs, ∀ b ∈ acqs, a.wave = b.wave → a = b := by decide +kernel
  refine ⟨h1, by decide +kernel, by decide, ?_⟩
  intro reps bm hbm
  refine (configure_iff h1 (by decide)).mpr ⟨hbm, ?_, by decide +kernel⟩
  intro a ha
  simp only [acqs, List.mem_cons, List.not_mem_nil, or_false] at ha
  rcases ha with rfl | rfl | rfl
  · exact ⟨Or.inr ⟨rfl, by decide, _, rfl, by decide⟩, by decide +kernel⟩
  · exact ⟨Or.inr ⟨rfl, by decide, _, rfl, by decide⟩, by decide +kernel⟩
  · exact ⟨Or.inr ⟨rfl, by decide, _, rfl, by decide⟩, by decide +kernel⟩

/-- What the channels measure: the first, second and third acquisition of all. -/
def signals (t : Nat) : Signal := fun _ => ((t : Rat), 0)

/-- The full statement of C66 fails with several channels: the array of channel 0 has three entries; the last one is of
the acquisition of channel 1. -/
theorem other_channels : ∃ s cfg l, configure 1800000000 1 .append weights acqs = .ok (s, cfg) ∧
    retrieveQa cfg (nodeResults s signals) [] cfg.resolvers = .ok l ∧
    (0, Arr.append [[(0, 0), (1, 1), (2, 2)]]) ∈ l ∧ (1, Arr.append [[(0, 0), (2, 2), (4, 4)]]) ∈ l := by
  obtain ⟨h1, h2, h3, h4⟩ := acqs_fine
  obtain ⟨⟨s, cfg⟩, h⟩ := h4 1 .append (Or.inr rfl)
  obtain ⟨l, h5, -, h6⟩ := qa_append_partial h1 h2 h3 h signals []
  refine ⟨s, cfg, l, h, h5, (h6 _ _).mpr ⟨⟨"ro0", 0, .ssb, 2 / 1800000000⟩, by decide +kernel, rfl, _, rfl, by decide +kernel⟩,
    (h6 _ _).mpr ⟨⟨"ro1", 1, .ssb, 2 / 1800000000⟩, by decide +kernel, rfl, _, rfl, by decide +kernel⟩⟩

/-- A schedule without acquisitions cannot be compiled for a UHFQA. -/
theorem no_acquisition : binModeOf [] = .error .indexError := rfl

/-- Two different acquisitions on one channel are refused. -/
theorem two_weights : configure 1800000000 1 .append weights
    [⟨"ro0", 0, .ssb, 2 / 1800000000⟩, ⟨"ro1", 0, .ssb, 2 / 1800000000⟩] = .error .valueError := by decide +kernel

/-- A trace is read from the monitor, which is off (`monitor_off`). -/
theorem trace_monitor : ∃ s cfg, configure 1800000000 1 .average weights [⟨"tr", 0, .trace, 2 / 1800000000⟩] = .ok (s, cfg) ∧
    cfg.resolvers = [(0, .trace)] ∧ lastOf monitorOf s = some false := by
  obtain ⟨⟨s, cfg⟩, h⟩ := (configure_iff (rate := 1800000000) (reps := 1) (bm := .average) (wf := weights)
    (acqs := [⟨"tr", 0, .trace, 2 / 1800000000⟩]) (by decide +kernel) (by decide)).mpr
    ⟨Or.inl rfl, by
      intro a ha
      rw [List.mem_singleton] at ha
      subst ha
      exact ⟨Or.inl rfl, by decide +kernel⟩, by decide +kernel⟩
  refine ⟨s, cfg, h, ?_, monitor_off (by decide) h⟩
  exact (configure_config h (by decide)).2.2

/-- `qa_trace_partial` applies. -/
example : ∃ s cfg, configure 1800000000 8 .average weights [⟨"tr", 0, .trace, 2 / 1800000000⟩] = .ok (s, cfg) ∧
    Setting.monitorAverages 8 ∈ s := by
  obtain ⟨⟨s, cfg⟩, h⟩ := (configure_iff (rate := 1800000000) (reps := 8) (bm := .average) (wf := weights)
    (acqs := [⟨"tr", 0, .trace, 2 / 1800000000⟩]) (by decide +kernel) (by decide)).mpr
    ⟨Or.inl rfl, by
      intro a ha
      rw [List.mem_singleton] at ha
      subst ha
      exact ⟨Or.inl rfl, by decide +kernel⟩, by decide +kernel⟩
  exact ⟨s, cfg, h, (qa_trace_partial (by decide) (by decide +kernel) (by decide) h (fun _ => []) []).2.1⟩

end Verif.Zi.Examples
