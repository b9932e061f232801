/-
C82 and C83: examples.
-/
import Verif.Ops.Simple

set_option linter.unusedSimpArgs false

namespace Verif.Ops.Examples

/-- The arguments of a square pulse. -/
def square : List (String × Val) :=
  [("amp", .num (1 / 2)), ("duration", .num 20), ("port", .str "q0:mw"), ("clock", .str "q0.01")]

/-- The pulse can be made, and the theorem about texts applies to it. -/
theorem square_made : (∃ o, create .SquarePulse square = .ok o) ∧ PrintsAll .SquarePulse ∧
    ∀ p v, Dict.get? square p = some v → Printable p v := by
  refine ⟨⟨_, rfl⟩, by simp [PrintsAll], ?_⟩
  intro p v h
  simp only [square, Dict.get?_cons, Dict.get?_nil] at h
  have hs : ∀ s : String, Clean s → Printable p (.str s) := fun s h => .inl ⟨s, .inl rfl, h⟩
  have hn : ∀ q, Printable p (.num q) := fun q => .inr (.inl ⟨.num q, by simp⟩)
  split at h
  · cases h; exact hn _
  split at h
  · cases h; exact hn _
  split at h
  · cases h; exact hs _ (by unfold Clean; decide +kernel)
  split at h
  · cases h; exact hs _ (by unfold Clean; decide +kernel)
  · cases h

/-- What it holds. -/
theorem square_holds : ∃ o i, create .SquarePulse square = .ok o ∧ o.pulses = [i] ∧ o.acqs = [] ∧
    Dict.get? i "amp" = some (.num (1 / 2)) ∧ Dict.get? i "port" = some (.str "q0:mw") ∧
    Dict.get? i "t0" = some (.num 0) :=
  ⟨_, _, rfl, rfl, rfl, rfl, rfl, rfl⟩

/-- A keyword that does not exist. -/
theorem square_unknown : create .SquarePulse (("ampl", .num 1) :: square) = .error .typeError :=
  wrong_arguments (.inl ⟨"ampl", by simp [Dict.keys], by simp [required], by simp [optional]⟩)

/-- Trigger counts that should be averaged are collected in a distribution. -/
theorem average_is_distribution : ∃ o i, create .TriggerCount [("port", .str "q0:optical_readout"),
      ("clock", .str "digital"), ("duration", .num 100), ("bin_mode", .enum "average")] = .ok o ∧
    o.acqs = [i] ∧ Dict.get? i "bin_mode" = some (.enum "distribution") :=
  ⟨_, _, rfl, rfl, rfl⟩

/-- Averaged thresholded counts are refused with the default acquisition index. -/
theorem average_index_refused : create .ThresholdedTriggerCount [("port", .str "q0:optical_readout"),
    ("clock", .str "digital"), ("duration", .num 100), ("threshold", .num 3),
    ("bin_mode", .enum "average")] = .error .notImplemented := rfl

/-- ... and accepted with the acquisition index 0. -/
theorem average_index_zero : ∃ o, create .ThresholdedTriggerCount [("port", .str "q0:optical_readout"),
    ("clock", .str "digital"), ("duration", .num 100), ("threshold", .num 3),
    ("bin_mode", .enum "average"), ("acq_index", .num 0)] = .ok o := ⟨_, rfl⟩

/-- Two and three weights. -/
def weights (more : List (String × Val)) : List (String × Val) :=
  [("port", .str "q0:res"), ("clock", .str "q0.ro"), ("weights_a", .list [.num 1, .num 2]),
   ("weights_b", .list [.num 1, .num 2, .num 3]), ("weights_sampling_rate", .num 1)] ++ more

/-- Different numbers of weights are accepted. -/
theorem unequal_weights : ∃ o, create .NumericalWeightedIntegration (weights []) = .ok o := ⟨_, rfl⟩

/-- The theorem about texts of integrations applies to them. -/
theorem weights_printed : ∃ o t, create .NumericalWeightedIntegration (weights []) = .ok o ∧
    (text [] o).1 = .ok t := by
  obtain ⟨o, hc⟩ := unequal_weights
  obtain ⟨i, d, hi, hd, ho, _⟩ := entry_of (c := .NumericalWeightedIntegration) (kw := weights [])
    (g := argOf .NumericalWeightedIntegration (weights [])) hc (fun p v h => given_arg h)
  obtain ⟨xs, ys, r, h1, _, _, _, _, _, h7⟩ := numeric_text (d := d) (c := .NumericalWeightedIntegration)
    (by simp [Numeric]) hi []
  obtain rfl := sequence_unique h1 (l := xs) (m := [.num 1, .num 2]) (.inl rfl)
  exact ⟨o, _, hc, (congrArg (fun o => (text [] o).1) ho).trans (h7 (by simp) "append" rfl)⟩

/-- A bin mode that is given as a string. -/
theorem string_bin_mode : ∃ o, create .NumericalWeightedIntegration (weights [("bin_mode", .str "average")]) =
    .ok o ∧ (text [] o).1 = .error .attributeError :=
  ⟨_, rfl, ((numeric_unprintable (c := .NumericalWeightedIntegration) (by simp)
    (kw := weights [("bin_mode", .str "average")])
    (g := argOf .NumericalWeightedIntegration (weights [("bin_mode", .str "average")])) rfl
    (fun _ _ h => given_arg h) [] (xs := [.num 1, .num 2]) (.inl rfl)).2 (by simp) ⟨"average", rfl⟩)⟩

/-- Two acquisitions with different thresholds have the same text. -/
theorem thresholds_same_text : ∃ o o',
    create .WeightedThresholdedAcquisition (weights [("acq_threshold", .num 1)]) = .ok o ∧
    create .WeightedThresholdedAcquisition (weights [("acq_threshold", .num 2)]) = .ok o' ∧
    (text [] o).1 = (text [] o').1 ∧ ¬ SameOp o o' := by
  refine ⟨_, _, rfl, rfl, ?_, ?_⟩
  · refine threshold_not_printed (kw := weights [("acq_threshold", .num 1)])
      (kw' := weights [("acq_threshold", .num 2)]) rfl rfl (fun _ _ h => given_arg h)
      (fun _ _ h => given_arg h) ?_ [] []
    intro p h1 _ _
    simp [argOf, weights, Dict.get?_cons, Dict.get?_nil, Ne.symm h1]
  · rintro ⟨_, _, _, _, h⟩
    have h : some (Val.num 1) = some (Val.num 2) := congrArg (fun l : List (List (String × Val)) =>
      l.head?.bind fun i => Dict.get? i "acq_threshold") h
    simp at h

/-- A simple numerical pulse and a numerical pulse. -/
theorem simple_made : (∃ o, create .SimpleNumericalPulse
      [("samples", .list [.num 1, .num 0]), ("port", .str "q0:mw")] = .ok o) ∧
    ∃ n, create .NumericalPulse [("samples", .list [.num 1, .num 0]),
      ("t_samples", .list [.num 0, .num 1]), ("port", .str "q0:mw")] = .ok n :=
  ⟨⟨_, rfl⟩, ⟨_, rfl⟩⟩

/-- Acquisitions that can never be printed. -/
theorem unprintable : (∃ o, create .DualThresholdedTriggerCount [("port", .str "q0:optical_readout"),
      ("clock", .str "digital"), ("duration", .num 100), ("threshold_low", .num 3),
      ("threshold_high", .num 5)] = .ok o) ∧
    ∃ o, create .WeightedIntegratedSeparated [("port", .str "q0:res"), ("clock", .str "q0.ro"),
      ("duration", .num 100), ("waveform_a", .dict []), ("waveform_b", .dict [])] = .ok o :=
  ⟨⟨_, rfl⟩, ⟨_, rfl⟩⟩

end Verif.Ops.Examples
