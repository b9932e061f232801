/-
C82: what is computed from several arguments.
-/
import Verif.Ops.Accepted

set_option linter.unusedSimpArgs false
set_option linter.unusedVariables false
set_option linter.unusedTactic false
set_option linter.unreachableTactic false

namespace Verif.Ops

/-- The entries of an operation. -/
theorem entry_of {c : Cls} {kw : List (String × Val)} {g : String → Val} {o : Op}
    (h : create c kw = .ok o) (hg : Args c kw g) : ∃ i d, entry c (argOf c kw) = .ok i ∧
      endOf i = .ok d ∧ o = single c i d ∧ ∀ p ∈ required c ++ optional c, argOf c kw p = g p := by
  obtain ⟨_, h2, i, d, hi, hd, rfl⟩ := create_iff.mp h
  exact ⟨i, d, hi, hd, rfl, fun p hp => (args_eq h2 hg (List.mem_append.mp hp)).symm⟩

/-- Integration with a square window: both weights are on the port and clock of the acquisition during
all of it, the one of the first path is 1 and the one of the second path is i. -/
theorem square_window {c : Cls} {kw : List (String × Val)} {g : String → Val} {o : Op}
    (hc : c = .SSBIntegrationComplex ∨ c = .ThresholdedAcquisition) (h : create c kw = .ok o)
    (hg : Args c kw g) : ∃ i wi wq, o.acqs = [i] ∧
      Dict.get? i "waveforms" = some (.list [.dict wi, .dict wq]) ∧
      (∀ w ∈ [wi, wq], Dict.get? w "port" = some (g "port") ∧ Dict.get? w "clock" = some (g "clock") ∧
        Dict.get? w "t0" = some (g "t0") ∧ Dict.get? w "duration" = some (g "duration") ∧
        Dict.get? w "wf_func" = some (.str "quantify_scheduler.waveforms.square")) ∧
      Dict.get? wi "amp" = some (.num 1) ∧ Dict.get? wq "amp" = some (.cplx 0 1) := by
  obtain ⟨i, d, hi, hd, rfl, ha⟩ := entry_of h hg
  rcases hc with rfl | rfl
  all_goals
    simp [required, optional, placing] at ha
    simp only [entry] at hi
    split at hi
    · cases hi
    · simp only [Except.ok.injEq] at hi
      subst hi
      refine ⟨_, _, _, rfl, rfl, ?_, rfl, rfl⟩
      simp [Dict.get?_cons, ha]

/-- Thresholded results that are averaged are numbers between 0 and 1, single ones are integers. -/
theorem threshold_results {c : Cls} {kw : List (String × Val)} {g : String → Val} {o : Op}
    (hc : c = .WeightedThresholdedAcquisition ∨ c = .ThresholdedAcquisition)
    (h : create c kw = .ok o) (hg : Args c kw g) : ∃ i, o.acqs = [i] ∧
      (IsText "average" (g "bin_mode") → Dict.get? i "acq_return_type" = some (.type "float")) ∧
      (¬ IsText "average" (g "bin_mode") →
        Dict.get? i "acq_return_type" = some (.type "numpy.int32")) := by
  obtain ⟨i, d, hi, hd, rfl, ha⟩ := entry_of h hg
  have key : argOf c kw "bin_mode" = g "bin_mode" := by
    apply ha; rcases hc with rfl | rfl <;> simp [optional, placing]
  have key2 : Dict.get? i "acq_return_type" = some (thresholdType (argOf c kw)) := by
    rcases hc with rfl | rfl
    · obtain ⟨d, _, hi⟩ := bind_ok.mp hi
      simp only [Except.ok.injEq] at hi
      subst hi
      simp [Dict.get?_set]
    · simp only [entry] at hi
      split at hi
      · cases hi
      · simp only [Except.ok.injEq] at hi
        subst hi
        simp [Dict.get?_cons]
  refine ⟨i, by rcases hc with rfl | rfl <;> rfl, ?_⟩
  rw [key2, thresholdType, key]
  constructor
  · intro h; rw [if_pos (eqText_iff.mpr h)]
  · intro h; rw [if_neg (fun h' => h (eqText_iff.mp h'))]

/-- Numerical weights: the acquisition lasts as long as the first weights (one sampling interval each),
both weights start at 0 and are interpolated as requested. The times of the second weights are those of
the first, whatever the number of second weights is. -/
theorem numerical_weights {c : Cls} {kw : List (String × Val)} {g : String → Val} {o : Op}
    (hc : c ∈ [.NumericalSeparatedWeightedIntegration, .NumericalWeightedIntegration,
      .WeightedThresholdedAcquisition]) (h : create c kw = .ok o) (hg : Args c kw g) :
    ∃ i xs ys r wa wb ts, o.acqs = [i] ∧ Sequence (g "weights_a") xs ∧ Sequence (g "weights_b") ys ∧
      g "weights_sampling_rate" = .num r ∧
      Dict.get? i "duration" = some (.num ((xs.length : Rat) / r)) ∧
      Dict.get? i "waveforms" = some (.list [.dict wa, .dict wb]) ∧
      Dict.get? wa "samples" = some (.array xs) ∧ Dict.get? wb "samples" = some (.array ys) ∧
      (∀ w ∈ [wa, wb], Dict.get? w "t_samples" = some (.array ts) ∧
        Dict.get? w "interpolation" = some (g "interpolation") ∧
        Dict.get? w "wf_func" =
          some (.str "quantify_scheduler.waveforms.interpolated_complex_waveform")) ∧
      ts.length = xs.length ∧ ∀ n (hn : n < ts.length), ts[n] = .num ((n : Rat) / r) := by
  obtain ⟨i, d, hi, hd, rfl, ha⟩ := entry_of h hg
  simp at hc
  have key : ∃ j, numeric (argOf c kw) = .ok j ∧ (∀ k, k = "duration" ∨ k = "waveforms" →
      Dict.get? i k = Dict.get? j k) := by
    rcases hc with rfl | rfl | rfl
    · exact ⟨i, hi, fun _ _ => rfl⟩
    · obtain ⟨j, hj, hi⟩ := bind_ok.mp hi
      simp only [Except.ok.injEq] at hi
      subst hi
      exact ⟨j, hj, by rintro k (rfl | rfl) <;> simp [Dict.get?_set]⟩
    · obtain ⟨j, hj, hi⟩ := bind_ok.mp hi
      simp only [Except.ok.injEq] at hi
      subst hi
      exact ⟨j, hj, by rintro k (rfl | rfl) <;> simp [Dict.get?_set]⟩
  obtain ⟨j, hj, hk⟩ := key
  obtain ⟨xs, ys, r, hx, hy, hr, h0, hz, rfl⟩ := numeric_ok.mp hj
  have a1 : argOf c kw "weights_a" = g "weights_a" := by
    apply ha; rcases hc with rfl | rfl | rfl <;> simp [required, optional, placing]
  have a2 : argOf c kw "weights_b" = g "weights_b" := by
    apply ha; rcases hc with rfl | rfl | rfl <;> simp [required, optional, placing]
  have a3 : argOf c kw "weights_sampling_rate" = g "weights_sampling_rate" := by
    apply ha; rcases hc with rfl | rfl | rfl <;> simp [required, optional, placing]
  have a4 : argOf c kw "interpolation" = g "interpolation" := by
    apply ha; rcases hc with rfl | rfl | rfl <;> simp [required, optional, placing]
  rw [a1] at hx; rw [a2] at hy; rw [a3] at hr
  refine ⟨i, xs, ys, r, _, _, (List.range xs.length).map fun i : Nat => .num ((i : Rat) / r), ?_,
    hx, hy, hr, ?_, (hk _ (.inr rfl)).trans rfl, ?_, ?_, ?_, ?_, ?_⟩
  · rcases hc with rfl | rfl | rfl <;> rfl
  · rw [hk _ (.inl rfl)]; simp [Dict.get?_cons]
  · simp [Dict.get?_cons]
  · simp [Dict.get?_cons]
  · simp [Dict.get?_cons, a4]
  · simp
  · intro n hn
    simp

/-- Weights given as waveforms are used in the order in which they are given. -/
theorem separate_weights {kw : List (String × Val)} {g : String → Val} {o : Op}
    (h : create .WeightedIntegratedSeparated kw = .ok o) (hg : Args .WeightedIntegratedSeparated kw g) :
    ∃ i, o.acqs = [i] ∧ Dict.get? i "waveforms" = some (.list [g "waveform_a", g "waveform_b"]) := by
  obtain ⟨i, d, hi, hd, rfl, ha⟩ := entry_of h hg
  simp [required, optional, placing] at ha
  obtain ⟨hz, rfl⟩ := separated_ok hi
  exact ⟨_, rfl, by simp [Dict.get?_cons, ha]⟩

/-- Thresholded counts hold their threshold and condition. -/
theorem count_threshold {kw : List (String × Val)} {g : String → Val} {o : Op}
    (h : create .ThresholdedTriggerCount kw = .ok o) (hg : Args .ThresholdedTriggerCount kw g) :
    ∃ i d, o.acqs = [i] ∧ Dict.get? i "thresholded_trigger_count" = some (.dict d) ∧
      Dict.get? d "threshold" = some (g "threshold") ∧
      Dict.get? d "condition" = some (g "feedback_trigger_condition") := by
  obtain ⟨i, d, hi, hd, rfl, ha⟩ := entry_of h hg
  simp [required, optional, placing] at ha
  simp only [entry] at hi
  split at hi
  · cases hi
  · simp only [Except.ok.injEq] at hi
    subst hi
    exact ⟨_, _, rfl, rfl, by simp [Dict.get?_cons, ha], by simp [Dict.get?_cons, ha]⟩

/-- Counts with two thresholds hold them, and the labels of the four outcomes. -/
theorem two_thresholds {kw : List (String × Val)} {g : String → Val} {o : Op}
    (h : create .DualThresholdedTriggerCount kw = .ok o)
    (hg : Args .DualThresholdedTriggerCount kw g) :
    ∃ i d l, o.acqs = [i] ∧ Dict.get? i "thresholded_trigger_count" = some (.dict d) ∧
      Dict.get? d "threshold_low" = some (g "threshold_low") ∧
      Dict.get? d "threshold_high" = some (g "threshold_high") ∧
      Dict.get? i "feedback_trigger_labels" = some (.dict l) ∧
      Dict.get? l "low" = some (g "label_low") ∧ Dict.get? l "mid" = some (g "label_mid") ∧
      Dict.get? l "high" = some (g "label_high") ∧
      Dict.get? l "invalid" = some (g "label_invalid") := by
  obtain ⟨i, d, hi, hd, rfl, ha⟩ := entry_of h hg
  simp [required, optional, placing] at ha
  simp only [entry] at hi
  split at hi
  · cases hi
  · simp only [Except.ok.injEq] at hi
    subst hi
    refine ⟨_, _, _, rfl, rfl, ?_, ?_, rfl, ?_, ?_, ?_, ?_⟩ <;> simp [Dict.get?_cons, ha]

/-- A net zero pulse lasts for the pulse, the idle time in its middle and the correction. -/
theorem net_zero_duration {kw : List (String × Val)} {g : String → Val} {o : Op}
    (h : create .SuddenNetZeroPulse kw = .ok o) (hg : Args .SuddenNetZeroPulse kw g) :
    ∃ t p q r, g "t0" = .num t ∧ g "t_pulse" = .num p ∧ g "t_phi" = .num q ∧
      g "t_integral_correction" = .num r ∧ o.duration = t + (p + q + r) := by
  obtain ⟨i, d, hi, hd, rfl, ha⟩ := entry_of h hg
  simp [required, optional, placing] at ha
  simp only [entry, bind_ok, asNum_ok, Except.ok.injEq] at hi
  obtain ⟨x, hx, y, hy, z, hz, rfl⟩ := hi
  obtain ⟨s, t, h1, h2, rfl⟩ := endOf_ok.mp hd
  simp [Dict.get?_cons] at h1 h2
  simp only [ha] at hx hy hz h1
  exact ⟨s, x, y, z, h1, hx, hy, hz, by rw [← h2]; rfl⟩

/-- A numerical pulse holds its samples and times as lists and lasts from the first to the last time. -/
theorem numerical_contents {kw : List (String × Val)} {g : String → Val} {o : Op}
    (h : create .NumericalPulse kw = .ok o) (hg : Args .NumericalPulse kw g) :
    ∃ i ts ys t p q, o.pulses = [i] ∧ Sequence (g "t_samples") ts ∧ Sequence (g "samples") ys ∧
      Dict.get? i "samples" = some (.list ys) ∧ Dict.get? i "t_samples" = some (.list ts) ∧
      g "t0" = .num t ∧ ts.head? = some (.num p) ∧ ts.getLast? = some (.num q) ∧
      o.duration = t + (q - p) := by
  obtain ⟨i, d, hi, hd, rfl, ha⟩ := entry_of h hg
  simp [required, optional, placing] at ha
  obtain ⟨x, xs, ys, p, q, ht, hs, rfl, hq, rfl⟩ := numericalPulse_ok.mp hi
  obtain ⟨s, t, h1, h2, rfl⟩ := endOf_ok.mp hd
  simp [Dict.get?_cons] at h1 h2
  simp only [ha] at ht hs h1
  refine ⟨_, _, ys, s, p, q, rfl, ht, hs, rfl, rfl, h1, rfl, ?_, by rw [← h2]; rfl⟩
  rw [List.getLast?_eq_some_getLast (by simp), hq]

/-- A simple numerical pulse holds its samples, one per nanosecond from 0 on, followed by a zero, and
lasts a nanosecond per sample. -/
theorem simple_contents {kw : List (String × Val)} {g : String → Val} {o : Op}
    (h : create .SimpleNumericalPulse kw = .ok o) (hg : Args .SimpleNumericalPulse kw g) :
    ∃ i ts ys t, o.pulses = [i] ∧ Sequence (g "samples") ys ∧
      Dict.get? i "samples" = some (.list (ys ++ [.num 0])) ∧
      Dict.get? i "t_samples" = some (.list ts) ∧ ts.length = ys.length + 1 ∧
      (∀ n (hn : n < ts.length), ts[n] = .num ((n : Rat) / 10 ^ 9)) ∧
      g "t0" = .num t ∧ o.duration = t + (ys.length : Rat) / 10 ^ 9 := by
  obtain ⟨i, d, hi, hd, rfl, ha⟩ := entry_of h hg
  simp [required, optional, placing] at ha
  obtain ⟨ys, hs, rfl⟩ := simple_ok.mp hi
  obtain ⟨s, t, h1, h2, rfl⟩ := endOf_ok.mp hd
  simp [Dict.get?_cons] at h1 h2
  simp only [ha] at hs h1
  refine ⟨_, _, ys, s, rfl, hs, rfl, rfl, by simp [nanoseconds], ?_, h1, ?_⟩
  · intro n hn
    simp only [nanoseconds, List.getElem_map, List.getElem_range]
    norm_num
  · rw [← h2]
    norm_num [single]

/-- Gaussian pulses are four standard deviations long unless the standard deviation is given. -/
theorem sigma_default {c : Cls} {kw : List (String × Val)} {g : String → Val} {o : Op}
    (hc : c = .DRAGPulse ∨ c = .GaussPulse) (h : create c kw = .ok o) (hg : Args c kw g) :
    ∃ i, o.pulses = [i] ∧ Dict.get? i "sigma" = some (g "sigma") ∧
      (g "sigma" = .none → Dict.get? i "nr_sigma" = some (.num 4)) ∧
      (g "sigma" ≠ .none → Dict.get? i "nr_sigma" = some .none) := by
  obtain ⟨i, d, hi, hd, rfl, ha⟩ := entry_of h hg
  rcases hc with rfl | rfl
  all_goals
    simp [required, optional, placing] at ha
    simp only [entry, Except.ok.injEq] at hi
    subst hi
    refine ⟨_, rfl, by simp [Dict.get?_cons, ha], ?_, ?_⟩
    · intro h
      simp [Dict.get?_cons, ha, h, isNone]
    · intro h
      have : isNone (g "sigma") = false := by
        cases hn : isNone (g "sigma")
        · rfl
        · exact absurd (isNone_iff.mp hn) h
      simp [Dict.get?_cons, ha, this]

theorem labels_key (c : Cls) (h : c ≠ .DualThresholdedTriggerCount) :
    "feedback_trigger_labels" ∉ allowed c := by
  revert h; cases c <;> decide +kernel

theorem label_key (c : Cls) (h : c ∉ [.ThresholdedAcquisition, .WeightedThresholdedAcquisition,
    .ThresholdedTriggerCount]) : "feedback_trigger_label" ∉ allowed c := by
  revert h; cases c <;> decide +kernel

theorem label_param (c : Cls) (h : c ∈ [.ThresholdedAcquisition, .WeightedThresholdedAcquisition,
    .ThresholdedTriggerCount]) :
    "feedback_trigger_label" ∈ optional c ∧ "feedback_trigger_label" ∉ elsewhere c := by
  revert h; cases c <;> decide +kernel

/-- Conditional operations can be linked to an acquisition exactly if it has a label, or two thresholds
(also if none of its outcomes has a label). -/
theorem conditional_iff {c : Cls} {kw : List (String × Val)} {g : String → Val} {o : Op}
    (h : create c kw = .ok o) (hg : Args c kw g) : isConditional o = true ↔
      c = .DualThresholdedTriggerCount ∨
      (c ∈ [.ThresholdedAcquisition, .WeightedThresholdedAcquisition, .ThresholdedTriggerCount] ∧
        g "feedback_trigger_label" ≠ .none) := by
  obtain ⟨_, _, i, hh, h1, h2, _⟩ := stored h
  obtain ⟨i', d, hi, hd, rfl, ha⟩ := entry_of h hg
  by_cases hc : Acquires c
  · obtain ⟨h1, _⟩ := h1 hc
    have nf : ∀ k ∉ allowed c, Dict.get? i k = none := by
      intro k hk
      rw [Dict.get?_eq_none_iff]
      intro hm
      apply hk
      have := hh.only k hm
      simp only [allowed, List.mem_append, mem_held]
      exact this
    simp only [isConditional, h1]
    by_cases hd : c = .DualThresholdedTriggerCount
    · subst hd
      obtain ⟨i'', _, l, e1, _, _, _, e2, e3, _⟩ := two_thresholds h hg
      rw [h1] at e1
      simp only [List.cons.injEq, and_true] at e1
      subst e1
      have hpos : 0 < l.length := by
        cases l with
        | nil => simp [Dict.get?_nil] at e3
        | cons => simp
      simp [e2, hpos]
    · have e0 : Dict.get? i "feedback_trigger_labels" = none := nf _ (labels_key c hd)
      simp only [e0, Bool.or_false, Bool.not_eq_true', hd, false_or]
      by_cases hl : c ∈ [.ThresholdedAcquisition, .WeightedThresholdedAcquisition,
        .ThresholdedTriggerCount]
      · obtain ⟨_, h2', _⟩ := create_iff.mp h
        have hp : "feedback_trigger_label" ∈ required c ∨ "feedback_trigger_label" ∈ optional c := .inr (label_param c hl).1
        have hgiv := arg_given (kw := kw) h2' hp
        have he : "feedback_trigger_label" ∉ elsewhere c := (label_param c hl).2
        obtain ⟨w, hw, hs⟩ := hh.args _ _ hgiv he
        have := hs.2 (by simp)
        rw [← hg _ _ hgiv] at this
        rw [hw]
        simp only [Option.getD_some, hl, true_and]
        have : (w = .none) ↔ g "feedback_trigger_label" = .none := by
          unfold Same at this
          constructor
          · intro hw; subst hw
            cases hg' : g "feedback_trigger_label" <;> simp_all [norm]
          · intro hw; rw [hw] at this
            cases w <;> simp_all [norm]
        rw [ne_eq, ← this, ← isNone_iff]
        simp
      · have e1 : Dict.get? i "feedback_trigger_label" = none := nf _ (label_key c hl)
        simp [e1, isNone, hl]
  · obtain ⟨h2, _⟩ := h2 hc
    simp only [isConditional, h2]
    have : ¬ (c = .DualThresholdedTriggerCount ∨
      (c ∈ [.ThresholdedAcquisition, .WeightedThresholdedAcquisition, .ThresholdedTriggerCount] ∧
        g "feedback_trigger_label" ≠ .none)) := by
      rintro (rfl | ⟨hc', _⟩)
      · exact hc (by simp [Acquires])
      · apply hc
        simp at hc'
        rcases hc' with rfl | rfl | rfl <;> simp [Acquires]
    simp at this ⊢
    exact this

end Verif.Ops
