/-
C83: the texts of numerical integrations.
-/
import Verif.Ops.Exceptions

set_option linter.unusedSimpArgs false
set_option linter.unusedVariables false

namespace Verif.Ops

/-- A text makes at most one operation. -/
theorem makes_unique {shown : List Val → Option (List Val)} {t : Text} {o o' : Op}
    (h : Makes shown t o) (h' : Makes shown t o') : o = o' := by
  obtain ⟨kw, hf, hk⟩ := h
  obtain ⟨kw', hf', hk'⟩ := h'
  have e : kw = kw' := by
    revert hf hf'
    generalize t.kwargs = l
    intro hf hf'
    clear hk hk'
    induction l generalizing kw kw' with
    | nil => cases hf; cases hf'; rfl
    | cons x l ih =>
      cases hf with
      | cons h1 h2 =>
      cases hf' with
      | cons h3 h4 =>
      rename_i b m b' m'
      obtain ⟨b1, b2⟩ := b
      obtain ⟨c1, c2⟩ := b'
      obtain ⟨x1, x2⟩ := x
      obtain ⟨h5, h6⟩ := h1
      obtain ⟨h7, h8⟩ := h3
      simp only at h5 h6 h7 h8
      have : b2 = c2 := by
        cases h6 <;> cases h8 <;> first | rfl | simp_all
      rw [← h5, ← h7, this, ih _ _ h2 h4]
  rw [e, hk'] at hk
  cases hk
  rfl

/-- Integrations with fewer than two weights cannot be printed, and those whose bin mode was given as a
string neither. -/
theorem numeric_unprintable {c : Cls} {kw : List (String × Val)} {g : String → Val} {o : Op}
    (hc : c ∈ [.NumericalSeparatedWeightedIntegration, .NumericalWeightedIntegration,
      .WeightedThresholdedAcquisition]) (h : create c kw = .ok o) (hg : Args c kw g) (k : Cache)
    {xs : List Val} (hx : Sequence (g "weights_a") xs) :
    (xs.length < 2 → (text k o).1 = .error .indexError) ∧
    (2 ≤ xs.length → (∃ s, g "bin_mode" = .str s) → (text k o).1 = .error .attributeError) := by
  obtain ⟨i, d, hi, hd, rfl, ha⟩ := entry_of h hg
  have ea : argOf c kw "weights_a" = g "weights_a" := by
    apply ha; simp only [List.mem_cons, List.not_mem_nil, or_false] at hc
    rcases hc with rfl | rfl | rfl <;> simp [required]
  have eb : argOf c kw "bin_mode" = g "bin_mode" := by
    apply ha; simp only [List.mem_cons, List.not_mem_nil, or_false] at hc
    rcases hc with rfl | rfl | rfl <;> simp [optional, placing]
  obtain ⟨xs', ys, r, h1, h2, h3, h4, h5, h6, _⟩ := numeric_text (d := d) hc hi k
  rw [ea] at h1
  obtain rfl := sequence_unique hx h1
  refine ⟨h5, fun hl ⟨s, hs⟩ => h6 hl ?_⟩
  rw [eb, hs]
  simp

/-- The text of an integration with at least two weights, whose bin mode was not given as a string and
whose other arguments are literals, makes an equal integration if the weights are printed exactly. But
the text of that integration cannot be printed. -/
theorem numeric_round_trip_partial {c : Cls} {kw : List (String × Val)} {g : String → Val} {o : Op}
    (hc : c = .NumericalSeparatedWeightedIntegration ∨ c = .NumericalWeightedIntegration)
    (h : create c kw = .ok o) (hg : Args c kw g) (k : Cache)
    {shown : List Val → Option (List Val)} {xs ys : List Val} (hx : Sequence (g "weights_a") xs)
    (hy : Sequence (g "weights_b") ys) (hl : 2 ≤ xs.length) (sx : shown xs = some xs)
    (sy : shown ys = some ys) {s : String} (hs : g "bin_mode" = .enum s)
    (hlit : ∀ p ∈ required c ++ optional c, p ∉ ["weights_a", "weights_b", "bin_mode"] →
      Literal (g p)) :
    ∃ t, (text k o).1 = .ok t ∧ (∃ o', Makes shown t o') ∧ ∀ o', Makes shown t o' →
      SameOp o' o ∧ ∀ k', (text k' o').1 = .error .attributeError := by
  obtain ⟨i, d, hi, hd, rfl, ha⟩ := entry_of h hg
  have hn : Numeric c := by rcases hc with rfl | rfl <;> simp [Numeric]
  obtain ⟨xs', ys', r, h1, h2, h3, h4, _, _, h7⟩ := numeric_text (d := d) hn hi k
  have hr : required c = required .NumericalWeightedIntegration := by rcases hc with rfl | rfl <;> rfl
  have hopt : optional c = optional .NumericalWeightedIntegration := by
    rcases hc with rfl | rfl <;> rfl
  rw [hr, hopt] at ha hlit
  simp [required, optional, placing] at ha hlit
  obtain ⟨a1, a2, a3, a4, a5, a6, a7, a8, a9, a10, a11, a12⟩ := ha
  rw [a3] at h1
  rw [a4] at h2
  obtain rfl := sequence_unique hx h1
  obtain rfl := sequence_unique hy h2
  rw [a5] at h3
  obtain ⟨l1, l2, l5, l6, l11, l7, l8, l9, l12⟩ := hlit
  have h7 := h7 hl s (a11.trans hs)
  refine ⟨_, h7, ?_⟩
  obtain ⟨kw', hk'⟩ : ∃ kw', kw' = [("weights_a", Val.list xs), ("weights_b", Val.list ys),
    ("weights_sampling_rate", Val.num r), ("port", g "port"),
    ("clock", g "clock"), ("interpolation", g "interpolation"),
    ("acq_channel", g "acq_channel"), ("coords", g "coords"),
    ("acq_index", g "acq_index"), ("bin_mode", Val.str s), ("phase", g "phase"), ("t0", g "t0")] := ⟨_, rfl⟩
  have hf : List.Forall₂ (fun (a : String × Token) (b : String × Val) => a.1 = b.1 ∧ Evaluates shown a.2 b.2)
      [("weights_a", .numbers xs), ("weights_b", .numbers ys),
          ("weights_sampling_rate", .repr (.num r)), ("port", .repr (g "port")),
          ("clock", .repr (g "clock")), ("interpolation", .repr (g "interpolation")),
          ("acq_channel", .repr (g "acq_channel")), ("coords", .repr (g "coords")),
          ("acq_index", .repr (g "acq_index")), ("bin_mode", .repr (.str s)),
          ("phase", .repr (g "phase")), ("t0", .repr (g "t0"))] kw' := by
    rw [hk']
    exact .cons ⟨rfl, .numbers _ _ sx⟩ (.cons ⟨rfl, .numbers _ _ sy⟩ (.cons ⟨rfl, .repr _ (.num r)⟩
      (.cons ⟨rfl, .repr _ l1⟩ (.cons ⟨rfl, .repr _ l2⟩ (.cons ⟨rfl, .repr _ l6⟩
      (.cons ⟨rfl, .repr _ l7⟩ (.cons ⟨rfl, .repr _ l8⟩ (.cons ⟨rfl, .repr _ l9⟩
      (.cons ⟨rfl, .repr _ (.str s)⟩ (.cons ⟨rfl, .repr _ l11⟩ (.cons ⟨rfl, .repr _ l12⟩ .nil)))))))))))
  have bw : argOf c kw' "weights_a" = .list xs ∧ argOf c kw' "weights_b" = .list ys ∧
      argOf c kw' "weights_sampling_rate" = .num r ∧ argOf c kw' "port" = g "port" ∧
      argOf c kw' "clock" = g "clock" ∧ argOf c kw' "interpolation" = g "interpolation" ∧
      argOf c kw' "acq_channel" = g "acq_channel" ∧ argOf c kw' "coords" = g "coords" ∧
      argOf c kw' "acq_index" = g "acq_index" ∧ argOf c kw' "bin_mode" = .str s ∧
      argOf c kw' "phase" = g "phase" ∧ argOf c kw' "t0" = g "t0" := by
    simp [argOf, hk', Dict.get?_cons]
  obtain ⟨b1, b2, b3, b4, b5, b6, b7, b8, b9, b10, b11, b12⟩ := bw
  have key : ∃ j, entry c (argOf c kw') = .ok j ∧ normDict j = normDict i ∧ endOf j = endOf i := by
    rcases hc with rfl | rfl
    · obtain ⟨xs', ys', r', e1, e2, e3, e4, e5, rfl⟩ := numeric_ok.mp hi
      rw [a3] at e1; rw [a4] at e2; rw [a5, h3] at e3; rw [a7, ← b11] at e5
      cases e3
      obtain rfl := sequence_unique hx e1
      obtain rfl := sequence_unique hy e2
      refine ⟨_, numeric_ok.mpr ⟨xs, ys, r, .inl b1, .inl b2, b3, e4, e5, rfl⟩, ?_, ?_⟩
      · simp [normDict, normEntry, norm, normList, a1, a2, a6, a7, a8, a9, a10, a11, a12, hs,
          b4, b5, b6, b7, b8, b9, b10, b11, b12]
      · simp [endOf, Dict.get?_cons, a1, a2, a6, a7, a8, a9, a10, a11, a12, hs,
          b4, b5, b6, b7, b8, b9, b10, b11, b12]
    · obtain ⟨i', hi', h⟩ := bind_ok.mp hi
      simp only [Except.ok.injEq] at h
      subst h
      obtain ⟨xs', ys', r', e1, e2, e3, e4, e5, rfl⟩ := numeric_ok.mp hi'
      rw [a3] at e1; rw [a4] at e2; rw [a5, h3] at e3; rw [a7, ← b11] at e5
      cases e3
      obtain rfl := sequence_unique hx e1
      obtain rfl := sequence_unique hy e2
      refine ⟨_, bind_ok.mpr ⟨_, numeric_ok.mpr ⟨xs, ys, r, .inl b1, .inl b2, b3, e4, e5, rfl⟩, rfl⟩, ?_, ?_⟩
      · simp [normDict, normEntry, norm, normList, Dict.set, a1, a2, a6, a7, a8, a9, a10, a11, a12, hs,
          b4, b5, b6, b7, b8, b9, b10, b11, b12]
      · simp [endOf, Dict.get?_cons, Dict.get?_set, a1, a2, a6, a7, a8, a9, a10, a11, a12, hs,
          b4, b5, b6, b7, b8, b9, b10, b11, b12]
  obtain ⟨j, hj, hnorm, hend⟩ := key
  have hcr : create c kw' = .ok (single c j d) := by
    refine create_iff.mpr ⟨?_, ?_, j, d, hj, hend.trans hd, rfl⟩
    · rw [hr, hopt, hk']
      simp [Dict.keys, required, optional, placing]
    · rw [hr, hk']
      simp [Dict.keys, required]
  simp only [a1, a2, a6, a7, a8, a9, a10, a12]
  refine ⟨⟨_, _, hf, hcr⟩, ?_⟩
  intro o' ho'
  obtain rfl := makes_unique ho' ⟨_, hf, hcr⟩
  refine ⟨⟨rfl, rfl, rfl, ?_, ?_⟩, ?_⟩
  · simp only [single]; split <;> simp [hnorm]
  · simp only [single]; split <;> simp [hnorm]
  · intro k'
    obtain ⟨xs', ys', r', e1, e2, e3, e4, _, e6, _⟩ := numeric_text (d := d) hn hj k'
    obtain rfl := sequence_unique (.inl b1) e1
    exact e6 hl (by rw [b10]; simp)

/-- The text of a thresholded integration with weights says nothing about the threshold and the label. -/
theorem threshold_not_printed {kw kw' : List (String × Val)} {g g' : String → Val} {o o' : Op}
    (h : create .WeightedThresholdedAcquisition kw = .ok o)
    (h' : create .WeightedThresholdedAcquisition kw' = .ok o')
    (hg : Args .WeightedThresholdedAcquisition kw g) (hg' : Args .WeightedThresholdedAcquisition kw' g')
    (he : ∀ p, p ≠ "acq_threshold" → p ≠ "acq_rotation" → p ≠ "feedback_trigger_label" → g p = g' p)
    (k k' : Cache) : (text k o).1 = (text k' o').1 := by
  obtain ⟨i, d, hi, hd, rfl, ha⟩ := entry_of h hg
  obtain ⟨i', d', hi', hd', rfl, ha'⟩ := entry_of h' hg'
  have hn : Numeric .WeightedThresholdedAcquisition := by simp [Numeric]
  obtain ⟨xs, ys, r, h1, h2, h3, h4, h5, h6, h7⟩ := numeric_text (d := d) hn hi k
  obtain ⟨xs', ys', r', h1', h2', h3', h4', h5', h6', h7'⟩ := numeric_text (d := d') hn hi' k'
  have e : ∀ p ∈ ["weights_a", "weights_b", "weights_sampling_rate", "port", "clock", "interpolation",
      "acq_channel", "coords", "acq_index", "bin_mode", "phase", "t0"],
      argOf .WeightedThresholdedAcquisition kw' p = argOf .WeightedThresholdedAcquisition kw p := by
    intro p hp
    have hm : p ∈ required .WeightedThresholdedAcquisition ++ optional .WeightedThresholdedAcquisition :=
      (by decide +kernel : ∀ p ∈ ["weights_a", "weights_b", "weights_sampling_rate", "port", "clock",
        "interpolation", "acq_channel", "coords", "acq_index", "bin_mode", "phase", "t0"],
        p ∈ required .WeightedThresholdedAcquisition ++ optional .WeightedThresholdedAcquisition) p hp
    rw [ha' p hm, ha p hm]
    symm
    exact he p (fun h => absurd (h ▸ hp) (by decide +kernel)) (fun h => absurd (h ▸ hp) (by decide +kernel))
      (fun h => absurd (h ▸ hp) (by decide +kernel))
  simp only [List.mem_cons, List.not_mem_nil, or_false, forall_eq_or_imp, forall_eq] at e
  obtain ⟨e1, e2, e3, e4, e5, e6, e7, e8, e9, e10, e11, e12⟩ := e
  rw [e1] at h1'; rw [e2] at h2'; rw [e3, h3] at h3'
  obtain rfl := sequence_unique h1 h1'
  obtain rfl := sequence_unique h2 h2'
  cases h3'
  by_cases hl : xs.length < 2
  · rw [h5 hl, h5' hl]
  · have hl : 2 ≤ xs.length := by omega
    by_cases hb : ∃ s, argOf .WeightedThresholdedAcquisition kw "bin_mode" = .enum s
    · obtain ⟨s, hs⟩ := hb
      rw [h7 hl s hs, h7' hl s (e10.trans hs), e4, e5, e6, e7, e8, e9, e11, e12]
    · have hb : ∀ s, argOf .WeightedThresholdedAcquisition kw "bin_mode" ≠ .enum s :=
        fun s hs => hb ⟨s, hs⟩
      rw [h6 hl hb, h6' hl (by rw [e10]; exact hb)]

end Verif.Ops
