/-
C83: the classes whose text does not make the operation again.
-/
import Verif.Ops.RoundTrip
import Mathlib.Tactic.FieldSimp
import Mathlib.Tactic.Ring

set_option linter.unusedSimpArgs false
set_option linter.unusedVariables false

namespace Verif.Ops

/-- `WeightedIntegratedSeparated` can never be printed. -/
theorem separated_unprintable {kw : List (String × Val)} {o : Op}
    (h : create .WeightedIntegratedSeparated kw = .ok o) (k : Cache) :
    (text k o).1 = .error .keyError := by
  obtain ⟨_, _, i, d, hi, _, rfl⟩ := create_iff.mp h
  obtain ⟨_, rfl⟩ := separated_ok hi
  simp [text, single, Cls.isAcq, cachedSignature, cachedFor, params, signature, List.mapM_cons,
    Dict.get?_cons, Dict.get?_nil, Bind.bind, Except.bind]

/-- `DualThresholdedTriggerCount` can never be printed. -/
theorem dual_unprintable {kw : List (String × Val)} {o : Op}
    (h : create .DualThresholdedTriggerCount kw = .ok o) (k : Cache) :
    (text k o).1 = .error .keyError := by
  obtain ⟨_, _, i, d, hi, _, rfl⟩ := create_iff.mp h
  simp only [entry] at hi
  split at hi
  · cases hi
  · simp only [Except.ok.injEq] at hi
    subst hi
    simp [text, single, Cls.isAcq, dualInfo, item, subitem, List.foldlM_cons, Dict.set, Dict.get?_cons,
      Dict.get?_nil, Bind.bind, Except.bind]

/-- The numerical integrations. -/
def Numeric (c : Cls) : Prop :=
  c ∈ [.NumericalSeparatedWeightedIntegration, .NumericalWeightedIntegration,
    .WeightedThresholdedAcquisition]

/-- What the text of a numerical integration uses. -/
theorem numeric_keys {c : Cls} {a : String → Val} {i : Info} (hc : Numeric c)
    (h : entry c a = .ok i) : ∃ xs ys r, Sequence (a "weights_a") xs ∧ Sequence (a "weights_b") ys ∧
      a "weights_sampling_rate" = .num r ∧ r ≠ 0 ∧
      Dict.get? i "waveforms" = some (.list [
        .dict [("wf_func", .str "quantify_scheduler.waveforms.interpolated_complex_waveform"),
          ("samples", .array xs),
          ("t_samples", .array ((List.range xs.length).map fun i : Nat => .num ((i : Rat) / r))),
          ("interpolation", a "interpolation")],
        .dict [("wf_func", .str "quantify_scheduler.waveforms.interpolated_complex_waveform"),
          ("samples", .array ys),
          ("t_samples", .array ((List.range xs.length).map fun i : Nat => .num ((i : Rat) / r))),
          ("interpolation", a "interpolation")]]) ∧
      ∀ p ∈ ["port", "clock", "acq_channel", "coords", "acq_index", "bin_mode", "phase", "t0"],
        Dict.get? i p = some (a p) := by
  obtain ⟨d, hd, hg⟩ : ∃ d, numeric a = .ok d ∧ ∀ k ∈ ["waveforms", "port", "clock", "acq_channel",
      "coords", "acq_index", "bin_mode", "phase", "t0"], Dict.get? i k = Dict.get? d k := by
    simp only [Numeric, List.mem_cons, List.not_mem_nil, or_false] at hc
    rcases hc with rfl | rfl | rfl
    · exact ⟨i, h, fun _ _ => rfl⟩
    · obtain ⟨d, hd, h⟩ := bind_ok.mp h
      simp only [Except.ok.injEq] at h
      subst h
      exact ⟨d, hd, by simp [Dict.get?_set]⟩
    · obtain ⟨d, hd, h⟩ := bind_ok.mp h
      simp only [Except.ok.injEq] at h
      subst h
      exact ⟨d, hd, by simp [Dict.get?_set]⟩
  obtain ⟨xs, ys, r, h1, h2, h3, h4, _, rfl⟩ := numeric_ok.mp hd
  refine ⟨xs, ys, r, h1, h2, h3, h4, ?_, ?_⟩
  · rw [hg _ (by simp)]
    simp [Dict.get?_cons]
  · intro p hp
    rw [hg _ (by simp only [List.mem_cons] at hp ⊢; exact .inr hp)]
    simp only [List.mem_cons, List.not_mem_nil, or_false] at hp
    rcases hp with rfl | rfl | rfl | rfl | rfl | rfl | rfl | rfl <;> simp [Dict.get?_cons]

/-- The text of a numerical integration. -/
theorem numeric_text {c : Cls} {a : String → Val} {i : Info} {d : Rat} (hc : Numeric c)
    (h : entry c a = .ok i) (k : Cache) : ∃ xs ys r, Sequence (a "weights_a") xs ∧
      Sequence (a "weights_b") ys ∧ a "weights_sampling_rate" = .num r ∧ r ≠ 0 ∧
      (xs.length < 2 → (text k (single c i d)).1 = .error .indexError) ∧
      (2 ≤ xs.length → (∀ s, a "bin_mode" ≠ .enum s) →
        (text k (single c i d)).1 = .error .attributeError) ∧
      (2 ≤ xs.length → ∀ s, a "bin_mode" = .enum s → (text k (single c i d)).1 =
        .ok ⟨c, [("weights_a", .numbers xs), ("weights_b", .numbers ys),
          ("weights_sampling_rate", .repr (.num r)), ("port", .repr (a "port")),
          ("clock", .repr (a "clock")), ("interpolation", .repr (a "interpolation")),
          ("acq_channel", .repr (a "acq_channel")), ("coords", .repr (a "coords")),
          ("acq_index", .repr (a "acq_index")), ("bin_mode", .repr (.str s)),
          ("phase", .repr (a "phase")), ("t0", .repr (a "t0"))]⟩) := by
  obtain ⟨xs, ys, r, h1, h2, h3, h4, hw, hp⟩ := numeric_keys hc h
  have ht : (text k (single c i d)).1 = numericText c i := by
    simp only [Numeric, List.mem_cons, List.not_mem_nil, or_false] at hc
    rcases hc with rfl | rfl | rfl <;> rfl
  refine ⟨xs, ys, r, h1, h2, h3, h4, ?_, ?_, ?_⟩
  · intro hl
    rw [ht]
    obtain rfl | ⟨x, rfl⟩ : xs = [] ∨ ∃ x, xs = [x] := by
      match xs, hl with
      | [], _ => exact .inl rfl
      | [x], _ => exact .inr ⟨x, rfl⟩
    · simp [numericText, item, hw, subitem, Dict.get?_cons, asList, Bind.bind, Except.bind]
    · simp [numericText, item, hw, subitem, Dict.get?_cons, asList, Bind.bind, Except.bind]
  all_goals
    intro hl
    obtain ⟨x, y, zs, rfl⟩ : ∃ x y zs, xs = x :: y :: zs := by
      match xs, hl with
      | x :: y :: zs, _ => exact ⟨x, y, zs, rfl⟩
    have e : (List.range (x :: y :: zs).length).map (fun i : Nat => Val.num ((i : Rat) / r)) =
        .num 0 :: .num (1 / r) :: (List.range zs.length).map fun i : Nat =>
          Val.num (((i + 2 : Nat) : Rat) / r) := by
      simp [List.range_succ_eq_map, Function.comp_def]
      intro a _
      ring
    rw [e] at hw
    have hi := hp "bin_mode" (by simp)
  · intro hb
    rw [ht]
    have : ∀ (v : Val), (∀ s, v ≠ .enum s) → (match v with
        | .enum s => (.ok s : Except Err String)
        | _ => .error .attributeError) = .error .attributeError := by
      intro v hv
      cases v <;> first | rfl | exact absurd rfl (hv _)
    simp only [numericText, item, hw, subitem, Dict.get?_cons, asList, Bind.bind, Except.bind, asNum, hi,
      String.reduceEq, if_true, if_false]
  · intro s hs
    rw [ht]
    rw [hs] at hi
    have hr : 1 / (1 / r - 0) = r := by field_simp; ring
    simp only [List.mem_cons, List.not_mem_nil, or_false, forall_eq_or_imp, forall_eq] at hp
    obtain ⟨p1, p2, p3, p4, p5, _, p7, p8⟩ := hp
    simp only [numericText, item, hw, subitem, Dict.get?_cons, asList, Bind.bind, Except.bind, asNum, hi,
      String.reduceEq, if_true, if_false, p1, p2, p3, p4, p5, p7, p8]
    rw [hr]

end Verif.Ops
