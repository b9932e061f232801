/-
C82: when the constructors accept their arguments.
-/
import Verif.Ops.Props

set_option linter.unusedSimpArgs false
set_option linter.unusedVariables false
set_option linter.unusedTactic false
set_option linter.unreachableTactic false

namespace Verif.Ops

theorem fits_congr {c : Cls} {g a : String → Val}
    (h : ∀ p ∈ required c ++ optional c, g p = a p) : Fits c g ↔ Fits c a := by
  cases c <;> simp only [required, optional, placing, List.cons_append, List.nil_append,
    List.forall_mem_cons] at h <;>
    simp [Fits, required, optional, placing, Acquires, h]

theorem ok_and {i : Info} {P : Info → Prop} :
    (∃ j, (Except.ok i : Except Err Info) = .ok j ∧ P j) ↔ P i := by simp

/-- The entry is made and its end is known. -/
def Succeeds (c : Cls) (a : String → Val) : Prop := ∃ i, entry c a = .ok i ∧ ∃ d, endOf i = .ok d

theorem ends_iff (i : Info) : (∃ d, endOf i = .ok d) ↔
    (∃ s, Dict.get? i "t0" = some (.num s)) ∧ ∃ t, Dict.get? i "duration" = some (.num t) := by
  simp only [endOf_ok]
  constructor
  · rintro ⟨d, s, t, h1, h2, rfl⟩; exact ⟨⟨s, h1⟩, t, h2⟩
  · rintro ⟨⟨s, h1⟩, t, h2⟩; exact ⟨_, s, t, h1, h2, rfl⟩

theorem succeeds_guard {x : Bool} {e : Err} {i : Info} {P : Info → Prop} :
    (∃ j, (if x = true then Except.error e else (Except.ok i : Except Err Info)) = .ok j ∧ P j) ↔
      x = false ∧ P i := by
  cases x <;> simp

theorem notText_iff {s : String} {v w : Val} :
    (eqText s v && isNone w) = false ↔ (IsText s v → w ≠ .none) := by
  cases h1 : eqText s v <;> cases h2 : isNone w <;>
    simp_all [← eqText_iff, ← isNone_iff]

theorem notAverage_iff {s : String} {v w : Val} :
    (eqText s v && neZero w) = false ↔ (IsText s v → Zero w) := by
  cases h1 : eqText s v <;> cases h2 : neZero w <;>
    simp_all [← eqText_iff, ← neZero_iff]

theorem succeeds_iff (c : Cls) (a : String → Val) : Succeeds c a ↔ Fits c a := by
  unfold Succeeds
  simp only [ends_iff]
  cases c
  case SuddenNetZeroPulse =>
    simp only [entry, bind_ok, asNum_ok, Except.ok.injEq]
    constructor
    · rintro ⟨i, ⟨x, hx, y, hy, z, hz, rfl⟩, h1, h2⟩
      simp [Dict.get?_cons] at h1
      simp [Fits, required, optional, placing, Acquires, Number, h1, hx, hy, hz]
    · intro h
      simp [Fits, required, optional, placing, Acquires, Number] at h
      obtain ⟨⟨q, hq⟩, ⟨x, hx⟩, ⟨y, hy⟩, z, hz⟩ := h
      exact ⟨_, ⟨x, hx, y, hy, z, hz, rfl⟩, by simp [Dict.get?_cons, hq], by simp [Dict.get?_cons]⟩
  case NumericalPulse =>
    simp only [entry, numericalPulse_ok]
    constructor
    · rintro ⟨i, ⟨x, xs, ys, p, q, ht, hs, hp, hq, rfl⟩, h1, h2⟩
      simp [Dict.get?_cons] at h1
      simp only [Fits, required, optional, placing, Acquires, Number]
      simp [h1]
      subst hp
      exact ⟨xs, ys, p, ht, ⟨q, hq⟩, hs⟩
    · intro h
      simp [Fits, required, optional, placing, Acquires, Number] at h
      obtain ⟨⟨t, h1⟩, xs, p, ht, ⟨q, hq⟩, ys, hs⟩ := h
      exact ⟨_, ⟨.num p, xs, ys, p, q, ht, hs, rfl, hq, rfl⟩, by simp [Dict.get?_cons, h1],
        by simp [Dict.get?_cons]⟩
  case SimpleNumericalPulse =>
    simp only [simple_ok]
    constructor
    · rintro ⟨i, ⟨ys, hs, rfl⟩, h1, h2⟩
      simp [Dict.get?_cons] at h1
      simp only [Fits, required, optional, placing, Acquires, Number]
      simp [h1]
      exact ⟨ys, hs⟩
    · intro h
      simp [Fits, required, optional, placing, Acquires, Number] at h
      obtain ⟨⟨t, h1⟩, ys, hs⟩ := h
      exact ⟨_, ⟨ys, hs, rfl⟩, by simp [Dict.get?_cons, h1], by simp [Dict.get?_cons]⟩
  case Trace =>
    simp only [entry, bind_ok, asNum_ok, Except.ok.injEq]
    constructor
    · rintro ⟨i, ⟨x, hx, y, hy, rfl⟩, h1, h2⟩
      simp [Dict.get?_cons] at h1
      have := (asEnum_ok hy).1
      unfold binModes at this
      simp [Fits, required, optional, placing, Acquires, Number, h1, hx, this]
    · intro h
      simp [Fits, required, optional, placing, Acquires, Number] at h
      obtain ⟨⟨q, hq⟩, ⟨x, hx⟩, hb⟩ := h
      obtain ⟨y, hy⟩ := asEnum_of (l := binModes) hb
      exact ⟨_, ⟨x, hx, y, hy, rfl⟩, by simp [Dict.get?_cons, hq], by simp [Dict.get?_cons]⟩
  case TimetagTrace =>
    simp only [entry, bind_ok, asNum_ok]
    constructor
    · rintro ⟨i, ⟨x, hx, y, hy, h⟩, h1, h2⟩
      split at h
      · cases h
      · rename_i hn
        simp only [Except.ok.injEq] at h
        subst h
        simp [Dict.get?_cons] at h1
        have := (asEnum_ok hy).1
        unfold binModes at this
        have hn := notText_iff.mp (by simpa using hn)
        simp [Fits, required, optional, placing, Acquires, Number, h1, hx, this]
        exact hn
    · intro h
      simp [Fits, required, optional, placing, Acquires, Number] at h
      obtain ⟨⟨q, hq⟩, ⟨x, hx⟩, hb, hn⟩ := h
      obtain ⟨y, hy⟩ := asEnum_of (l := binModes) hb
      exact ⟨_, ⟨x, hx, y, hy, if_neg (by rw [notText_iff.mpr hn]; simp)⟩, by simp [Dict.get?_cons, hq],
        by simp [Dict.get?_cons]⟩
  case Timetag =>
    simp only [entry, bind_ok, asNum_ok]
    constructor
    · rintro ⟨i, ⟨x, hx, y, hy, h⟩, h1, h2⟩
      split at h
      · cases h
      · rename_i hn
        simp only [Except.ok.injEq] at h
        subst h
        simp [Dict.get?_cons] at h1 h2
        have e1 := (asEnum_ok hx).1
        have e2 := (asEnum_ok hy).1
        unfold timeSources at e1
        unfold timeRefs at e2
        have hn := notText_iff.mp (by simpa using hn)
        rw [asEnum_text hy] at hn
        simp [Fits, required, optional, placing, Acquires, Number, h1, h2, e1, e2]
        exact hn
    · intro h
      simp [Fits, required, optional, placing, Acquires, Number] at h
      obtain ⟨⟨q, hq⟩, ⟨r, hr⟩, ⟨hs, ht⟩, hn⟩ := h
      obtain ⟨x, hx⟩ := asEnum_of (l := timeSources) hs
      obtain ⟨y, hy⟩ := asEnum_of (l := timeRefs) ht
      rw [← asEnum_text hy] at hn
      exact ⟨_, ⟨x, hx, y, hy, if_neg (by rw [notText_iff.mpr hn]; simp)⟩, by simp [Dict.get?_cons, hq],
        by simp [Dict.get?_cons, hr]⟩
  case WeightedIntegratedSeparated =>
    simp only [entry, separated, succeeds_guard, neZero_iff]
    simp [Fits, required, optional, placing, Acquires, Number, Dict.get?_cons]
    tauto
  case SSBIntegrationComplex =>
    simp only [entry, succeeds_guard, neZero_iff]
    simp [Fits, required, optional, placing, Acquires, Number, Dict.get?_cons]
    tauto
  case ThresholdedAcquisition =>
    simp only [entry, succeeds_guard, neZero_iff]
    simp [Fits, required, optional, placing, Acquires, Number, Dict.get?_cons]
    tauto
  case ThresholdedTriggerCount =>
    simp only [entry, succeeds_guard, notAverage_iff]
    simp [Fits, required, optional, placing, Acquires, Number, Dict.get?_cons]
    tauto
  case DualThresholdedTriggerCount =>
    simp only [entry, succeeds_guard, notAverage_iff]
    simp [Fits, required, optional, placing, Acquires, Number, Dict.get?_cons]
    tauto
  case NumericalSeparatedWeightedIntegration =>
    simp only [entry]
    constructor
    · rintro ⟨i, h, h1, h2⟩
      obtain ⟨xs, ys, r, hx, hy, hr, h0, hz, rfl⟩ := numeric_ok.mp h
      simp [Dict.get?_cons] at h1
      simp only [Fits, required, optional, placing, Acquires, Number]
      simp [h1, hz]
      exact ⟨⟨xs, hx⟩, ⟨ys, hy⟩, r, hr, h0⟩
    · intro h
      simp [Fits, required, optional, placing, Acquires, Number] at h
      obtain ⟨⟨q, hq⟩, hz, ⟨xs, hx⟩, ⟨ys, hy⟩, r, hr, h0⟩ := h
      exact ⟨_, numeric_ok.mpr ⟨xs, ys, r, hx, hy, hr, h0, hz, rfl⟩, by simp [Dict.get?_cons, hq],
        by simp [Dict.get?_cons]⟩
  case NumericalWeightedIntegration =>
    simp only [entry, bind_ok, Except.ok.injEq]
    constructor
    · rintro ⟨i, ⟨d, h, rfl⟩, h1, h2⟩
      obtain ⟨xs, ys, r, hx, hy, hr, h0, hz, rfl⟩ := numeric_ok.mp h
      simp [Dict.get?_cons, Dict.get?_set] at h1
      simp only [Fits, required, optional, placing, Acquires, Number]
      simp [h1, hz]
      exact ⟨⟨xs, hx⟩, ⟨ys, hy⟩, r, hr, h0⟩
    · intro h
      simp [Fits, required, optional, placing, Acquires, Number] at h
      obtain ⟨⟨q, hq⟩, hz, ⟨xs, hx⟩, ⟨ys, hy⟩, r, hr, h0⟩ := h
      exact ⟨_, ⟨_, numeric_ok.mpr ⟨xs, ys, r, hx, hy, hr, h0, hz, rfl⟩, rfl⟩,
        by simp [Dict.get?_cons, Dict.get?_set, hq], by simp [Dict.get?_cons, Dict.get?_set]⟩
  case WeightedThresholdedAcquisition =>
    simp only [entry, bind_ok, Except.ok.injEq]
    constructor
    · rintro ⟨i, ⟨d, h, rfl⟩, h1, h2⟩
      obtain ⟨xs, ys, r, hx, hy, hr, h0, hz, rfl⟩ := numeric_ok.mp h
      simp [Dict.get?_cons, Dict.get?_set] at h1
      simp only [Fits, required, optional, placing, Acquires, Number]
      simp [h1, hz]
      exact ⟨⟨xs, hx⟩, ⟨ys, hy⟩, r, hr, h0⟩
    · intro h
      simp [Fits, required, optional, placing, Acquires, Number] at h
      obtain ⟨⟨q, hq⟩, hz, ⟨xs, hx⟩, ⟨ys, hy⟩, r, hr, h0⟩ := h
      exact ⟨_, ⟨_, numeric_ok.mpr ⟨xs, ys, r, hx, hy, hr, h0, hz, rfl⟩, rfl⟩,
        by simp [Dict.get?_cons, Dict.get?_set, hq], by simp [Dict.get?_cons, Dict.get?_set]⟩
  all_goals
    simp only [entry, ok_and]
    simp [Fits, required, optional, placing, Acquires, Number, Dict.get?_cons]
  all_goals try tauto

/-- A constructor succeeds exactly if it gets its arguments, no others, and their values fit. -/
theorem accepted {c : Cls} {kw : List (String × Val)} {g : String → Val} (hg : Args c kw g) :
    (∃ o, create c kw = .ok o) ↔
      (∀ k ∈ Dict.keys kw, k ∈ required c ∨ k ∈ optional c) ∧ (∀ p ∈ required c, p ∈ Dict.keys kw) ∧
        Fits c g := by
  simp only [create_iff]
  constructor
  · rintro ⟨o, h1, h2, i, d, hi, hd, rfl⟩
    refine ⟨h1, h2, (fits_congr fun p hp => args_eq h2 hg (List.mem_append.mp hp)).mpr ?_⟩
    exact (succeeds_iff c _).mp ⟨i, hi, d, hd⟩
  · rintro ⟨h1, h2, h3⟩
    rw [fits_congr fun p hp => args_eq h2 hg (List.mem_append.mp hp)] at h3
    obtain ⟨i, hi, d, hd⟩ := (succeeds_iff c _).mpr h3
    exact ⟨_, h1, h2, i, d, hi, hd, rfl⟩

end Verif.Ops
