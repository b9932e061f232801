/-
Lemmas for C83: making an operation again from what it holds.
-/
import Verif.Ops.Contents

set_option linter.unusedSimpArgs false
set_option linter.unusedVariables false
set_option linter.unusedTactic false
set_option linter.unreachableTactic false

namespace Verif.Ops

/-- A member of an enumeration as its string. -/
def un : Val → Val
  | .enum s => .str s
  | v => v

theorem asNum_un (v : Val) : asNum (un v) = asNum v := by cases v <;> rfl
theorem asList_un (v : Val) : asList (un v) = asList v := by cases v <;> rfl
theorem eqText_un (s : String) (v : Val) : eqText s (un v) = eqText s v := by cases v <;> rfl
theorem neZero_un (v : Val) : neZero (un v) = neZero v := by cases v <;> rfl
theorem isNone_un (v : Val) : isNone (un v) = isNone v := by cases v <;> rfl
theorem asEnum_un (l : List String) (v : Val) : asEnum l (un v) = asEnum l v := by cases v <;> rfl
theorem norm_un (v : Val) : norm (un v) = norm v := by cases v <;> simp [un, norm]

/-- The entry that is printed. -/
def textInfo (c : Cls) (i : Info) : Except Err Info :=
  if c = .ThresholdedTriggerCount then countInfo i else .ok i

/-- How a printed value arises from an argument. -/
def Kept (c : Cls) (p : String) (v w : Val) : Prop :=
  (w = v ∧ p ≠ "samples" ∧ p ≠ "t_samples") ∨ (∃ s, (v = .str s ∨ v = .enum s) ∧ w = .enum s) ∨
    ((p = "samples" ∨ p = "t_samples") ∧ ∃ l, Sequence v l ∧ w = .list l) ∨ w = .enum "distribution"

theorem kept_self (c : Cls) (p : String) (v : Val) (h : p ≠ "samples") (h' : p ≠ "t_samples") :
    Kept c p v v = True := by simp [Kept, h, h']

theorem kept_enum {c : Cls} {p : String} {l : List String} {v w : Val} (h : asEnum l v = .ok w)
    (h1 : p ≠ "samples") (h2 : p ≠ "t_samples") : Kept c p v w := by
  rcases asEnum_iff.mp h with ⟨s, hv, hs, rfl⟩ | ⟨hv, rfl⟩
  · exact .inr (.inl ⟨s, hv, rfl⟩)
  · exact .inl ⟨rfl, h1, h2⟩

theorem asEnum_idem {l : List String} {v w : Val} (h : asEnum l v = .ok w) : asEnum l w = .ok w := by
  rcases asEnum_iff.mp h with ⟨s, hv, hs, rfl⟩ | ⟨hv, rfl⟩
  · exact asEnum_iff.mpr (.inl ⟨s, .inr rfl, hs, rfl⟩)
  · exact h

/-- The printed values. -/
def val (j : Info) (p : String) : Val := (Dict.get? j p).getD .none

theorem entry_congr {c : Cls} {a b : String → Val} (h : ∀ p ∈ required c ++ optional c, a p = b p) :
    entry c a = entry c b := by
  cases c <;> simp only [required, optional, placing, List.cons_append, List.nil_append,
    List.forall_mem_cons] at h <;>
    simp [entry, numericalPulse, separated, numeric, squareWeights, thresholdType, h]

/-- The operation can be made again from the printed values. -/
structure Reprints (c : Cls) (a : String → Val) (i j : Info) : Prop where
  there : ∀ p ∈ required c ++ optional c, ∃ v, Dict.get? j p = some v ∧ Kept c p (a p) v
  again : entry c (val j) = .ok i

/-- The checks of `Reprints` for an entry that is written out. -/
macro "reprint_tac" : tactic => `(tactic| (
  refine ⟨?_, ?_⟩
  · simp [required, optional, placing, Dict.get?_cons, Kept]
  · simp [entry, val, Dict.get?_cons]))

theorem reprints {c : Cls} {a : String → Val} {i : Info} (hc : PrintsAll c)
    (h : entry c a = .ok i) : ∃ j, textInfo c i = .ok j ∧ Reprints c a i j := by
  cases c
  case WeightedIntegratedSeparated => exact absurd hc (by simp [PrintsAll])
  case NumericalSeparatedWeightedIntegration => exact absurd hc (by simp [PrintsAll])
  case NumericalWeightedIntegration => exact absurd hc (by simp [PrintsAll])
  case WeightedThresholdedAcquisition => exact absurd hc (by simp [PrintsAll])
  case DualThresholdedTriggerCount => exact absurd hc (by simp [PrintsAll])
  case SimpleNumericalPulse => exact absurd hc (by simp [PrintsAll])
  case SuddenNetZeroPulse =>
    refine ⟨i, rfl, ?_⟩
    simp only [entry, bind_ok, asNum_ok, Except.ok.injEq] at h
    obtain ⟨x, hx, y, hy, z, hz, rfl⟩ := h
    refine ⟨?_, ?_⟩
    · simp [required, optional, placing, Dict.get?_cons, Kept]
    · simp [entry, val, Dict.get?_cons, hx, hy, hz, asNum, Bind.bind, Except.bind]
  case NumericalPulse =>
    refine ⟨i, rfl, ?_⟩
    obtain ⟨x, xs, ys, p, q, ht, hs, hp, hq, rfl⟩ := numericalPulse_ok.mp h
    refine ⟨?_, ?_⟩
    · have k1 : Kept .NumericalPulse "t_samples" (a "t_samples") (.list (x :: xs)) :=
        .inr (.inr (.inl ⟨.inr rfl, _, ht, rfl⟩))
      have k2 : Kept .NumericalPulse "samples" (a "samples") (.list ys) := .inr (.inr (.inl ⟨.inl rfl, _, hs, rfl⟩))
      simp [required, optional, placing, Dict.get?_cons, kept_self, k1, k2]
    · refine numericalPulse_ok.mpr ⟨x, xs, ys, p, q, .inl ?_, .inl ?_, hp, hq, ?_⟩
      all_goals simp [val, Dict.get?_cons]
  case Trace =>
    refine ⟨i, rfl, ?_⟩
    simp only [entry, bind_ok, asNum_ok, Except.ok.injEq] at h
    obtain ⟨x, hx, y, hy, rfl⟩ := h
    refine ⟨?_, ?_⟩
    · simp [required, optional, placing, Dict.get?_cons, kept_self, hx, kept_enum hy]
    · simp [entry, val, Dict.get?_cons, asNum, Bind.bind, Except.bind, asEnum_idem hy]
  case TimetagTrace =>
    refine ⟨i, rfl, ?_⟩
    simp only [entry, bind_ok, asNum_ok] at h
    obtain ⟨x, hx, y, hy, h⟩ := h
    split at h
    · cases h
    · rename_i hn
      simp only [Except.ok.injEq] at h; subst h
      refine ⟨?_, ?_⟩
      · simp [required, optional, placing, Dict.get?_cons, kept_self, hx, kept_enum hy]
      · simp only [entry, val, Dict.get?_cons]
        simp [asNum, Bind.bind, Except.bind, asEnum_idem hy]
        simpa using hn
  case Timetag =>
    refine ⟨i, rfl, ?_⟩
    simp only [entry, bind_ok, asNum_ok] at h
    obtain ⟨x, hx, y, hy, h⟩ := h
    split at h
    · cases h
    · rename_i hn
      simp only [Except.ok.injEq] at h; subst h
      refine ⟨?_, ?_⟩
      · simp [required, optional, placing, Dict.get?_cons, kept_self, kept_enum hx, kept_enum hy]
      · simp only [entry, val, Dict.get?_cons]
        simp [asNum, Bind.bind, Except.bind, asEnum_idem hx, asEnum_idem hy]
        simpa using hn
  case SSBIntegrationComplex =>
    refine ⟨i, rfl, ?_⟩
    simp only [entry] at h
    split at h
    · cases h
    · rename_i hn
      simp only [Except.ok.injEq] at h; subst h
      refine ⟨?_, ?_⟩
      · simp [required, optional, placing, Dict.get?_cons, Kept]
      · simp [entry, val, squareWeights, Dict.get?_cons, hn]
  case ThresholdedAcquisition =>
    refine ⟨i, rfl, ?_⟩
    simp only [entry] at h
    split at h
    · cases h
    · rename_i hn
      simp only [Except.ok.injEq] at h; subst h
      refine ⟨?_, ?_⟩
      · simp [required, optional, placing, Dict.get?_cons, Kept]
      · simp [entry, val, squareWeights, thresholdType, Dict.get?_cons, hn]
  case ThresholdedTriggerCount =>
    simp only [entry] at h
    split at h
    · cases h
    · rename_i hn
      simp only [Except.ok.injEq] at h; subst h
      apply Exists.intro
      constructor
      · simp [textInfo, countInfo, item, subitem, Dict.get?_cons, Bind.bind, Except.bind, Dict.set]
        rfl
      refine ⟨?_, ?_⟩
      · simp [required, optional, placing, Dict.get?_cons, Kept]
      · simp only [entry, val, Dict.get?_cons]
        simp at hn ⊢
        exact hn
  case TriggerCount =>
    refine ⟨i, rfl, ?_⟩
    simp only [entry, Except.ok.injEq] at h; subst h
    cases hb : eqText "average" (a "bin_mode") with
    | true =>
      refine ⟨?_, ?_⟩
      · simp [required, optional, placing, Dict.get?_cons, Kept, hb]
      · simp [entry, val, Dict.get?_cons, hb, eqText]
    | false =>
      refine ⟨?_, ?_⟩
      · simp [required, optional, placing, Dict.get?_cons, Kept, hb]
      · simp [entry, val, Dict.get?_cons, hb]
  all_goals
    refine ⟨i, rfl, ?_⟩
    simp only [entry, Except.ok.injEq] at h; subst h; reprint_tac

/-- The checks of `entry_un` for entries that are written out. -/
macro "un_tac" : tactic => `(tactic| (
  refine ⟨_, rfl, ?_, ?_⟩
  · simp [normDict, normEntry, norm_un, norm, normList, isNone_un, eqText_un]
  · simp [endOf, Dict.get?_cons, asNum_un]))

/-- With strings instead of members of enumerations, an equal operation is made. -/
theorem entry_un {c : Cls} {v : String → Val} {i : Info} (hc : PrintsAll c)
    (h : entry c v = .ok i) : ∃ j, entry c (fun p => un (v p)) = .ok j ∧ normDict j = normDict i ∧
      endOf j = endOf i := by
  cases c
  case WeightedIntegratedSeparated => exact absurd hc (by simp [PrintsAll])
  case NumericalSeparatedWeightedIntegration => exact absurd hc (by simp [PrintsAll])
  case NumericalWeightedIntegration => exact absurd hc (by simp [PrintsAll])
  case WeightedThresholdedAcquisition => exact absurd hc (by simp [PrintsAll])
  case DualThresholdedTriggerCount => exact absurd hc (by simp [PrintsAll])
  case SimpleNumericalPulse => exact absurd hc (by simp [PrintsAll])
  case SuddenNetZeroPulse =>
    simp only [entry, bind_ok, asNum_ok, Except.ok.injEq] at h
    obtain ⟨x, hx, y, hy, z, hz, rfl⟩ := h
    simp only [entry, asNum_un, hx, hy, hz, asNum, Bind.bind, Except.bind]
    un_tac
  case NumericalPulse =>
    obtain ⟨x, xs, ys, p, q, ht, hs, hp, hq, rfl⟩ := numericalPulse_ok.mp h
    have e : ∀ w l, Sequence w l → Sequence (un w) l := by
      rintro w l (rfl | rfl)
      · exact .inl rfl
      · exact .inr rfl
    refine ⟨_, (numericalPulse_ok (a := fun p => un (v p))).mpr ⟨x, xs, ys, p, q, e _ _ ht, e _ _ hs, hp, hq, rfl⟩, ?_, ?_⟩
    · simp [normDict, normEntry, norm_un, norm]
    · simp [endOf, Dict.get?_cons, asNum_un]
  case Trace =>
    simp only [entry, bind_ok, asNum_ok, Except.ok.injEq] at h
    obtain ⟨x, hx, y, hy, rfl⟩ := h
    simp only [entry, asNum_un, asEnum_un, hx, hy, asNum, Bind.bind, Except.bind]
    un_tac
  case TimetagTrace =>
    simp only [entry, bind_ok, asNum_ok] at h
    obtain ⟨x, hx, y, hy, h⟩ := h
    split at h
    · cases h
    · rename_i hn
      simp only [Except.ok.injEq] at h; subst h
      simp only [entry, asNum_un, asEnum_un, eqText_un, isNone_un, hx, hy, asNum, Bind.bind, Except.bind,
        if_neg hn]
      un_tac
  case Timetag =>
    simp only [entry, bind_ok, asNum_ok] at h
    obtain ⟨x, hx, y, hy, h⟩ := h
    split at h
    · cases h
    · rename_i hn
      simp only [Except.ok.injEq] at h; subst h
      simp only [entry, asNum_un, asEnum_un, eqText_un, isNone_un, hx, hy, asNum, Bind.bind, Except.bind,
        if_neg hn]
      un_tac
  case SSBIntegrationComplex =>
    simp only [entry] at h
    split at h
    · cases h
    · rename_i hn
      simp only [Except.ok.injEq] at h; subst h
      simp only [entry, neZero_un, if_neg hn]
      refine ⟨_, rfl, ?_, ?_⟩
      · simp [normDict, normEntry, norm_un, norm, normList, squareWeights]
      · simp [endOf, Dict.get?_cons, asNum_un]
  case ThresholdedAcquisition =>
    simp only [entry] at h
    split at h
    · cases h
    · rename_i hn
      simp only [Except.ok.injEq] at h; subst h
      simp only [entry, neZero_un, if_neg hn]
      refine ⟨_, rfl, ?_, ?_⟩
      · simp [normDict, normEntry, norm_un, norm, normList, squareWeights, thresholdType, eqText_un]
      · simp [endOf, Dict.get?_cons, asNum_un]
  case ThresholdedTriggerCount =>
    simp only [entry] at h
    split at h
    · cases h
    · rename_i hn
      simp only [Except.ok.injEq] at h; subst h
      simp only [entry, neZero_un, eqText_un, if_neg hn]
      un_tac
  case TriggerCount =>
    simp only [entry, Except.ok.injEq] at h; subst h
    simp only [entry, eqText_un]
    refine ⟨_, rfl, ?_, ?_⟩
    · cases eqText "average" (v "bin_mode") <;> simp [normDict, normEntry, norm_un, norm, normList]
    · simp [endOf, Dict.get?_cons, asNum_un]
  all_goals
    simp only [entry, Except.ok.injEq] at h; subst h
    simp only [entry, isNone_un]
    un_tac

end Verif.Ops
