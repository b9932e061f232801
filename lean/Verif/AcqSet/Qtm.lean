/-
C57: sequencers of timetag modules, triggers, scope acquisitions and reference channels.
-/
import Verif.AcqSet.Props
import Verif.Conditional.Model

set_option linter.unusedSimpArgs false
set_option linter.unusedVariables false

namespace Verif.AcqSet

open Verif.AcqSet.Spec
open Verif.Numeric (pyRound)

theorem entries_ok {α : Type} (f : Acq → Option α) : ∀ (acqs : List Acq) (l : List α),
    entries acqs f = .ok l ↔ acqs.map f = l.map some
  | [], l => by cases l <;> simp [entries]
  | a :: acqs, l => by
    have ih := entries_ok f acqs
    simp only [entries, List.foldr_cons] at ih ⊢
    have hs : ∀ r, entryStep f a r = match f a with
      | none => .error .keyError
      | some x => match r with
        | .ok l => .ok (x :: l)
        | .error e => .error e := fun r => rfl
    rw [hs]
    cases hf : f a with
    | none => cases l <;> simp [hf]
    | some x =>
      cases hr : acqs.foldr (entryStep f) (Except.ok []) with
      | error e =>
        simp only [reduceCtorEq, false_iff]
        intro h
        cases l with
        | nil => simp at h
        | cons y l =>
          simp only [List.map_cons, List.cons.injEq] at h
          have := (ih l).mpr h.2
          rw [hr] at this; simp at this
      | ok l' =>
        have hl := (ih l').mp hr
        simp only [Except.ok.injEq]
        constructor
        · rintro rfl; simp [hf, hl]
        · intro h
          cases l with
          | nil => simp at h
          | cons y l =>
            simp only [List.map_cons, List.cons.injEq, hf, Option.some.injEq] at h
            have h2 : l'.map some = l.map some := by rw [← hl]; exact h.2
            rw [h.1, List.map_injective_iff.mpr (Option.some_injective _) h2]

/-- All acquisitions have the entry, and with this value. -/
theorem uniqueOf_ok {α : Type} [DecidableEq α] {acqs : List Acq} {f : Acq → Option α} {v : α} :
    uniqueOf acqs f = .ok v ↔ acqs ≠ [] ∧ ∀ a ∈ acqs, f a = some v := by
  unfold uniqueOf
  constructor
  · intro h
    split at h
    · simp at h
    rename_i l hl
    have hm := (entries_ok f acqs l).mp hl
    obtain ⟨h1, h2⟩ := (unique_iff l v).mp h
    refine ⟨?_, fun a ha => ?_⟩
    · rintro rfl
      cases l <;> simp at hm h1
    · have : f a ∈ l.map some := by rw [← hm]; exact List.mem_map_of_mem ha
      obtain ⟨x, hx, he⟩ := List.mem_map.mp this
      rw [← he, h2 x hx]
  · rintro ⟨hne, h⟩
    have hm : acqs.map f = (acqs.map fun _ => v).map some := by
      rw [List.map_map]; exact List.map_congr_left fun a ha => h a ha
    rw [(entries_ok f acqs _).mpr hm]
    simp only
    rw [unique_iff]
    refine ⟨?_, by simp⟩
    obtain ⟨a, ha⟩ := List.exists_mem_of_ne_nil _ hne
    exact List.mem_map.mpr ⟨a, ha, rfl⟩

theorem has_iff {acqs : List Acq} {p : Proto} : has acqs p = true ↔ ∃ a ∈ acqs, a.proto = p := by
  simp [has]

theorem timeSettings_ok {acqs : List Acq} {s s' : Qtm} (h : timeSettings acqs s = .ok s') :
    ((∃ a ∈ acqs, a.proto = .timetag ∨ a.proto = .timetagTrace) → ∃ src ref ch,
      (∀ a ∈ acqs, a.timing = some ⟨src, ref, ch⟩) ∧
      s' = { s with source := some src, ref := some ref, refChannel := ch }) ∧
    ((∀ a ∈ acqs, a.proto ≠ .timetag ∧ a.proto ≠ .timetagTrace) → s' = s) := by
  unfold timeSettings at h
  by_cases hh : (has acqs .timetag || has acqs .timetagTrace) = true
  · rw [if_pos hh] at h
    have hex : ∃ a ∈ acqs, a.proto = .timetag ∨ a.proto = .timetagTrace := by
      rcases Bool.or_eq_true_iff.mp hh with h | h
      · obtain ⟨a, ha, hp⟩ := has_iff.mp h; exact ⟨a, ha, Or.inl hp⟩
      · obtain ⟨a, ha, hp⟩ := has_iff.mp h; exact ⟨a, ha, Or.inr hp⟩
    refine ⟨fun _ => ?_, fun hn => ?_⟩
    · split at h
      · simp at h
      rename_i src h1
      split at h
      · simp at h
      rename_i ref h2
      split at h
      · simp at h
      rename_i ch h3
      simp only [Except.ok.injEq] at h
      refine ⟨src, ref, ch, fun a ha => ?_, h.symm⟩
      have e1 := (uniqueOf_ok.mp h1).2 a ha
      have e2 := (uniqueOf_ok.mp h2).2 a ha
      have e3 := (uniqueOf_ok.mp h3).2 a ha
      cases ht : a.timing with
      | none => rw [ht] at e1; simp at e1
      | some t =>
        rw [ht] at e1 e2 e3
        simp only [Option.map_some, Option.some.injEq] at e1 e2 e3
        subst e1; subst e2; subst e3; rfl
    · obtain ⟨a, ha, hp | hp⟩ := hex
      · exact absurd hp (hn a ha).1
      · exact absurd hp (hn a ha).2
  · rw [if_neg hh] at h
    simp only [Except.ok.injEq] at h
    refine ⟨fun ⟨a, ha, hp⟩ => ?_, fun _ => h.symm⟩
    exfalso; apply hh
    rw [Bool.or_eq_true_iff]
    rcases hp with hp | hp
    · exact Or.inl (has_iff.mpr ⟨a, ha, hp⟩)
    · exact Or.inr (has_iff.mpr ⟨a, ha, hp⟩)

/-- What the settings of thresholded counts do. -/
theorem countSettings_ok {acqs : List Acq} {s s' : Qtm} (h : countSettings acqs s = .ok s') :
    ∃ t c x, (∀ a ∈ acqs, a.count = some (t, c) ∧ a.address = some x) ∧
      s'.trigEn = some true ∧ s'.low = some t ∧ s'.high = some t ∧ s'.aMid = 0 ∧ s'.aInvalid = 0 ∧
      (c = .lessThan → s'.aLow = x ∧ s'.aHigh = 0) ∧ (c = .atLeast → s'.aHigh = x ∧ s'.aLow = 0) ∧
      s'.source = s.source ∧ s'.ref = s.ref ∧ s'.refChannel = s.refChannel ∧ s'.trace = s.trace ∧
      s'.traceDuration = s.traceDuration := by
  unfold countSettings at h
  split at h
  · simp at h
  rename_i t h1
  split at h
  · simp at h
  rename_i c h2
  split at h
  · simp at h
  rename_i x h3
  refine ⟨t, c, x, fun a ha => ⟨?_, (uniqueOf_ok.mp h3).2 a ha⟩, ?_⟩
  · have e1 := (uniqueOf_ok.mp h1).2 a ha
    have e2 := (uniqueOf_ok.mp h2).2 a ha
    cases ht : a.count with
    | none => rw [ht] at e1; simp at e1
    | some p =>
      rw [ht] at e1 e2
      simp only [Option.map_some, Option.some.injEq] at e1 e2
      rw [← e1, ← e2]
  · cases c <;> simp only [Except.ok.injEq] at h <;> subst h <;> simp

theorem dualSettings_ok {acqs : List Acq} {s s' : Qtm} (h : dualSettings acqs s = .ok s') :
    ∃ d : Dual, (∀ a ∈ acqs, a.dual = some d) ∧ s'.low = some d.low ∧ s'.high = some d.high ∧
      s'.aLow = d.aLow ∧ s'.aMid = d.aMid ∧ s'.aHigh = d.aHigh ∧ s'.aInvalid = d.aInvalid ∧
      (s'.trigEn = some true ↔ d.aLow ≠ 0 ∨ d.aMid ≠ 0 ∨ d.aHigh ≠ 0 ∨ d.aInvalid ≠ 0) ∧
      s'.source = s.source ∧ s'.ref = s.ref ∧ s'.refChannel = s.refChannel ∧ s'.trace = s.trace ∧
      s'.traceDuration = s.traceDuration := by
  unfold dualSettings at h
  split at h
  · simp at h
  rename_i v1 h1
  split at h
  · simp at h
  rename_i v2 h2
  split at h
  · simp at h
  rename_i v3 h3
  split at h
  · simp at h
  rename_i v4 h4
  split at h
  · simp at h
  rename_i v5 h5
  split at h
  · simp at h
  rename_i v6 h6
  simp only [Except.ok.injEq] at h
  subst h
  refine ⟨⟨v1, v2, v5, v4, v3, v6⟩, fun a ha => ?_, rfl, rfl, rfl, rfl, rfl, rfl, by simp, rfl, rfl, rfl, rfl, rfl⟩
  have e1 := (uniqueOf_ok.mp h1).2 a ha
  have e2 := (uniqueOf_ok.mp h2).2 a ha
  have e3 := (uniqueOf_ok.mp h3).2 a ha
  have e4 := (uniqueOf_ok.mp h4).2 a ha
  have e5 := (uniqueOf_ok.mp h5).2 a ha
  have e6 := (uniqueOf_ok.mp h6).2 a ha
  cases hd : a.dual with
  | none => rw [hd] at e1; simp at e1
  | some d =>
    rw [hd] at e1 e2 e3 e4 e5 e6
    simp only [Option.map_some, Option.some.injEq] at e1 e2 e3 e4 e5 e6
    subst e1; subst e2; subst e3; subst e4; subst e5; subst e6; rfl

/-- The steps of `qtm`. -/
theorem qtm_steps {acqs : List Acq} {s : Qtm} (h : qtm acqs = .ok s) (hne : acqs ≠ []) :
    ¬((∃ a ∈ acqs, a.proto = .trace) ∧ ∃ a ∈ acqs, a.proto = .timetagTrace) ∧
    atMostOne (has acqs .trigCount) (has acqs .thresholdedTrigCount) (has acqs .dual) = true ∧
    ∃ s1, timeSettings acqs (traceSettings acqs .init) = .ok s1 ∧
      ((∃ a ∈ acqs, a.proto = .thresholdedTrigCount) → countSettings acqs s1 = .ok s) ∧
      ((∃ a ∈ acqs, a.proto = .dual) → dualSettings acqs s1 = .ok s) ∧
      ((∀ a ∈ acqs, a.proto ≠ .thresholdedTrigCount ∧ a.proto ≠ .dual) → s = s1) := by
  cases acqs with
  | nil => exact absurd rfl hne
  | cons x acqs =>
    simp only [qtm] at h
    split at h
    · simp at h
    rename_i h1
    split at h
    · simp at h
    rename_i h2
    split at h
    · simp at h
    rename_i s1 hs1
    have h2' : atMostOne (has (x :: acqs) .trigCount) (has (x :: acqs) .thresholdedTrigCount)
        (has (x :: acqs) .dual) = true := by
      revert h2; cases atMostOne _ _ _ <;> simp
    refine ⟨?_, h2', s1, hs1, ?_⟩
    · rintro ⟨ha, hb⟩
      apply h1
      rw [Bool.and_eq_true_iff]
      exact ⟨has_iff.mpr ha, has_iff.mpr hb⟩
    · split at h
      · rename_i h3
        refine ⟨fun _ => h, fun hd => ?_, fun hn => ?_⟩
        · have h4 := has_iff.mpr hd
          rw [h3, h4] at h2'
          simp [atMostOne] at h2'
        · obtain ⟨a, ha, hp⟩ := has_iff.mp h3
          exact absurd hp (hn a ha).1
      · rename_i h3
        split at h
        · rename_i h4
          refine ⟨fun hd => absurd (has_iff.mpr hd) h3, fun _ => h, fun hn => ?_⟩
          obtain ⟨a, ha, hp⟩ := has_iff.mp h4
          exact absurd hp (hn a ha).2
        · rename_i h4
          simp only [Except.ok.injEq] at h
          exact ⟨fun hd => absurd (has_iff.mpr hd) h3, fun hd => absurd (has_iff.mpr hd) h4, fun _ => h.symm⟩

theorem qtm_keeps {acqs : List Acq} {s : Qtm} (h : qtm acqs = .ok s) (hne : acqs ≠ []) :
    ∃ s1, timeSettings acqs (traceSettings acqs .init) = .ok s1 ∧ s.source = s1.source ∧ s.ref = s1.ref ∧
      s.refChannel = s1.refChannel ∧ s.trace = s1.trace ∧ s.traceDuration = s1.traceDuration := by
  obtain ⟨-, -, s1, h1, hc, hd, hn⟩ := qtm_steps h hne
  refine ⟨s1, h1, ?_⟩
  by_cases e1 : ∃ a ∈ acqs, a.proto = .thresholdedTrigCount
  · obtain ⟨t, c, x, -, -, -, -, -, -, -, -, k⟩ := countSettings_ok (hc e1)
    exact k
  by_cases e2 : ∃ a ∈ acqs, a.proto = .dual
  · obtain ⟨d, -, -, -, -, -, -, -, -, k⟩ := dualSettings_ok (hd e2)
    exact k
  rw [hn fun a ha => ⟨fun hp => e1 ⟨a, ha, hp⟩, fun hp => e2 ⟨a, ha, hp⟩⟩]
  exact ⟨rfl, rfl, rfl, rfl, rfl⟩

/-- **C57.** If times are recorded, the source of the times, the reference and its channel are those of
all acquisitions of the sequencer. -/
theorem qtm_times {acqs : List Acq} {s : Qtm} (h : qtm acqs = .ok s)
    (ht : ∃ a ∈ acqs, a.proto = .timetag ∨ a.proto = .timetagTrace) :
    ∃ src ref ch, (∀ a ∈ acqs, a.timing = some ⟨src, ref, ch⟩) ∧ s.source = some src ∧
      s.ref = some ref ∧ s.refChannel = ch := by
  have hne : acqs ≠ [] := by rintro rfl; simp at ht
  obtain ⟨s1, h1, k1, k2, k3, -⟩ := qtm_keeps h hne
  obtain ⟨src, ref, ch, hall, rfl⟩ := (timeSettings_ok h1).1 ht
  exact ⟨src, ref, ch, hall, k1, k2, k3⟩

/-- **C57.** Traces set the mode of the scope; both kinds of traces on a sequencer are refused. -/
theorem qtm_traces {acqs : List Acq} {s : Qtm} (h : qtm acqs = .ok s) :
    ((∃ a ∈ acqs, a.proto = .trace) → s.trace = some .scope ∧ (∀ a ∈ acqs, a.proto ≠ .timetagTrace) ∧
      ∃ a, acqs.head? = some a ∧ ∃ n, Nearest a.duration n ∧ s.traceDuration = some n) ∧
    ((∃ a ∈ acqs, a.proto = .timetagTrace) → s.trace = some .timetag) ∧
    ((∀ a ∈ acqs, a.proto ≠ .trace ∧ a.proto ≠ .timetagTrace) → s.trace = none) := by
  by_cases hne : acqs = []
  · subst hne
    simp only [qtm, Except.ok.injEq] at h
    subst h; simp [Qtm.init]
  obtain ⟨hx, -, -⟩ := qtm_steps h hne
  obtain ⟨s1, h1, -, -, -, k4, k5⟩ := qtm_keeps h hne
  have hk : s1.trace = (traceSettings acqs .init).trace ∧
      s1.traceDuration = (traceSettings acqs .init).traceDuration := by
    by_cases ht : ∃ a ∈ acqs, a.proto = .timetag ∨ a.proto = .timetagTrace
    · obtain ⟨src, ref, ch, -, rfl⟩ := (timeSettings_ok h1).1 ht; exact ⟨rfl, rfl⟩
    · rw [(timeSettings_ok h1).2 fun a ha => ⟨fun hp => ht ⟨a, ha, Or.inl hp⟩, fun hp => ht ⟨a, ha, Or.inr hp⟩⟩]
      exact ⟨rfl, rfl⟩
  rw [k4, k5, hk.1, hk.2]
  cases acqs with
  | nil => exact absurd rfl hne
  | cons b acqs =>
    simp only [traceSettings]
    refine ⟨fun ht => ?_, fun ht => ?_, fun hn => ?_⟩
    · rw [if_pos (has_iff.mpr ht)]
      exact ⟨rfl, fun a ha hp => hx ⟨ht, a, ha, hp⟩, b, rfl, _, rfl, rfl⟩
    · rw [if_neg (fun h => hx ⟨has_iff.mp h, ht⟩), if_pos (has_iff.mpr ht)]
    · rw [if_neg (fun h => by obtain ⟨a, ha, hp⟩ := has_iff.mp h; exact (hn a ha).1 hp),
        if_neg (fun h => by obtain ⟨a, ha, hp⟩ := has_iff.mp h; exact (hn a ha).2 hp)]
      rfl

/-- **C57.** A QTM with thresholded counts sends a trigger exactly if the condition holds for the
number of counts, and to the address of the acquisition. -/
theorem qtm_triggers {acqs : List Acq} {s : Qtm} (h : qtm acqs = .ok s) {a : Acq} (ha : a ∈ acqs)
    (hp : a.proto = .thresholdedTrigCount) :
    ∃ t c x, a.count = some (t, c) ∧ a.address = some x ∧
      ∀ n y, x ≠ 0 → (Sends s n y ↔ y = x ∧ Holds c n t) := by
  have hne : acqs ≠ [] := List.ne_nil_of_mem ha
  obtain ⟨-, -, s1, -, hc, -, -⟩ := qtm_steps h hne
  obtain ⟨t, c, x, hall, he, hl, hh, hm, -, c1, c2, -⟩ := countSettings_ok (hc ⟨a, ha, hp⟩)
  refine ⟨t, c, x, (hall a ha).1, (hall a ha).2, fun n y hx => ?_⟩
  unfold Sends Holds
  constructor
  · rintro ⟨-, hy, low, high, el, eh, hcase⟩
    rw [hl] at el; rw [hh] at eh
    cases el; cases eh
    cases c with
    | lessThan =>
      obtain ⟨e1, e2⟩ := c1 rfl
      rcases hcase with ⟨h1, h2⟩ | ⟨h1, h2, h3⟩ | ⟨h1, h2, h3⟩
      · exact ⟨by rw [← h2, e1], h1⟩
      · omega
      · exact absurd (h3.symm.trans e2) hy
    | atLeast =>
      obtain ⟨e1, e2⟩ := c2 rfl
      rcases hcase with ⟨h1, h2⟩ | ⟨h1, h2, h3⟩ | ⟨h1, h2, h3⟩
      · exact absurd (h2.symm.trans e2) hy
      · omega
      · exact ⟨by rw [← h3, e1], h1⟩
  · rintro ⟨rfl, hq⟩
    refine ⟨he, hx, t, t, hl, hh, ?_⟩
    cases c with
    | lessThan => exact Or.inl ⟨hq, (c1 rfl).1⟩
    | atLeast => exact Or.inr (Or.inr ⟨hq, hq, (c2 rfl).1⟩)

/-- **C57.** A QTM with two thresholds sends a trigger to the address for the range the number of counts
is in, if there is one. -/
theorem qtm_dual_triggers {acqs : List Acq} {s : Qtm} (h : qtm acqs = .ok s) {a : Acq} (ha : a ∈ acqs)
    (hp : a.proto = .dual) :
    ∃ d, a.dual = some d ∧ ∀ n y, Sends s n y ↔ y ≠ 0 ∧
      ((n < d.low ∧ y = d.aLow) ∨ (d.low ≤ n ∧ n < d.high ∧ y = d.aMid) ∨
        (d.low ≤ n ∧ d.high ≤ n ∧ y = d.aHigh)) := by
  have hne : acqs ≠ [] := List.ne_nil_of_mem ha
  obtain ⟨-, -, s1, -, -, hd, -⟩ := qtm_steps h hne
  obtain ⟨d, hall, hl, hh, e1, e2, e3, e4, he, -⟩ := dualSettings_ok (hd ⟨a, ha, hp⟩)
  refine ⟨d, hall a ha, fun n y => ?_⟩
  unfold Sends
  constructor
  · rintro ⟨-, hy, low, high, el, eh, hc⟩
    rw [hl] at el; rw [hh] at eh
    cases el; cases eh
    rw [e1, e2, e3] at hc
    refine ⟨hy, ?_⟩
    rcases hc with ⟨h1, h2⟩ | ⟨h1, h2, h3⟩ | ⟨h1, h2, h3⟩
    · exact Or.inl ⟨h1, h2.symm⟩
    · exact Or.inr (Or.inl ⟨h1, h2, h3.symm⟩)
    · exact Or.inr (Or.inr ⟨h1, h2, h3.symm⟩)
  · rintro ⟨hy, hc⟩
    refine ⟨he.mpr ?_, hy, d.low, d.high, hl, hh, ?_⟩
    · rcases hc with ⟨-, rfl⟩ | ⟨-, -, rfl⟩ | ⟨-, -, rfl⟩
      · exact Or.inl hy
      · exact Or.inr (Or.inl hy)
      · exact Or.inr (Or.inr (Or.inl hy))
    · rw [e1, e2, e3]
      rcases hc with ⟨h1, h2⟩ | ⟨h1, h2, h3⟩ | ⟨h1, h2, h3⟩
      · exact Or.inl ⟨h1, h2.symm⟩
      · exact Or.inr (Or.inl ⟨h1, h2, h3.symm⟩)
      · exact Or.inr (Or.inr ⟨h1, h2, h3.symm⟩)

/-- **C57.** Trigger counts with different numbers of thresholds on a sequencer of a QTM are refused. -/
theorem qtm_incompatible {acqs : List Acq} {a b : Acq} (ha : a ∈ acqs) (hb : b ∈ acqs)
    (hpa : a.proto = .trigCount ∨ a.proto = .thresholdedTrigCount ∨ a.proto = .dual)
    (hpb : b.proto = .trigCount ∨ b.proto = .thresholdedTrigCount ∨ b.proto = .dual)
    (hn : a.proto ≠ b.proto) : ∃ e, qtm acqs = .error e := by
  cases hq : qtm acqs with
  | error e => exact ⟨e, rfl⟩
  | ok s =>
    obtain ⟨-, h2, -⟩ := qtm_steps hq (List.ne_nil_of_mem ha)
    exfalso
    have ka : ∀ p, a.proto = p → has acqs p = true := fun p hp => has_iff.mpr ⟨a, ha, hp⟩
    have kb : ∀ p, b.proto = p → has acqs p = true := fun p hp => has_iff.mpr ⟨b, hb, hp⟩
    rcases hpa with hpa | hpa | hpa <;> rcases hpb with hpb | hpb | hpb <;>
      first
      | exact hn (hpa.trans hpb.symm)
      | (rw [ka _ hpa, kb _ hpb] at h2; simp [atMostOne] at h2)

/-! ### Conditional playback -/

/-- **C57.** What a label's conditional parts are told about a trigger count on a QRM, which sends a
trigger for each count: after `n` counts they are played exactly if the condition holds. -/
theorem qrm_condition {modType : Conditional.PC → Option Conditional.ModType} {q q' : Conditional.AcqInfo}
    {s s' : Conditional.St} {less : Bool} {t : Nat}
    (h : Conditional.updateAcq modType q s = .ok (q', s')) (hp : q.proto = .trigCount (some less) t)
    (hm : modType (q.port, q.clock) = some .qrm) :
    ∃ invert count, (s'.get q.label).1.invert = some invert ∧ (s'.get q.label).1.count = some count ∧
      ∀ n, Plays invert count n ↔ Holds (if less then .lessThan else .atLeast) n t := by
  unfold Conditional.updateAcq at h
  rw [hp] at h
  simp only [hm] at h
  split at h
  · simp at h
  rename_i s2 hs
  simp only [Except.ok.injEq, Prod.mk.injEq] at h
  obtain ⟨-, rfl⟩ := h
  unfold Conditional.St.settings at hs
  simp only at hs
  split at hs
  · simp at hs
  split at hs
  · simp at hs
  simp only [Except.ok.injEq] at hs
  subst hs
  refine ⟨less, t, ?_, ?_, fun n => ?_⟩
  · simp [Conditional.St.get, Conditional.St.put, Dict.get?_set_self]
  · simp [Conditional.St.get, Conditional.St.put, Dict.get?_set_self]
  · cases less <;> simp [Plays, Holds]

/-- **C57.** The same for a QTM, which sends one trigger or none (`qtm_triggers`): they are played
exactly if a trigger was sent. -/
theorem qtm_condition {modType : Conditional.PC → Option Conditional.ModType} {q q' : Conditional.AcqInfo}
    {s s' : Conditional.St} {less : Bool} {t : Nat}
    (h : Conditional.updateAcq modType q s = .ok (q', s')) (hp : q.proto = .trigCount (some less) t)
    (hm : modType (q.port, q.clock) = some .qtm) :
    ∃ invert count, (s'.get q.label).1.invert = some invert ∧ (s'.get q.label).1.count = some count ∧
      ¬Plays invert count 0 ∧ Plays invert count 1 := by
  unfold Conditional.updateAcq at h
  rw [hp] at h
  simp only [hm] at h
  split at h
  · simp at h
  rename_i s2 hs
  simp only [Except.ok.injEq, Prod.mk.injEq] at h
  obtain ⟨-, rfl⟩ := h
  unfold Conditional.St.settings at hs
  simp only at hs
  split at hs
  · simp at hs
  split at hs
  · simp at hs
  simp only [Except.ok.injEq] at hs
  subst hs
  refine ⟨false, 1, ?_, ?_, by simp [Plays], by simp [Plays]⟩
  · simp [Conditional.St.get, Conditional.St.put, Dict.get?_set_self]
  · simp [Conditional.St.get, Conditional.St.put, Dict.get?_set_self]

theorem readLoop : ∀ (rs : List Read) (d : List (Nat × (Bool × Nat))),
    (∀ d', rs.foldlM readStep d = .ok d' → ∀ k v, Dict.get? d' k = some v ↔
      Dict.get? d k = some v ∨ ∃ r ∈ rs, r.address = k ∧ (r.invert, r.count) = v) ∧
    ((∃ d', rs.foldlM readStep d = .ok d') ↔ ∀ r ∈ rs,
      (∀ v, Dict.get? d r.address = some v → v = (r.invert, r.count)) ∧
      ∀ r' ∈ rs, r'.address = r.address → (r'.invert, r'.count) = (r.invert, r.count))
  | [], d => by
    refine ⟨fun d' h k v => ?_, ⟨fun _ => by simp, fun _ => ⟨d, rfl⟩⟩⟩
    simp only [FoldM.nil, Except.ok.injEq] at h
    subst h; simp
  | r :: rs, d => by
    obtain ⟨ih1, ih2⟩ := readLoop rs (Dict.set d r.address (r.invert, r.count))
    have hstep : ∀ s1, readStep d r = .ok s1 ↔
        (∀ v, Dict.get? d r.address = some v → v = (r.invert, r.count)) ∧
        s1 = Dict.set d r.address (r.invert, r.count) := by
      intro s1
      unfold readStep
      cases hg : Dict.get? d r.address with
      | none => simp [eq_comm]
      | some x =>
        by_cases hx : x = (r.invert, r.count)
        · simp [hx, eq_comm]
        · simp only [ne_eq, hx, not_false_eq_true, if_true, reduceCtorEq, Option.some.injEq, false_iff,
            not_and]
          intro h; exact absurd (h x rfl) hx
    refine ⟨fun d' h k v => ?_, ?_⟩
    · obtain ⟨s1, h1, h2⟩ := (FoldM.ok_cons ..).mp h
      obtain ⟨hv, rfl⟩ := (hstep s1).mp h1
      rw [ih1 d' h2 k v, Dict.get?_set]
      by_cases hk : k = r.address
      · subst hk
        rw [if_pos rfl]
        simp only [Option.some.injEq, List.mem_cons, exists_eq_or_imp, true_and]
        constructor
        · rintro (h | h)
          · exact Or.inr (Or.inl h)
          · exact Or.inr (Or.inr h)
        · rintro (h | h | h)
          · exact Or.inl (hv v h).symm
          · exact Or.inl h
          · exact Or.inr h
      · rw [if_neg hk]
        simp only [List.mem_cons, exists_eq_or_imp]
        have : ¬(r.address = k ∧ (r.invert, r.count) = v) := fun h => hk h.1.symm
        simp only [this, false_or]
    · constructor
      · rintro ⟨d', h⟩
        obtain ⟨s1, h1, h2⟩ := (FoldM.ok_cons ..).mp h
        obtain ⟨hv, rfl⟩ := (hstep s1).mp h1
        have hall := ih2.mp ⟨d', h2⟩
        have key : ∀ r' ∈ rs, r'.address = r.address → (r'.invert, r'.count) = (r.invert, r.count) := by
          intro r' hr' ha
          have := (hall r' hr').1 (r.invert, r.count)
          rw [ha, Dict.get?_set_self] at this
          exact (this rfl).symm
        intro x hx0
        rcases List.mem_cons.mp hx0 with hxr | hx
        · rw [hxr]
          refine ⟨hv, fun y hy0 ha => ?_⟩
          rcases List.mem_cons.mp hy0 with hyr | hy
          · rw [hyr]
          · exact key y hy ha
        · refine ⟨fun v hg => ?_, fun y hy0 ha => ?_⟩
          · by_cases hk : x.address = r.address
            · rw [hk] at hg; rw [hv v hg, key x hx hk]
            · exact (hall x hx).1 v (by rw [Dict.get?_set_ne _ _ hk]; exact hg)
          · rcases List.mem_cons.mp hy0 with hyr | hy
            · rw [hyr] at ha ⊢; exact (key x hx ha.symm).symm
            · exact (hall x hx).2 y hy ha
      · intro h
        obtain ⟨hv, hr⟩ := h r (List.mem_cons_self ..)
        obtain ⟨d', hd'⟩ := ih2.mpr (by
          intro x hx
          obtain ⟨h1, h2⟩ := h x (List.mem_cons_of_mem _ hx)
          refine ⟨fun v hg => ?_, fun r' hr' => h2 r' (List.mem_cons_of_mem _ hr')⟩
          by_cases hk : x.address = r.address
          · rw [hk, Dict.get?_set_self] at hg
            cases hg
            exact (hr x (List.mem_cons_of_mem _ hx) hk).symm
          · rw [Dict.get?_set_ne _ _ hk] at hg; exact h1 v hg)
        exact ⟨d', (FoldM.ok_cons ..).mpr ⟨_, (hstep _).mpr ⟨hv, rfl⟩, hd'⟩⟩

/-- **C57.** A sequencer reads precisely the addresses of its conditional parts, with their settings;
these are accepted exactly if parts with the same address have the same settings. -/
theorem reads_exact (rs : List Read) :
    (∀ d, readSettings rs = .ok d → ∀ a i c, Dict.get? d a = some (i, c) ↔ (⟨a, i, c⟩ : Read) ∈ rs) ∧
    ((∃ d, readSettings rs = .ok d) ↔ ∀ r ∈ rs, ∀ r' ∈ rs, r'.address = r.address → r' = r) := by
  obtain ⟨h1, h2⟩ := readLoop rs []
  simp only [Dict.get?_nil, reduceCtorEq, false_or, false_imp_iff, implies_true, true_and] at h1 h2
  refine ⟨fun d h a i c => ?_, ?_⟩
  · rw [h1 d h]
    constructor
    · rintro ⟨⟨a', i', c'⟩, hr, rfl, he⟩; cases he; exact hr
    · intro h; exact ⟨_, h, rfl, rfl⟩
  · show (∃ d', rs.foldlM readStep [] = .ok d') ↔ _
    rw [h2]
    refine forall_congr' fun r => imp_congr_right fun _ => forall_congr' fun r' => imp_congr_right fun _ => ?_
    constructor
    · intro h ha
      have := h ha
      cases r; cases r'; simp_all
    · rintro h ha; rw [h ha]

/-! ### Scope acquisitions -/

/-- **C57.** Traces on a module are accepted exactly if at most one sequencer takes some. -/
theorem single_scope (seqs : List (Nat × List Acq)) (hn : (seqs.map Prod.fst).Nodup) :
    (∃ r, singleScope seqs = .ok r) ↔ ∀ e ∈ seqs, ∀ e' ∈ seqs, (∃ a ∈ e.2, a.proto = .trace) →
      (∃ a ∈ e'.2, a.proto = .trace) → e.1 = e'.1 := by
  have hany : ∀ e : Nat × List Acq, e.2.any (fun a => decide (a.proto = .trace)) = true ↔
      ∃ a ∈ e.2, a.proto = .trace := by intro e; simp
  have key : ∀ (l : List (Nat × List Acq)) (f : Option Nat), (l.map Prod.fst).Nodup →
      ((∃ r, l.foldlM scopeStep f = .ok r) ↔
        (f.isSome → ∀ e ∈ l, ¬∃ a ∈ e.2, a.proto = .trace) ∧
        ∀ e ∈ l, ∀ e' ∈ l, (∃ a ∈ e.2, a.proto = .trace) → (∃ a ∈ e'.2, a.proto = .trace) → e.1 = e'.1) := by
    intro l
    induction l with
    | nil => intro f _; exact ⟨fun _ => by simp, fun _ => ⟨f, rfl⟩⟩
    | cons x l ih =>
      intro f hn
      simp only [List.map_cons, List.nodup_cons] at hn
      by_cases hx : x.2.any (fun a => decide (a.proto = .trace)) = true
      · have hx' := (hany x).mp hx
        cases f with
        | some i =>
          have : scopeStep (some i) x = .error .valueError := by simp only [scopeStep, if_pos hx]
          rw [FoldM.error_cons _ _ _ _ _ this]
          simp only [reduceCtorEq, exists_false, Option.isSome_some, true_imp_iff, false_iff, not_and]
          intro h; exact absurd hx' (h x (List.mem_cons_self ..))
        | none =>
          have : scopeStep none x = .ok (some x.1) := by simp only [scopeStep, if_pos hx]
          rw [FoldM.next _ _ _ _ _ this, ih _ hn.2]
          simp only [Option.isSome_some, true_imp_iff, Option.isSome_none, Bool.false_eq_true, false_imp_iff,
            true_and]
          constructor
          · rintro ⟨h1, h2⟩ e he e' he' hte hte'
            rcases List.mem_cons.mp he with rfl | he
            · rcases List.mem_cons.mp he' with rfl | he'
              · rfl
              · exact absurd hte' (h1 e' he')
            · exact absurd hte (h1 e he)
          · intro h
            refine ⟨fun e he hte => ?_, fun e he e' he' => h e (List.mem_cons_of_mem _ he) e' (List.mem_cons_of_mem _ he')⟩
            have := h x (List.mem_cons_self ..) e (List.mem_cons_of_mem _ he) hx' hte
            exact hn.1 (this ▸ List.mem_map_of_mem he)
      · have hx' : ¬∃ a ∈ x.2, a.proto = .trace := fun h => hx ((hany x).mpr h)
        have : scopeStep f x = .ok f := by simp only [scopeStep, if_neg hx]
        rw [FoldM.next _ _ _ _ _ this, ih _ hn.2]
        refine and_congr (imp_congr_right fun _ => ?_) ?_
        · simp only [List.forall_mem_cons, hx', not_false_eq_true, true_and]
        · constructor
          · intro h e he e' he' hte hte'
            rcases List.mem_cons.mp he with rfl | he
            · exact absurd hte hx'
            · rcases List.mem_cons.mp he' with rfl | he'
              · exact absurd hte' hx'
              · exact h e he e' he' hte hte'
          · intro h e he e' he'
            exact h e (List.mem_cons_of_mem _ he) e' (List.mem_cons_of_mem _ he')
  have := key seqs none hn
  simpa [singleScope] using this

/-! ### Reference channels -/

/-- **C57.** The channel of a reference port is that of every port-clock of the port on the module, and
there is one. -/
theorem ref_channel {π : Type} [DecidableEq π] (pcs : List (String × String)) (path : String × String → π)
    (port : String) (c : π) :
    refChannel pcs path port = .ok c ↔
      (∃ pc ∈ pcs, pc.1 = port) ∧ ∀ pc ∈ pcs, pc.1 = port → path pc = c := by
  have hmem : ∀ pc, pc ∈ pcs.filter (fun pc => decide (pc.1 = port)) ↔ pc ∈ pcs ∧ pc.1 = port := by
    intro pc; simp [List.mem_filter]
  unfold refChannel
  cases hf : pcs.filter (fun pc => decide (pc.1 = port)) with
  | nil =>
    simp only [reduceCtorEq, false_iff, not_and]
    rintro ⟨pc, h1, h2⟩
    have := (hmem pc).mpr ⟨h1, h2⟩
    rw [hf] at this; simp at this
  | cons pc l =>
    rw [hf] at hmem
    obtain ⟨m1, m2⟩ := (hmem pc).mp (List.mem_cons_self ..)
    simp only
    by_cases h : l.all (fun pc' => decide (path pc' = path pc)) = true
    · rw [if_pos h]
      simp only [List.all_eq_true, decide_eq_true_eq] at h
      simp only [Except.ok.injEq]
      constructor
      · rintro rfl
        refine ⟨⟨pc, m1, m2⟩, fun pc' h1 h2 => ?_⟩
        rcases List.mem_cons.mp ((hmem pc').mpr ⟨h1, h2⟩) with rfl | h3
        · rfl
        · exact h pc' h3
      · rintro ⟨-, hall⟩; exact hall pc m1 m2
    · rw [if_neg h]
      simp only [reduceCtorEq, false_iff, not_and]
      rintro - hall
      apply h
      simp only [List.all_eq_true, decide_eq_true_eq]
      intro pc' hp
      obtain ⟨a1, a2⟩ := (hmem pc').mp (List.mem_cons_of_mem _ hp)
      rw [hall pc' a1 a2, hall pc m1 m2]

end Verif.AcqSet
