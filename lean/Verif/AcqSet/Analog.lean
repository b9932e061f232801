/-
C57: sequencers of analog modules.
-/
import Verif.AcqSet.Props

set_option linter.unusedSimpArgs false
set_option linter.unusedVariables false

namespace Verif.AcqSet

open Verif.AcqSet.Spec
open Verif.Numeric (pyRound)

theorem analog_eq {inputs : List Nat} {acqs : List Acq} (hne : acqs ≠ []) {s : Analog} :
    analog inputs acqs = .ok s ↔ ∃ s1 s2 s3 l, ttlSettings inputs acqs .init = .ok s1 ∧
      triggerSettings acqs s1 = .ok s2 ∧ thresholdSettings acqs s2 = .ok s3 ∧
      integrationLength acqs = .ok l ∧ s = { s3 with length := l } := by
  cases acqs with
  | nil => exact absurd rfl hne
  | cons a acqs =>
    simp only [analog]
    constructor
    · intro h
      split at h
      · simp at h
      rename_i s1 h1
      split at h
      · simp at h
      rename_i s2 h2
      split at h
      · simp at h
      rename_i s3 h3
      split at h
      · simp at h
      rename_i l hl
      simp only [Except.ok.injEq] at h
      exact ⟨s1, s2, s3, l, h1, h2, h3, hl, h.symm⟩
    · rintro ⟨s1, s2, s3, l, h1, h2, h3, hl, rfl⟩
      simp only [h1, h2, h3, hl]

theorem thresholdSettings_ok {acqs : List Acq} {s s' : Analog} :
    thresholdSettings acqs s = .ok s' ↔
      ((∃ a ∈ acqs, Discriminated a.proto) →
        ∃ r t a, (acqs.filter fun a => a.disc.isSome).head? = some a ∧
          (∀ b ∈ acqs, ∀ p, b.disc = some p → p = (r, t)) ∧
          0 ≤ r ∧ r ≤ 360 ∧ -16777212 ≤ t ∧ t ≤ 16777212 ∧
          s' = { s with rotation := some r, threshold := some (t * (a.duration * 1000000000)) }) ∧
      ((∀ a ∈ acqs, ¬Discriminated a.proto) → s' = s ∧
        ∀ a ∈ acqs, a.proto = .thresholdedTrigCount → ∃ c, a.count = some c ∧
          ∀ b ∈ acqs, b.proto = .thresholdedTrigCount → b.channel = a.channel → b.count = some c) := by
  have hany : acqs.any (fun a => decide (a.proto = .thresholded ∨ a.proto = .weightedThresholded)) = true ↔
      ∃ a ∈ acqs, Discriminated a.proto := by
    simp only [List.any_eq_true, decide_eq_true_eq, Discriminated]
  unfold thresholdSettings
  by_cases h : acqs.any (fun a => decide (a.proto = .thresholded ∨ a.proto = .weightedThresholded)) = true
  · rw [if_pos h]
    have hd := hany.mp h
    have hnd : ¬∀ a ∈ acqs, ¬Discriminated a.proto := by
      intro h; obtain ⟨a, ha, hc⟩ := hd; exact h a ha hc
    simp only [hd, true_imp_iff, hnd, false_imp_iff, and_true]
    rw [discSettings_ok (fun a ha => (List.mem_filter.mp ha).2)]
    refine exists_congr fun r => exists_congr fun t => exists_congr fun a => and_congr_right fun _ =>
      and_congr_left fun _ => ?_
    constructor
    · intro h b hb p hp
      have := h b (List.mem_filter.mpr ⟨hb, by rw [hp]; rfl⟩)
      rw [hp] at this; exact Option.some.inj this
    · intro h b hb
      obtain ⟨hb, hs⟩ := List.mem_filter.mp hb
      obtain ⟨p, hp⟩ := Option.isSome_iff_exists.mp hs
      rw [hp, h b hb p hp]
  · rw [if_neg h]
    have hd : ∀ a ∈ acqs, ¬Discriminated a.proto := fun a ha hx => h (hany.mpr ⟨a, ha, hx⟩)
    have hne : ¬∃ a ∈ acqs, Discriminated a.proto := fun ⟨a, ha, hx⟩ => hd a ha hx
    have hd' : (∀ a ∈ acqs, ¬Discriminated a.proto) ↔ True := iff_true_intro hd
    simp only [hne, false_imp_iff, true_and, hd', true_imp_iff]
    have hv := validateCounts_ok acqs
    by_cases h2 : acqs.any (fun a => decide (a.proto = .thresholdedTrigCount)) = true
    · rw [if_pos h2]
      rw [← hv]
      cases hc : validateCounts acqs with
      | error e => simp
      | ok u => simp [eq_comm]
    · rw [if_neg h2]
      simp only [Except.ok.injEq]
      constructor
      · rintro rfl
        refine ⟨rfl, fun a ha hp => absurd ?_ h2⟩
        simp only [List.any_eq_true, decide_eq_true_eq]
        exact ⟨a, ha, hp⟩
      · rintro ⟨h, -⟩; exact h.symm

/-- **C57.** The settings of a sequencer of an analog module fit all of its acquisitions. -/
theorem analog_sound {inputs : List Nat} {acqs : List Acq} {s : Analog}
    (h : analog inputs acqs = .ok s) :
    -- the integration length is that of all acquisitions that integrate
    (∀ a ∈ acqs, Integrating a.proto → ∃ n, Nearest a.duration n ∧ n % 4 = 0 ∧ s.length = some n) ∧
    -- rotation and threshold are those of all acquisitions that have one
    (∀ a ∈ acqs, Discriminated a.proto → ∃ r t, (∀ b ∈ acqs, ∀ p, b.disc = some p → p = (r, t)) ∧
      s.rotation = some r ∧ 0 ≤ r ∧ r ≤ 360 ∧
      ∃ b ∈ acqs, b.disc = some (r, t) ∧ s.threshold = some (t * (b.duration * 1000000000))) ∧
    -- triggers are sent to the address of all acquisitions that have one, and only if there is one
    (∀ a ∈ acqs, Sending a.proto →
      (∀ b ∈ acqs, ∀ x, b.address = some x → s.trigEn = some true ∧ s.trigAddr = some x) ∧
      ((∀ b ∈ acqs, b.address = none) → s.trigEn = some false ∧ s.trigAddr = none)) ∧
    -- triggers are counted at the only input, in consecutive bins exactly for distributions
    (∀ a ∈ acqs, Counting a.proto → ∃ i, inputs = [i] ∧ s.input = some i ∧
      ((∃ b ∈ acqs, Counting b.proto ∧ b.bin = .distribution) → s.autoBin = some true) ∧
      ((∀ b ∈ acqs, Counting b.proto → b.bin ≠ .distribution) → s.autoBin = some false)) := by
  by_cases hne : acqs = []
  · subst hne; simp
  obtain ⟨s1, s2, s3, l, h1, h2, h3, hl, rfl⟩ := (analog_eq hne).mp h
  obtain ⟨t1, t2, t3⟩ := ttlSettings_ok.mp h1
  obtain ⟨g1, g2⟩ := triggerSettings_ok.mp h2
  obtain ⟨d1, d2⟩ := thresholdSettings_ok.mp h3
  obtain ⟨l1, l2⟩ := (integration_length acqs l).mp hl
  -- what later steps keep
  have k3 : s3.trigEn = s2.trigEn ∧ s3.trigAddr = s2.trigAddr ∧ s3.input = s2.input ∧ s3.autoBin = s2.autoBin := by
    by_cases hd : ∃ a ∈ acqs, Discriminated a.proto
    · obtain ⟨r, t, a, -, -, -, -, -, -, rfl⟩ := d1 hd; exact ⟨rfl, rfl, rfl, rfl⟩
    · rw [(d2 fun a ha hx => hd ⟨a, ha, hx⟩).1]; exact ⟨rfl, rfl, rfl, rfl⟩
  have k2 : s2.input = s1.input ∧ s2.autoBin = s1.autoBin := by
    by_cases hd : ∃ a ∈ acqs, Sending a.proto
    · by_cases hx : ∃ a ∈ acqs, ∃ x, a.address = some x
      · obtain ⟨a, ha, x, hx⟩ := hx
        rw [(g1 hd).1 a ha x hx]; exact ⟨rfl, rfl⟩
      · rw [(g1 hd).2 fun a ha => by
          cases hxa : a.address with
          | none => rfl
          | some x => exact absurd ⟨a, ha, x, hxa⟩ hx]
        exact ⟨rfl, rfl⟩
    · rw [g2 fun a ha hx => hd ⟨a, ha, hx⟩]; exact ⟨rfl, rfl⟩
  refine ⟨l1, fun a ha hd => ?_, fun a ha hs => ?_, fun a ha hc => ?_⟩
  · obtain ⟨r, t, b, hb, hall, hr0, hr1, -, -, he⟩ := d1 ⟨a, ha, hd⟩
    have hb' := List.mem_of_head? hb
    obtain ⟨hbm, hbs⟩ := List.mem_filter.mp hb'
    obtain ⟨p, hp⟩ := Option.isSome_iff_exists.mp hbs
    refine ⟨r, t, hall, ?_, hr0, hr1, b, hbm, ?_, ?_⟩
    · simp only [he]
    · rw [hp, hall b hbm p hp]
    · simp only [he]
  · obtain ⟨e1, e2⟩ := g1 ⟨a, ha, hs⟩
    refine ⟨fun b hb x hx => ?_, fun hno => ?_⟩
    · have := e1 b hb x hx
      simp only [k3.1, k3.2.1, this, and_self]
    · have := e2 hno
      simp only [k3.1, k3.2.1, this, and_self]
  · obtain ⟨i, b, hi, he, hb⟩ := t2 ⟨a, ha, hc⟩
    refine ⟨i, hi, ?_, fun hx => ?_, fun hx => ?_⟩
    · simp only [k3.2.2.1, k2.1, he]
    · simp only [k3.2.2.2, k2.2, he, hb.mpr hx]
    · have : b = false := by
        cases b with
        | false => rfl
        | true => obtain ⟨x, hxm, hxc, hxd⟩ := hb.mp rfl; exact absurd hxd (hx x hxm hxc)
      simp only [k3.2.2.2, k2.2, he, this]

/-- **C57.** Settings that no acquisition asks for are not changed. -/
theorem analog_left {inputs : List Nat} {acqs : List Acq} {s : Analog}
    (h : analog inputs acqs = .ok s) :
    ((∀ a ∈ acqs, ¬Integrating a.proto) → s.length = none) ∧
    ((∀ a ∈ acqs, ¬Discriminated a.proto) → s.rotation = none ∧ s.threshold = none) ∧
    ((∀ a ∈ acqs, ¬Sending a.proto) → s.trigEn = none ∧ s.trigAddr = none) ∧
    ((∀ a ∈ acqs, ¬Counting a.proto) → s.input = none ∧ s.autoBin = none) := by
  by_cases hne : acqs = []
  · subst hne
    simp only [analog, Except.ok.injEq] at h
    subst h; simp [Analog.init]
  obtain ⟨s1, s2, s3, l, h1, h2, h3, hl, rfl⟩ := (analog_eq hne).mp h
  obtain ⟨t1, t2, t3⟩ := ttlSettings_ok.mp h1
  obtain ⟨g1, g2⟩ := triggerSettings_ok.mp h2
  obtain ⟨d1, d2⟩ := thresholdSettings_ok.mp h3
  obtain ⟨l1, l2⟩ := (integration_length acqs l).mp hl
  have k1 : s1.rotation = none ∧ s1.threshold = none ∧ s1.trigEn = none ∧ s1.trigAddr = none := by
    by_cases hd : ∃ a ∈ acqs, Counting a.proto
    · obtain ⟨i, b, -, rfl, -⟩ := t2 hd; exact ⟨rfl, rfl, rfl, rfl⟩
    · rw [t3 fun a ha hx => hd ⟨a, ha, hx⟩]; exact ⟨rfl, rfl, rfl, rfl⟩
  have k2 : s2.input = s1.input ∧ s2.autoBin = s1.autoBin ∧ s2.rotation = s1.rotation ∧
      s2.threshold = s1.threshold := by
    by_cases hd : ∃ a ∈ acqs, Sending a.proto
    · by_cases hx : ∃ a ∈ acqs, ∃ x, a.address = some x
      · obtain ⟨a, ha, x, hx⟩ := hx
        rw [(g1 hd).1 a ha x hx]; exact ⟨rfl, rfl, rfl, rfl⟩
      · rw [(g1 hd).2 fun a ha => by
          cases hxa : a.address with
          | none => rfl
          | some x => exact absurd ⟨a, ha, x, hxa⟩ hx]
        exact ⟨rfl, rfl, rfl, rfl⟩
    · rw [g2 fun a ha hx => hd ⟨a, ha, hx⟩]; exact ⟨rfl, rfl, rfl, rfl⟩
  have k3 : s3.trigEn = s2.trigEn ∧ s3.trigAddr = s2.trigAddr ∧ s3.input = s2.input ∧ s3.autoBin = s2.autoBin := by
    by_cases hd : ∃ a ∈ acqs, Discriminated a.proto
    · obtain ⟨r, t, a, -, -, -, -, -, -, rfl⟩ := d1 hd; exact ⟨rfl, rfl, rfl, rfl⟩
    · rw [(d2 fun a ha hx => hd ⟨a, ha, hx⟩).1]; exact ⟨rfl, rfl, rfl, rfl⟩
  refine ⟨l2, fun hd => ?_, fun hs => ?_, fun hc => ?_⟩
  · rw [(d2 hd).1]
    exact ⟨k2.2.2.1.trans k1.1, k2.2.2.2.trans k1.2.1⟩
  · have := g2 hs
    subst this
    exact ⟨k3.1.trans k1.2.2.1, k3.2.1.trans k1.2.2.2⟩
  · have := t3 hc
    subst this
    exact ⟨k3.2.2.1.trans k2.1, k3.2.2.2.trans k2.2.1⟩

/-- **C57.** When acquisitions are accepted on a sequencer of an analog module. -/
theorem analog_accepts (inputs : List Nat) (acqs : List Acq) :
    (∃ s, analog inputs acqs = .ok s) ↔
      ((∃ a ∈ acqs, Counting a.proto) → ∃ i, inputs = [i]) ∧
      (∀ a ∈ acqs, ∀ b ∈ acqs, a.proto = .trigCount → b.proto = .trigCount → a.bin = .distribution →
        b.bin = .distribution) ∧
      ((∃ a ∈ acqs, Sending a.proto) → ∀ a ∈ acqs, ∀ b ∈ acqs, ∀ x y, a.address = some x →
        b.address = some y → x = y) ∧
      ((∃ a ∈ acqs, Discriminated a.proto) → ∃ r t, (∃ a ∈ acqs, a.disc.isSome) ∧
        (∀ b ∈ acqs, ∀ p, b.disc = some p → p = (r, t)) ∧
        0 ≤ r ∧ r ≤ 360 ∧ -16777212 ≤ t ∧ t ≤ 16777212) ∧
      ((∀ a ∈ acqs, ¬Discriminated a.proto) →
        ∀ a ∈ acqs, a.proto = .thresholdedTrigCount → ∃ c, a.count = some c ∧
          ∀ b ∈ acqs, b.proto = .thresholdedTrigCount → b.channel = a.channel → b.count = some c) ∧
      (∃ n : Int, ∀ a ∈ acqs, Integrating a.proto → Nearest a.duration n ∧ n % 4 = 0) := by
  by_cases hne : acqs = []
  · subst hne; simp [analog]
  have hadr : ∀ s1 : Analog, (∃ s2, triggerSettings acqs s1 = .ok s2) ↔
      ((∃ a ∈ acqs, Sending a.proto) → ∀ a ∈ acqs, ∀ b ∈ acqs, ∀ x y, a.address = some x →
        b.address = some y → x = y) := by
    intro s1
    constructor
    · rintro ⟨s2, h⟩ hs a ha b hb x y hx hy
      obtain ⟨g1, -⟩ := triggerSettings_ok.mp h
      have e1 := (g1 hs).1 a ha x hx
      have e2 := (g1 hs).1 b hb y hy
      rw [e1] at e2
      simp only [Analog.mk.injEq, Option.some.injEq] at e2
      exact e2.2.2.2.1
    · intro h
      by_cases hs : ∃ a ∈ acqs, Sending a.proto
      · by_cases hx : ∃ a ∈ acqs, ∃ x, a.address = some x
        · obtain ⟨a, ha, x, hx⟩ := hx
          refine ⟨{ s1 with trigEn := some true, trigAddr := some x }, triggerSettings_ok.mpr
            ⟨fun _ => ⟨fun b hb y hy => ?_, fun hno => ?_⟩, fun hns => ?_⟩⟩
          · rw [h hs a ha b hb x y hx hy]
          · rw [hno a ha] at hx; simp at hx
          · obtain ⟨b, hb, hs⟩ := hs; exact absurd hs (hns b hb)
        · refine ⟨{ s1 with trigEn := some false, trigAddr := none }, triggerSettings_ok.mpr
            ⟨fun _ => ⟨fun b hb y hy => absurd ⟨b, hb, y, hy⟩ hx, fun _ => rfl⟩, fun hns => ?_⟩⟩
          obtain ⟨b, hb, hs⟩ := hs; exact absurd hs (hns b hb)
      · exact ⟨s1, triggerSettings_ok.mpr ⟨fun h => absurd h hs, fun _ => rfl⟩⟩
  have httl : (∃ s1, ttlSettings inputs acqs .init = .ok s1) ↔
      (∀ a ∈ acqs, ∀ b ∈ acqs, a.proto = .trigCount → b.proto = .trigCount → a.bin = .distribution →
        b.bin = .distribution) ∧ ((∃ a ∈ acqs, Counting a.proto) → ∃ i, inputs = [i]) := by
    constructor
    · rintro ⟨s1, h⟩
      obtain ⟨t1, t2, -⟩ := ttlSettings_ok.mp h
      exact ⟨t1, fun hc => by obtain ⟨i, b, hi, -⟩ := t2 hc; exact ⟨i, hi⟩⟩
    · rintro ⟨h1, h2⟩
      by_cases hc : ∃ a ∈ acqs, Counting a.proto
      · obtain ⟨i, hi⟩ := h2 hc
        by_cases hd : ∃ a ∈ acqs, Counting a.proto ∧ a.bin = .distribution
        · refine ⟨{ Analog.init with autoBin := some true, input := some i }, ttlSettings_ok.mpr
            ⟨h1, fun _ => ⟨i, true, hi, rfl, by simp [hd]⟩, fun hn => ?_⟩⟩
          obtain ⟨a, ha, hc⟩ := hc; exact absurd hc (hn a ha)
        · refine ⟨{ Analog.init with autoBin := some false, input := some i }, ttlSettings_ok.mpr
            ⟨h1, fun _ => ⟨i, false, hi, rfl, by simp [hd]⟩, fun hn => ?_⟩⟩
          obtain ⟨a, ha, hc⟩ := hc; exact absurd hc (hn a ha)
      · exact ⟨.init, ttlSettings_ok.mpr ⟨h1, fun h => absurd h hc, fun _ => rfl⟩⟩
  have hthr : ∀ s2 : Analog, (∃ s3, thresholdSettings acqs s2 = .ok s3) ↔
      ((∃ a ∈ acqs, Discriminated a.proto) → ∃ r t, (∃ a ∈ acqs, a.disc.isSome) ∧
        (∀ b ∈ acqs, ∀ p, b.disc = some p → p = (r, t)) ∧
        0 ≤ r ∧ r ≤ 360 ∧ -16777212 ≤ t ∧ t ≤ 16777212) ∧
      ((∀ a ∈ acqs, ¬Discriminated a.proto) →
        ∀ a ∈ acqs, a.proto = .thresholdedTrigCount → ∃ c, a.count = some c ∧
          ∀ b ∈ acqs, b.proto = .thresholdedTrigCount → b.channel = a.channel → b.count = some c) := by
    intro s2
    constructor
    · rintro ⟨s3, h⟩
      obtain ⟨d1, d2⟩ := thresholdSettings_ok.mp h
      refine ⟨fun hd => ?_, fun hd => (d2 hd).2⟩
      obtain ⟨r, t, a, ha, hall, b1, b2, b3, b4, -⟩ := d1 hd
      obtain ⟨hm, hs⟩ := List.mem_filter.mp (List.mem_of_head? ha)
      exact ⟨r, t, ⟨a, hm, hs⟩, hall, b1, b2, b3, b4⟩
    · rintro ⟨h1, h2⟩
      by_cases hd : ∃ a ∈ acqs, Discriminated a.proto
      · obtain ⟨r, t, ⟨a, ha, hs⟩, hall, b1, b2, b3, b4⟩ := h1 hd
        have hne : acqs.filter (fun a => a.disc.isSome) ≠ [] :=
          List.ne_nil_of_mem (List.mem_filter.mpr ⟨ha, hs⟩)
        obtain ⟨x, hx⟩ : ∃ x, (acqs.filter fun a => a.disc.isSome).head? = some x := by
          cases hh : acqs.filter (fun a => a.disc.isSome) with
          | nil => exact absurd hh hne
          | cons x l => exact ⟨x, rfl⟩
        exact ⟨_, thresholdSettings_ok.mpr ⟨fun _ => ⟨r, t, x, hx, hall, b1, b2, b3, b4, rfl⟩,
          fun hn => by obtain ⟨y, hy, hyd⟩ := hd; exact absurd hyd (hn y hy)⟩⟩
      · have hd' : ∀ a ∈ acqs, ¬Discriminated a.proto := fun a ha hx => hd ⟨a, ha, hx⟩
        exact ⟨s2, thresholdSettings_ok.mpr ⟨fun h => absurd h hd, fun _ => ⟨rfl, h2 hd'⟩⟩⟩
  have hlen : (∃ l, integrationLength acqs = .ok l) ↔
      ∃ n : Int, ∀ a ∈ acqs, Integrating a.proto → Nearest a.duration n ∧ n % 4 = 0 := by
    constructor
    · rintro ⟨l, h⟩
      obtain ⟨l1, -⟩ := (integration_length acqs l).mp h
      cases l with
      | none => exact ⟨0, fun a ha hi => by obtain ⟨n, -, -, hn⟩ := l1 a ha hi; simp at hn⟩
      | some n =>
        refine ⟨n, fun a ha hi => ?_⟩
        obtain ⟨m, h1, h2, h3⟩ := l1 a ha hi
        cases h3; exact ⟨h1, h2⟩
    · rintro ⟨n, h⟩
      by_cases hi : ∃ a ∈ acqs, Integrating a.proto
      · exact ⟨some n, (integration_length _ _).mpr ⟨fun a ha hx => ⟨n, (h a ha hx).1, (h a ha hx).2, rfl⟩,
          fun hn => by obtain ⟨a, ha, hx⟩ := hi; exact absurd hx (hn a ha)⟩⟩
      · exact ⟨none, (integration_length _ _).mpr ⟨fun a ha hx => absurd ⟨a, ha, hx⟩ hi, fun _ => rfl⟩⟩
  constructor
  · rintro ⟨s, h⟩
    obtain ⟨s1, s2, s3, l, h1, h2, h3, hl, -⟩ := (analog_eq hne).mp h
    obtain ⟨a1, a2⟩ := httl.mp ⟨s1, h1⟩
    obtain ⟨c1, c2⟩ := (hthr s2).mp ⟨s3, h3⟩
    exact ⟨a2, a1, (hadr s1).mp ⟨s2, h2⟩, c1, c2, hlen.mp ⟨l, hl⟩⟩
  · rintro ⟨a2, a1, a3, a4, a5, a6⟩
    obtain ⟨s1, h1⟩ := httl.mpr ⟨a1, a2⟩
    obtain ⟨s2, h2⟩ := (hadr s1).mpr a3
    obtain ⟨s3, h3⟩ := (hthr s2).mpr ⟨a4, a5⟩
    obtain ⟨l, hl⟩ := hlen.mpr a6
    exact ⟨_, (analog_eq hne).mpr ⟨s1, s2, s3, l, h1, h2, h3, hl, rfl⟩⟩

/-- **C57.** The threshold of the sequencer is for the sum over the integration length: a sum is above it
exactly if its mean is above the threshold of the acquisition. -/
theorem threshold_meaning {inputs : List Nat} {acqs : List Acq} {s : Analog}
    (h : analog inputs acqs = .ok s) {a : Acq} (ha : a ∈ acqs) (hd : Discriminated a.proto) {r t : Rat}
    (ht : a.disc = some (r, t)) (hi : ∀ b ∈ acqs, b.disc.isSome → Integrating b.proto)
    (hw : ∀ b ∈ acqs, Integrating b.proto → ∃ n : Int, Exactly b.duration n) (hpos : 0 < a.duration) :
    ∃ (n : Int) (th : Rat), Exactly a.duration n ∧ s.length = some n ∧ s.rotation = some r ∧
      s.threshold = some th ∧ ∀ sum : Rat, th ≤ sum ↔ t ≤ sum / n := by
  obtain ⟨l1, d1, -, -⟩ := analog_sound h
  have hint : Integrating a.proto := hi a ha (by rw [ht]; rfl)
  have near : ∀ b : Acq, ∀ n m : Int, Exactly b.duration n → Nearest b.duration m → m = n := by
    intro b n m h1 h2
    rw [h2, h1, Numeric.pyRound_int]
  obtain ⟨n, hn⟩ := hw a ha hint
  obtain ⟨m, hm1, -, hm3⟩ := l1 a ha hint
  have hmn := near a n m hn hm1
  subst hmn
  obtain ⟨r', t', hall, hr, -, -, b, hb, hbd, hth⟩ := d1 a ha hd
  have hrt := hall a ha _ ht
  cases hrt
  have hib := hi b hb (by rw [hbd]; rfl)
  obtain ⟨nb, hnb⟩ := hw b hb hib
  obtain ⟨mb, hmb1, -, hmb3⟩ := l1 b hb hib
  rw [hm3] at hmb3
  cases hmb3
  have := near b nb m hnb hmb1
  subst this
  have hnpos : (0 : Rat) < (m : Rat) := by
    have : a.duration * 1000000000 = (m : Rat) := hn
    rw [← this]
    exact mul_pos hpos (by norm_num)
  refine ⟨m, _, hn, hm3, hr, hth, fun sum => ?_⟩
  rw [show b.duration * 1000000000 = (m : Rat) from hnb, le_div_iff₀ hnpos]

end Verif.AcqSet
