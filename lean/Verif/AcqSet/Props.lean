/-
C57: the settings of a sequencer fit all of its acquisitions.
-/
import Verif.AcqSet.Spec
import Verif.Common.FoldM
import Verif.Numeric.Props

set_option linter.unusedSimpArgs false
set_option linter.unusedVariables false

namespace Verif.AcqSet

open Verif.AcqSet.Spec
open Verif.Numeric (pyRound)

/-! ### Unique values -/

theorem unique_iff {α : Type} [DecidableEq α] (vs : List α) (a : α) :
    unique vs = .ok a ↔ a ∈ vs ∧ ∀ x ∈ vs, x = a := by
  cases vs with
  | nil => simp [unique]
  | cons b l =>
    simp only [unique]
    by_cases h : l.all (fun x => decide (x = b)) = true
    · rw [if_pos h]
      simp only [List.all_eq_true, decide_eq_true_eq] at h
      simp only [Except.ok.injEq]
      constructor
      · rintro rfl
        exact ⟨List.mem_cons_self .., fun x hx => by
          rcases List.mem_cons.mp hx with rfl | hx
          · rfl
          · exact h x hx⟩
      · intro ⟨_, ha⟩; exact ha b (List.mem_cons_self ..)
    · rw [if_neg h]
      simp only [reduceCtorEq, false_iff, not_and]
      intro ha hall
      apply h
      simp only [List.all_eq_true, decide_eq_true_eq]
      intro x hx
      rw [hall x (List.mem_cons_of_mem _ hx), hall b (List.mem_cons_self ..)]

/-! ### Integration length -/

theorem integrates_iff (p : Proto) : integrates p = true ↔ Integrating p := by
  cases p <;> simp [integrates, Integrating]

theorem lengthStep_ok {l l' : Option Int} {a : Acq} :
    lengthStep l a = .ok l' ↔
      (¬Integrating a.proto ∧ l' = l) ∨
      (Integrating a.proto ∧ ∃ n, Nearest a.duration n ∧ n % 4 = 0 ∧ l' = some n ∧ ∀ m, l = some m → m = n) := by
  unfold lengthStep Nearest
  by_cases h : integrates a.proto = true
  · rw [if_pos h]
    have h' := (integrates_iff _).mp h
    simp only [h', not_true_eq_false, false_and, true_and, false_or, exists_eq_left]
    by_cases h4 : pyRound (a.duration * 1000000000) % 4 = 0
    · simp only [h4, ne_eq, not_true_eq_false, if_false]
      cases l with
      | none => simp [eq_comm]
      | some m =>
        by_cases hm : m = pyRound (a.duration * 1000000000)
        · subst hm; simp [eq_comm]
        · simp [hm]
    · simp [h4]
  · have h' : ¬Integrating a.proto := fun x => h ((integrates_iff _).mpr x)
    rw [if_neg h]
    simp [h', eq_comm]

theorem lengthLoop (acqs : List Acq) : ∀ (l r : Option Int), acqs.foldlM lengthStep l = .ok r ↔
    (∀ a ∈ acqs, Integrating a.proto → ∃ n, Nearest a.duration n ∧ n % 4 = 0 ∧ r = some n) ∧
    (∀ m, l = some m → r = some m) ∧
    (l = none → (∀ a ∈ acqs, ¬Integrating a.proto) → r = none) := by
  induction acqs with
  | nil =>
    intro l r
    simp only [FoldM.nil, Except.ok.injEq, List.not_mem_nil, false_imp_iff, implies_true, true_and]
    cases l <;> simp [eq_comm]
  | cons a acqs ih =>
    intro l r
    rw [FoldM.ok_cons]
    simp only [lengthStep_ok, List.forall_mem_cons]
    constructor
    · rintro ⟨l1, h1, h2⟩
      obtain ⟨i1, i2, i3⟩ := (ih l1 r).mp h2
      rcases h1 with ⟨ha, rfl⟩ | ⟨ha, n, hn, h4, rfl, hm⟩
      · exact ⟨⟨fun h => absurd h ha, i1⟩, i2, fun hl hn => i3 hl hn.2⟩
      · refine ⟨⟨fun _ => ⟨n, hn, h4, i2 n rfl⟩, i1⟩, fun m hl => ?_, fun hl hn => absurd ha hn.1⟩
        rw [hm m hl]; exact i2 n rfl
    · rintro ⟨⟨ha, hall⟩, hm, hnone⟩
      by_cases hi : Integrating a.proto
      · obtain ⟨n, hn, h4, hr⟩ := ha hi
        refine ⟨some n, Or.inr ⟨hi, n, hn, h4, rfl, fun m hl => ?_⟩, (ih _ _).mpr ⟨hall, ?_, by simp⟩⟩
        · have := hm m hl; rw [hr] at this; exact (Option.some.inj this).symm
        · intro m hl; cases hl; exact hr
      · exact ⟨l, Or.inl ⟨hi, rfl⟩, (ih _ _).mpr ⟨hall, hm, fun hl hn => hnone hl ⟨hi, hn⟩⟩⟩

/-- **C57.** The integration length is that of every acquisition that integrates, in nanoseconds, and a
multiple of four; it is found exactly if there is such a number. -/
theorem integration_length (acqs : List Acq) (r : Option Int) :
    integrationLength acqs = .ok r ↔
      (∀ a ∈ acqs, Integrating a.proto → ∃ n, Nearest a.duration n ∧ n % 4 = 0 ∧ r = some n) ∧
      ((∀ a ∈ acqs, ¬Integrating a.proto) → r = none) := by
  unfold integrationLength
  rw [lengthLoop]
  simp

/-! ### Trigger counts -/

theorem several_iff (bs : List Bin) : several bs = true ↔ ∃ a ∈ bs, ∃ b ∈ bs, a ≠ b := by
  cases bs with
  | nil => simp [several]
  | cons b l =>
    simp only [several, List.any_eq_true, decide_eq_true_eq]
    constructor
    · rintro ⟨x, hx, hn⟩; exact ⟨x, List.mem_cons_of_mem _ hx, b, List.mem_cons_self .., hn⟩
    · rintro ⟨x, hx, y, hy, hn⟩
      by_cases hxb : x = b
      · subst hxb
        rcases List.mem_cons.mp hy with rfl | hy
        · exact absurd rfl hn
        · exact ⟨y, hy, fun h => hn h.symm⟩
      · rcases List.mem_cons.mp hx with rfl | hx
        · exact absurd rfl hxb
        · exact ⟨x, hx, hxb⟩

theorem mem_modes {acqs : List Acq} {p : Proto} {b : Bin} :
    b ∈ modes acqs p ↔ ∃ a ∈ acqs, a.proto = p ∧ a.bin = b := by
  simp only [modes, List.mem_map, List.mem_filter, decide_eq_true_eq]
  constructor
  · rintro ⟨a, ⟨h1, h2⟩, h3⟩; exact ⟨a, h1, h2, h3⟩
  · rintro ⟨a, h1, h2, h3⟩; exact ⟨a, ⟨h1, h2⟩, h3⟩

theorem modes_ne {acqs : List Acq} {p : Proto} : modes acqs p ≠ [] ↔ ∃ a ∈ acqs, a.proto = p := by
  constructor
  · intro h
    obtain ⟨b, hb⟩ := List.exists_mem_of_ne_nil _ h
    obtain ⟨a, h1, h2, _⟩ := mem_modes.mp hb
    exact ⟨a, h1, h2⟩
  · rintro ⟨a, h1, h2⟩
    exact List.ne_nil_of_mem (mem_modes.mpr ⟨a, h1, h2, rfl⟩)

theorem ttlSettings_ok {inputs : List Nat} {acqs : List Acq} {s s' : Analog} :
    ttlSettings inputs acqs s = .ok s' ↔
      (∀ a ∈ acqs, ∀ b ∈ acqs, a.proto = .trigCount → b.proto = .trigCount → a.bin = .distribution →
        b.bin = .distribution) ∧
      ((∃ a ∈ acqs, Counting a.proto) → ∃ i b, inputs = [i] ∧ s' = { s with autoBin := some b, input := some i } ∧
        (b = true ↔ ∃ a ∈ acqs, Counting a.proto ∧ a.bin = .distribution)) ∧
      ((∀ a ∈ acqs, ¬Counting a.proto) → s' = s) := by
  have hcnt : (modes acqs .trigCount ≠ [] ∨ modes acqs .thresholdedTrigCount ≠ []) ↔
      ∃ a ∈ acqs, Counting a.proto := by
    rw [modes_ne, modes_ne]
    constructor
    · rintro (⟨a, h1, h2⟩ | ⟨a, h1, h2⟩)
      · exact ⟨a, h1, Or.inl h2⟩
      · exact ⟨a, h1, Or.inr h2⟩
    · rintro ⟨a, h1, h2 | h2⟩
      · exact Or.inl ⟨a, h1, h2⟩
      · exact Or.inr ⟨a, h1, h2⟩
  have hdist : (Bin.distribution ∈ modes acqs .trigCount ∨ Bin.distribution ∈ modes acqs .thresholdedTrigCount) ↔
      ∃ a ∈ acqs, Counting a.proto ∧ a.bin = .distribution := by
    rw [mem_modes, mem_modes]
    constructor
    · rintro (⟨a, h1, h2, h3⟩ | ⟨a, h1, h2, h3⟩)
      · exact ⟨a, h1, Or.inl h2, h3⟩
      · exact ⟨a, h1, Or.inr h2, h3⟩
    · rintro ⟨a, h1, h2 | h2, h3⟩
      · exact Or.inl ⟨a, h1, h2, h3⟩
      · exact Or.inr ⟨a, h1, h2, h3⟩
  have hbad : (Bin.distribution ∈ modes acqs .trigCount ∧ several (modes acqs .trigCount) = true) ↔
      ¬(∀ a ∈ acqs, ∀ b ∈ acqs, a.proto = .trigCount → b.proto = .trigCount → a.bin = .distribution →
        b.bin = .distribution) := by
    rw [several_iff]
    constructor
    · rintro ⟨hd, x, hx, y, hy, hn⟩ hall
      obtain ⟨a, ha, hap, hab⟩ := mem_modes.mp hd
      obtain ⟨c, hc, hcp, hcb⟩ := mem_modes.mp hx
      obtain ⟨e, he, hep, heb⟩ := mem_modes.mp hy
      have h1 := hall a ha c hc hap hcp hab
      have h2 := hall a ha e he hap hep hab
      exact hn (by rw [← hcb, ← heb, h1, h2])
    · intro h
      push Not at h
      obtain ⟨a, ha, b, hb, hap, hbp, hab, hbb⟩ := h
      exact ⟨mem_modes.mpr ⟨a, ha, hap, hab⟩, _, mem_modes.mpr ⟨a, ha, hap, rfl⟩, _,
        mem_modes.mpr ⟨b, hb, hbp, rfl⟩, by rw [hab]; exact fun h => hbb h.symm⟩
  unfold ttlSettings
  by_cases h1 : Bin.distribution ∈ modes acqs .trigCount ∧ several (modes acqs .trigCount) = true
  · rw [if_pos h1]
    have := hbad.mp h1
    simp only [reduceCtorEq, false_iff]
    exact fun h => this h.1
  · rw [if_neg h1]
    have hgood := not_not.mp (mt hbad.mpr h1)
    by_cases h2 : modes acqs .trigCount ≠ [] ∨ modes acqs .thresholdedTrigCount ≠ []
    · rw [if_pos h2]
      have hc := hcnt.mp h2
      have hnc : ¬∀ a ∈ acqs, ¬Counting a.proto := by
        intro h; obtain ⟨a, ha, hc⟩ := hc; exact h a ha hc
      constructor
      · intro h
        refine ⟨hgood, fun _ => ?_, fun h => absurd h hnc⟩
        split at h
        · rename_i i
          simp only [Except.ok.injEq] at h
          exact ⟨i, _, rfl, h.symm, by rw [decide_eq_true_eq, hdist]⟩
        · simp at h
      · rintro ⟨-, h, -⟩
        obtain ⟨i, b, rfl, rfl, hb⟩ := h hc
        have : decide (Bin.distribution ∈ modes acqs .trigCount ∨
            Bin.distribution ∈ modes acqs .thresholdedTrigCount) = b := by
          cases b with
          | true => exact decide_eq_true (hdist.mpr (hb.mp rfl))
          | false => exact decide_eq_false (fun h => Bool.false_ne_true (hb.mpr (hdist.mp h)))
        simp only [this]
    · rw [if_neg h2]
      have hc : ∀ a ∈ acqs, ¬Counting a.proto := fun a ha hx => h2 (hcnt.mpr ⟨a, ha, hx⟩)
      simp only [Except.ok.injEq]
      constructor
      · rintro rfl
        exact ⟨hgood, fun ⟨a, ha, hx⟩ => absurd hx (hc a ha), fun _ => rfl⟩
      · rintro ⟨-, -, h⟩; exact (h hc).symm

/-! ### Trigger addresses -/

theorem triggerSettings_ok {acqs : List Acq} {s s' : Analog} :
    triggerSettings acqs s = .ok s' ↔
      ((∃ a ∈ acqs, Sending a.proto) →
        (∀ a ∈ acqs, ∀ x, a.address = some x → s' = { s with trigEn := some true, trigAddr := some x }) ∧
        ((∀ a ∈ acqs, a.address = none) → s' = { s with trigEn := some false, trigAddr := none })) ∧
      ((∀ a ∈ acqs, ¬Sending a.proto) → s' = s) := by
  have hany : acqs.any (fun a => decide (a.proto = .thresholded ∨ a.proto = .thresholdedTrigCount ∨
      a.proto = .weightedThresholded)) = true ↔ ∃ a ∈ acqs, Sending a.proto := by
    simp only [List.any_eq_true, decide_eq_true_eq, Sending]
    refine exists_congr fun a => and_congr_right fun _ => ?_
    constructor
    · rintro (h | h | h)
      · exact Or.inl h
      · exact Or.inr (Or.inr h)
      · exact Or.inr (Or.inl h)
    · rintro (h | h | h)
      · exact Or.inl h
      · exact Or.inr (Or.inr h)
      · exact Or.inr (Or.inl h)
  unfold triggerSettings
  by_cases h : acqs.any (fun a => decide (a.proto = .thresholded ∨ a.proto = .thresholdedTrigCount ∨
      a.proto = .weightedThresholded)) = true
  · rw [if_pos h]
    have hs := hany.mp h
    have hns : ¬∀ a ∈ acqs, ¬Sending a.proto := by
      intro h; obtain ⟨a, ha, hc⟩ := hs; exact h a ha hc
    simp only [hs, true_imp_iff, hns, false_imp_iff, and_true]
    have hmem : ∀ x, x ∈ acqs.filterMap (·.address) ↔ ∃ a ∈ acqs, a.address = some x := by
      intro x; simp [List.mem_filterMap]
    cases hf : acqs.filterMap (·.address) with
    | nil =>
      have hno : ∀ a ∈ acqs, a.address = none := by
        intro a ha
        cases hx : a.address with
        | none => rfl
        | some x =>
          have := (hmem x).mpr ⟨a, ha, hx⟩
          rw [hf] at this; simp at this
      simp only [Except.ok.injEq]
      constructor
      · rintro rfl
        exact ⟨fun a ha x hx => by rw [hno a ha] at hx; simp at hx, fun _ => rfl⟩
      · rintro ⟨-, h⟩; exact (h hno).symm
    | cons y l =>
      rw [hf] at hmem
      obtain ⟨b, hb, hby⟩ := (hmem y).mp (List.mem_cons_self ..)
      simp only
      constructor
      · intro h
        split at h
        · simp at h
        · rename_i x hx
          simp only [Except.ok.injEq] at h
          obtain ⟨-, hall⟩ := (unique_iff _ _).mp hx
          refine ⟨fun a ha z hz => ?_, fun hno => ?_⟩
          · rw [hall z ((hmem z).mpr ⟨a, ha, hz⟩)]; exact h.symm
          · rw [hno b hb] at hby; simp at hby
      · rintro ⟨h1, -⟩
        have : unique (y :: l) = .ok y := by
          rw [unique_iff]
          refine ⟨List.mem_cons_self .., fun z hz => ?_⟩
          obtain ⟨c, hc, hcz⟩ := (hmem z).mp hz
          have e1 := h1 b hb y hby
          have e2 := h1 c hc z hcz
          rw [e1] at e2
          simp only [Analog.mk.injEq, Option.some.injEq] at e2
          exact e2.2.2.2.1.symm
        rw [this]
        simp only [Except.ok.injEq]
        exact (h1 b hb y hby).symm
  · rw [if_neg h]
    have hs : ∀ a ∈ acqs, ¬Sending a.proto := fun a ha hx => h (hany.mpr ⟨a, ha, hx⟩)
    simp only [Except.ok.injEq]
    constructor
    · rintro rfl
      exact ⟨fun ⟨a, ha, hx⟩ => absurd hx (hs a ha), fun _ => rfl⟩
    · rintro ⟨-, h⟩; exact (h hs).symm

/-! ### Thresholds -/

theorem metaLoop (acqs : List Acq) : ∀ d : List (Nat × (Nat × Condition)),
    (∃ d', acqs.foldlM metaStep d = .ok d') ↔
      (∀ a ∈ acqs, a.proto = .thresholdedTrigCount → ∃ c, a.count = some c ∧
        (∀ c', Dict.get? d a.channel = some c' → c' = c) ∧
        ∀ b ∈ acqs, b.proto = .thresholdedTrigCount → b.channel = a.channel → b.count = some c) := by
  induction acqs with
  | nil => intro d; exact ⟨fun _ => by simp, fun _ => ⟨d, rfl⟩⟩
  | cons a acqs ih =>
    intro d
    simp only [FoldM.ok_cons]
    rw [show (∃ d', ∃ s1, metaStep d a = .ok s1 ∧ acqs.foldlM metaStep s1 = .ok d') ↔
      ∃ s1, metaStep d a = .ok s1 ∧ ∃ d', acqs.foldlM metaStep s1 = .ok d' from
      ⟨fun ⟨d', s1, h1, h2⟩ => ⟨s1, h1, d', h2⟩, fun ⟨s1, h1, d', h2⟩ => ⟨d', s1, h1, h2⟩⟩]
    simp only [ih]
    by_cases hp : a.proto = .thresholdedTrigCount
    · have hstep : ∀ s1, metaStep d a = .ok s1 ↔ ∃ c, a.count = some c ∧
          (∀ c', Dict.get? d a.channel = some c' → c' = c) ∧ s1 = Dict.set d a.channel c := by
        intro s1
        unfold metaStep
        rw [if_pos hp]
        cases hc : a.count with
        | none => simp
        | some c =>
          simp only [Option.some.injEq, exists_eq_left']
          cases hg : Dict.get? d a.channel with
          | none => simp [eq_comm]
          | some c' =>
            by_cases hcc : c' = c
            · simp [hcc, eq_comm]
            · simp [hcc]
      constructor
      · rintro ⟨s1, h1, h2⟩
        obtain ⟨c, hc, hd, rfl⟩ := (hstep s1).mp h1
        have key : ∀ b ∈ acqs, b.proto = .thresholdedTrigCount → b.channel = a.channel → b.count = some c := by
          intro b hb hbp hbc
          obtain ⟨cb, hcb, hgb, -⟩ := h2 b hb hbp
          rw [hbc, Dict.get?_set_self] at hgb
          rw [hcb, hgb c rfl]
        intro e he' hep
        rcases List.mem_cons.mp he' with rfl | he
        · refine ⟨c, hc, hd, fun b hb hbp hbc => ?_⟩
          rcases List.mem_cons.mp hb with rfl | hb
          · exact hc
          · exact key b hb hbp hbc
        · obtain ⟨ce, hce, hge, hall⟩ := h2 e he hep
          refine ⟨ce, hce, fun c' hg' => ?_, fun b hb hbp hbc => ?_⟩
          · by_cases hch : e.channel = a.channel
            · have := key e he hep hch
              rw [hce] at this; cases this
              rw [hch] at hg'; exact hd c' hg'
            · exact hge c' (by rw [Dict.get?_set_ne _ _ hch]; exact hg')
          · rcases List.mem_cons.mp hb with rfl | hb
            · have := key e he hep hbc.symm
              rw [hce] at this; cases this; exact hc
            · exact hall b hb hbp hbc
      · intro h
        obtain ⟨c, hc, hd, hall⟩ := h a (List.mem_cons_self ..) hp
        refine ⟨_, (hstep _).mpr ⟨c, hc, hd, rfl⟩, fun e he hep => ?_⟩
        obtain ⟨ce, hce, hge, hae⟩ := h e (List.mem_cons_of_mem _ he) hep
        refine ⟨ce, hce, fun c' hg' => ?_, fun b hb => hae b (List.mem_cons_of_mem _ hb)⟩
        by_cases hch : e.channel = a.channel
        · rw [hch, Dict.get?_set_self] at hg'
          cases hg'
          have := hall e (List.mem_cons_of_mem _ he) hep hch
          rw [hce] at this; cases this; rfl
        · rw [Dict.get?_set_ne _ _ hch] at hg'; exact hge c' hg'
    · have hstep : ∀ s1, metaStep d a = .ok s1 ↔ s1 = d := by
        intro s1; unfold metaStep; rw [if_neg hp]; simp [eq_comm]
      simp only [hstep, exists_eq_left]
      constructor
      · intro h e he hep
        rcases List.mem_cons.mp he with rfl | he
        · exact absurd hep hp
        · obtain ⟨c, hc, hg, hall⟩ := h e he hep
          refine ⟨c, hc, hg, fun b hb hbp => ?_⟩
          rcases List.mem_cons.mp hb with rfl | hb
          · exact absurd hbp hp
          · exact hall b hb hbp
      · intro h e he hep
        obtain ⟨c, hc, hg, hall⟩ := h e (List.mem_cons_of_mem _ he) hep
        exact ⟨c, hc, hg, fun b hb => hall b (List.mem_cons_of_mem _ hb)⟩

/-- All trigger counts with a threshold on a channel have the same threshold and condition. -/
theorem validateCounts_ok (acqs : List Acq) : validateCounts acqs = .ok () ↔
    ∀ a ∈ acqs, a.proto = .thresholdedTrigCount → ∃ c, a.count = some c ∧
      ∀ b ∈ acqs, b.proto = .thresholdedTrigCount → b.channel = a.channel → b.count = some c := by
  have := metaLoop acqs []
  simp only [Dict.get?_nil, reduceCtorEq, false_imp_iff, implies_true, true_and] at this
  rw [← this]
  unfold validateCounts
  constructor
  · intro h
    split at h
    · simp at h
    · rename_i d hd; exact ⟨d, hd⟩
  · rintro ⟨d, hd⟩; rw [hd]

theorem discSettings_ok {relevant : List Acq} (hr : ∀ a ∈ relevant, a.disc.isSome) {s s' : Analog} :
    discSettings relevant s = .ok s' ↔
      ∃ r t a, relevant.head? = some a ∧ (∀ b ∈ relevant, b.disc = some (r, t)) ∧
        0 ≤ r ∧ r ≤ 360 ∧ -16777212 ≤ t ∧ t ≤ 16777212 ∧
        s' = { s with rotation := some r, threshold := some (t * (a.duration * 1000000000)) } := by
  unfold discSettings
  cases relevant with
  | nil => simp [unique]
  | cons a l =>
    obtain ⟨⟨r0, t0⟩, h0⟩ := Option.isSome_iff_exists.mp (hr a (List.mem_cons_self ..))
    have hu : ∀ {α : Type} [DecidableEq α] (f : Rat × Rat → α) (v : α),
        unique ((a :: l).filterMap fun x => x.disc.map f) = .ok v ↔
          ∀ b ∈ a :: l, ∃ p, b.disc = some p ∧ f p = v := by
      intro α _ f v
      rw [unique_iff]
      simp only [List.mem_filterMap, Option.map_eq_some_iff]
      constructor
      · rintro ⟨-, h⟩ b hb
        obtain ⟨p, hp⟩ := Option.isSome_iff_exists.mp (hr b hb)
        exact ⟨p, hp, h (f p) ⟨b, hb, p, hp, rfl⟩⟩
      · intro h
        refine ⟨?_, ?_⟩
        · obtain ⟨p, hp, hv⟩ := h a (List.mem_cons_self ..)
          exact ⟨a, List.mem_cons_self .., p, hp, hv⟩
        · rintro x ⟨b, hb, p, hp, rfl⟩
          obtain ⟨p', hp', hv⟩ := h b hb
          rw [hp] at hp'; cases hp'; exact hv
    constructor
    · intro h
      split at h
      · simp at h
      rename_i r hr1
      split at h
      · simp at h
      rename_i t ht1
      split at h
      · rename_i hrr
        split at h
        · rename_i htt
          simp only [Except.ok.injEq] at h
          refine ⟨r, t, a, rfl, fun b hb => ?_, hrr.1, hrr.2, htt.1, htt.2, h.symm⟩
          obtain ⟨p, hp, rfl⟩ := (hu Prod.fst r).mp hr1 b hb
          obtain ⟨p', hp', rfl⟩ := (hu Prod.snd t).mp ht1 b hb
          rw [hp] at hp'; cases hp'; exact hp
        · simp at h
      · simp at h
    · rintro ⟨r, t, b, hb, hall, h1, h2, h3, h4, rfl⟩
      simp only [List.head?_cons, Option.some.injEq] at hb
      subst hb
      rw [(hu Prod.fst r).mpr fun b hb => ⟨_, hall b hb, rfl⟩]
      simp only
      rw [(hu Prod.snd t).mpr fun b hb => ⟨_, hall b hb, rfl⟩]
      simp only
      rw [if_pos (show 0 ≤ r ∧ r ≤ maxRotation from ⟨h1, h2⟩),
        if_pos (show -maxThreshold ≤ t ∧ t ≤ maxThreshold from ⟨h3, h4⟩)]

end Verif.AcqSet
