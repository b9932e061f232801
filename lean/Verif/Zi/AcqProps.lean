/-
Results of a UHFQA.
-/
import Verif.Zi.AcqSpec
import Verif.Numeric.Props
import Mathlib.Tactic.Linarith
import Mathlib.Tactic.Ring
import Mathlib.Tactic.FieldSimp
import Mathlib.Data.List.Pairwise

set_option linter.unusedVariables false
set_option linter.unusedSimpArgs false

namespace Verif.Zi

open Spec
open Verif.Numeric (pyRound)

variable {ι : Type}

/-! ### Unique acquisitions -/

theorem firstAcqs_sub [DecidableEq ι] : ∀ (l : List (AcqInfo ι)) (seen : List ι) (a : AcqInfo ι),
    a ∈ firstAcqs seen l → a ∈ l ∧ a.wave ∉ seen
  | [], seen, a, h => by simp [firstAcqs] at h
  | b :: rest, seen, a, h => by
    unfold firstAcqs at h
    by_cases hb : b.wave ∈ seen
    · rw [if_pos hb] at h
      obtain ⟨h1, h2⟩ := firstAcqs_sub rest seen a h
      exact ⟨List.mem_cons_of_mem _ h1, h2⟩
    · rw [if_neg hb] at h
      rcases List.mem_cons.mp h with rfl | h
      · exact ⟨by simp, hb⟩
      · obtain ⟨h1, h2⟩ := firstAcqs_sub rest (b.wave :: seen) a h
        exact ⟨List.mem_cons_of_mem _ h1, fun hs => h2 (List.mem_cons_of_mem _ hs)⟩

theorem firstAcqs_all [DecidableEq ι] : ∀ (l : List (AcqInfo ι)) (seen : List ι) (a : AcqInfo ι),
    a ∈ l → a.wave ∉ seen → ∃ b ∈ firstAcqs seen l, b.wave = a.wave
  | [], seen, a, h, _ => by simp at h
  | b :: rest, seen, a, h, hs => by
    unfold firstAcqs
    by_cases hb : b.wave ∈ seen
    · rw [if_pos hb]
      rcases List.mem_cons.mp h with rfl | h
      · exact absurd hb hs
      · exact firstAcqs_all rest seen a h hs
    · rw [if_neg hb]
      by_cases hab : a.wave = b.wave
      · exact ⟨b, by simp, hab.symm⟩
      · rcases List.mem_cons.mp h with rfl | h
        · exact absurd rfl hab
        · obtain ⟨c, hc, hcw⟩ := firstAcqs_all rest (b.wave :: seen) a h (by
            intro hm
            rcases List.mem_cons.mp hm with hm | hm
            · exact hab hm
            · exact hs hm)
          exact ⟨c, List.mem_cons_of_mem _ hc, hcw⟩

theorem firstAcqs_nodup [DecidableEq ι] : ∀ (l : List (AcqInfo ι)) (seen : List ι),
    (firstAcqs seen l).Pairwise fun a b => a.wave ≠ b.wave
  | [], seen => by simp [firstAcqs]
  | b :: rest, seen => by
    unfold firstAcqs
    by_cases hb : b.wave ∈ seen
    · rw [if_pos hb]; exact firstAcqs_nodup rest seen
    · rw [if_neg hb, List.pairwise_cons]
      refine ⟨?_, firstAcqs_nodup rest _⟩
      intro a ha hab
      exact (firstAcqs_sub rest _ a ha).2 (by rw [← hab]; simp)

/-- Acquisitions with the same waveform are the same operation. -/
theorem mem_firstAcqs [DecidableEq ι] {acqs : List (AcqInfo ι)} (hs : ∀ a ∈ acqs, ∀ b ∈ acqs, a.wave = b.wave → a = b)
    (a : AcqInfo ι) : a ∈ firstAcqs [] acqs ↔ a ∈ acqs := by
  constructor
  · intro h; exact (firstAcqs_sub _ _ _ h).1
  · intro h
    obtain ⟨b, hb, hw⟩ := firstAcqs_all acqs [] a h (by simp)
    rw [← hs b (firstAcqs_sub _ _ _ hb).1 a h hw]
    exact hb

/-! ### Settings of the acquisitions -/

/-- What an acquisition must be like to be accepted. -/
def Fine (wf : ι → Option (List (Rat × Rat))) (a : AcqInfo ι) : Prop :=
  a.protocol = .trace ∨ a.protocol = .ssb ∧ a.channel < 5 ∧ ∃ w, wf a.wave = some w ∧ w.length ≤ 4096

theorem acqSettings_ok {rate : Rat} {av : Nat} {wf : ι → Option (List (Rat × Rat))} {a : AcqInfo ι} :
    (∃ s, acqSettings rate av wf a = .ok s) ↔ Fine wf a := by
  unfold acqSettings Fine
  cases hp : a.protocol with
  | other => simp
  | trace => simp
  | ssb =>
    simp only [reduceCtorEq, false_or, true_and]
    cases hw : wf a.wave with
    | none => simp
    | some w =>
      simp only [ssbWeights, Option.some.injEq]
      by_cases h1 : 4096 < w.length
      · rw [if_pos h1]
        constructor
        · rintro ⟨s, h⟩; simp at h
        · rintro ⟨-, w', rfl, h⟩; omega
      · rw [if_neg h1]
        by_cases h2 : 10 ≤ 2 * a.channel + 1
        · rw [if_pos h2]
          constructor
          · rintro ⟨s, h⟩; simp at h
          · rintro ⟨h, -⟩; omega
        · rw [if_neg h2]
          constructor
          · intro _; exact ⟨by omega, w, rfl, by omega⟩
          · intro _; exact ⟨_, rfl⟩

theorem acqLoop_cons {rate : Rat} {av : Nat} {wf : ι → Option (List (Rat × Rat))} {dur : Option Rat} {used : List Nat}
    {a : AcqInfo ι} {rest : List (AcqInfo ι)} {out : List Setting × List (Nat × Proto)} :
    acqLoop rate av wf dur used (a :: rest) = .ok out ↔ dur.getD a.duration = a.duration ∧ a.channel ∉ used ∧
      ∃ s s' r, acqSettings rate av wf a = .ok s ∧
        acqLoop rate av wf (some a.duration) (a.channel :: used) rest = .ok (s', r) ∧
        out = (s ++ s', (a.channel, a.protocol) :: r) := by
  rw [acqLoop]
  by_cases h1 : dur.getD a.duration ≠ a.duration
  · rw [if_pos h1]
    constructor
    · intro h; simp at h
    · rintro ⟨h, -⟩; exact absurd h h1
  · rw [if_neg h1]
    have h1' := not_not.mp h1
    by_cases h2 : a.protocol = .other
    · rw [if_pos h2]
      constructor
      · intro h; simp at h
      · rintro ⟨-, -, s, s', r, h, -⟩
        simp [acqSettings, h2] at h
    · rw [if_neg h2]
      by_cases h3 : a.channel ∈ used
      · rw [if_pos h3]
        constructor
        · intro h; simp at h
        · rintro ⟨-, h, -⟩; exact absurd h3 h
      · rw [if_neg h3]
        cases hs : acqSettings rate av wf a with
        | error e => simp
        | ok s =>
          simp only
          cases hr : acqLoop rate av wf (some a.duration) (a.channel :: used) rest with
          | error e =>
            simp only
            constructor
            · intro h; simp at h
            · rintro ⟨-, -, s, s', r, -, h, -⟩; simp at h
          | ok p =>
            obtain ⟨s', r⟩ := p
            simp only [Except.ok.injEq]
            constructor
            · rintro rfl; exact ⟨h1', h3, s, s', r, rfl, rfl, rfl⟩
            · rintro ⟨-, -, s1, s2, r', h4, h5, rfl⟩
              cases h4; cases h5; rfl

theorem acqLoop_iff {rate : Rat} {av : Nat} {wf : ι → Option (List (Rat × Rat))} :
    ∀ (l : List (AcqInfo ι)) (dur : Option Rat) (used : List Nat),
      (∃ out, acqLoop rate av wf dur used l = .ok out) ↔ (∀ a ∈ l, Fine wf a ∧ a.channel ∉ used ∧
        dur.getD a.duration = a.duration) ∧ l.Pairwise (fun a b => a.channel ≠ b.channel ∧ a.duration = b.duration)
  | [], dur, used => by simp [acqLoop]
  | a :: rest, dur, used => by
    have ih := acqLoop_iff (rate := rate) (av := av) (wf := wf) rest (some a.duration) (a.channel :: used)
    rw [List.pairwise_cons]
    constructor
    · rintro ⟨out, h⟩
      obtain ⟨h1, h2, s, s', r, h3, h4, -⟩ := acqLoop_cons.mp h
      obtain ⟨h5, h6⟩ := ih.mp ⟨_, h4⟩
      refine ⟨?_, ?_, h6⟩
      · intro b hb
        rcases List.mem_cons.mp hb with rfl | hb
        · exact ⟨acqSettings_ok.mp ⟨s, h3⟩, h2, h1⟩
        · obtain ⟨h7, h8, h9⟩ := h5 b hb
          refine ⟨h7, fun h => h8 (List.mem_cons_of_mem _ h), ?_⟩
          simp only [Option.getD_some] at h9
          rw [← h9]
          exact h1
      · intro b hb
        obtain ⟨h7, h8, h9⟩ := h5 b hb
        exact ⟨fun h => h8 (by rw [← h]; simp), h9⟩
    · rintro ⟨h1, h2, h3⟩
      obtain ⟨h4, h5, h6⟩ := h1 a (by simp)
      obtain ⟨s, hs⟩ := acqSettings_ok.mpr h4
      obtain ⟨out, ho⟩ := ih.mpr ⟨by
        intro b hb
        obtain ⟨h7, h8, h9⟩ := h1 b (List.mem_cons_of_mem _ hb)
        refine ⟨h7, ?_, (h2 b hb).2⟩
        intro hm
        rcases List.mem_cons.mp hm with hm | hm
        · exact (h2 b hb).1 hm.symm
        · exact h8 hm, h3⟩
      obtain ⟨s', r⟩ := out
      exact ⟨_, acqLoop_cons.mpr ⟨h6, h5, s, s', r, hs, ho, rfl⟩⟩

theorem acqLoop_resolvers {rate : Rat} {av : Nat} {wf : ι → Option (List (Rat × Rat))} :
    ∀ (l : List (AcqInfo ι)) (dur : Option Rat) (used : List Nat) (out : List Setting × List (Nat × Proto)),
      acqLoop rate av wf dur used l = .ok out → out.2 = l.map fun a => (a.channel, a.protocol)
  | [], dur, used, out, h => by
    simp only [acqLoop, Except.ok.injEq] at h
    subst h
    rfl
  | a :: rest, dur, used, out, h => by
    obtain ⟨-, -, s, s', r, -, h4, rfl⟩ := acqLoop_cons.mp h
    have := acqLoop_resolvers rest _ _ _ h4
    simp only at this
    rw [List.map_cons, ← this]

/-! ### Weights -/

/-- The writes to a node. -/
theorem acqLoop_weights {rate : Rat} {av : Nat} {wf : ι → Option (List (Rat × Rat))} :
    ∀ (l : List (AcqInfo ι)) (dur : Option Rat) (used : List Nat) (out : List Setting × List (Nat × Proto)),
      acqLoop rate av wf dur used l = .ok out → (∀ a ∈ l, a.protocol = .ssb) →
      (∀ c, (∀ a ∈ l, a.channel ≠ c) → ∀ node, node = 2 * c ∨ node = 2 * c + 1 →
        out.1.filterMap (realOf node) = [] ∧ out.1.filterMap (imagOf node) = []) ∧
      (∀ a ∈ l, ∃ w, wf a.wave = some w ∧
        out.1.filterMap (realOf (2 * a.channel)) = [padded (w.map Prod.fst)] ∧
        out.1.filterMap (imagOf (2 * a.channel)) = [padded (w.map Prod.snd)] ∧
        out.1.filterMap (realOf (2 * a.channel + 1)) = [padded (w.map Prod.snd)] ∧
        out.1.filterMap (imagOf (2 * a.channel + 1)) = [(padded (w.map Prod.fst)).map fun x => -1 * x]) ∧
      out.1.filterMap lengthOf = [] ∧ out.1.filterMap resultsOf = [] ∧ out.1.filterMap averagesOf = [] ∧
      out.1.filterMap enabledOf = []
  | [], dur, used, out, h, _ => by
    simp only [acqLoop, Except.ok.injEq] at h
    subst h
    simp
  | a :: rest, dur, used, out, h, hp => by
    obtain ⟨h1, h2, s, s', r, h3, h4, rfl⟩ := acqLoop_cons.mp h
    obtain ⟨i1, i2, i3, i4, i5, i6⟩ := acqLoop_weights rest _ _ _ h4 (fun b hb => hp b (List.mem_cons_of_mem _ hb))
    have hch : ∀ b ∈ rest, b.channel ≠ a.channel := by
      have := ((acqLoop_iff rest (some a.duration) (a.channel :: used)).mp ⟨_, h4⟩).1
      intro b hb hbc
      exact (this b hb).2.1 (by rw [hbc]; simp)
    have hw : ∃ w, wf a.wave = some w ∧ s = [.real (2 * a.channel) (padded (w.map Prod.fst)),
        .imag (2 * a.channel) (padded (w.map Prod.snd)), .real (2 * a.channel + 1) (padded (w.map Prod.snd)),
        .imag (2 * a.channel + 1) ((padded (w.map Prod.fst)).map fun x => -1 * x)] := by
      unfold acqSettings at h3
      rw [hp a (by simp)] at h3
      simp only at h3
      cases hw : wf a.wave with
      | none => simp [hw] at h3
      | some w =>
        refine ⟨w, rfl, ?_⟩
        simp only [hw, ssbWeights] at h3
        split at h3
        · simp at h3
        · split at h3
          · simp at h3
          · simpa using h3.symm
    obtain ⟨w, hw, rfl⟩ := hw
    simp only at i1 i2 i3 i4 i5 i6 ⊢
    refine ⟨?_, ?_, ?_, ?_, ?_, ?_⟩
    · intro c hc node hn
      have ha := hc a (by simp)
      obtain ⟨j1, j2⟩ := i1 c (fun b hb => hc b (List.mem_cons_of_mem _ hb)) node hn
      have n1 : 2 * a.channel ≠ node := by omega
      have n2 : 2 * a.channel + 1 ≠ node := by omega
      rw [List.filterMap_append, List.filterMap_append, j1, j2]
      simp [realOf, imagOf, n1, n2]
    · intro b hb
      rcases List.mem_cons.mp hb with rfl | hb
      · obtain ⟨j1, j2⟩ := i1 b.channel hch _ (Or.inl rfl)
        obtain ⟨j3, j4⟩ := i1 b.channel hch _ (Or.inr rfl)
        refine ⟨w, hw, ?_⟩
        rw [List.filterMap_append, List.filterMap_append, List.filterMap_append, List.filterMap_append, j1, j2, j3, j4]
        have n1 : 2 * b.channel + 1 ≠ 2 * b.channel := by omega
        have n2 : 2 * b.channel ≠ 2 * b.channel + 1 := by omega
        simp [List.filterMap_cons, realOf, imagOf, n1, n2]
      · obtain ⟨w', hw', j1, j2, j3, j4⟩ := i2 b hb
        refine ⟨w', hw', ?_⟩
        have hne := hch b hb
        have n1 : a.channel ≠ b.channel := fun h => hne h.symm
        have n2 : 2 * a.channel ≠ 2 * b.channel + 1 := by omega
        have n3 : 2 * a.channel + 1 ≠ 2 * b.channel := by omega
        rw [List.filterMap_append, List.filterMap_append, List.filterMap_append, List.filterMap_append, j1, j2, j3, j4]
        simp [realOf, imagOf, n1, n2, n3]
    · rw [List.filterMap_append, i3]; simp [lengthOf]
    · rw [List.filterMap_append, i4]; simp [resultsOf]
    · rw [List.filterMap_append, i5]; simp [averagesOf]
    · rw [List.filterMap_append, i6]; simp [enabledOf]

theorem allWeights_none (x : Rat) : (allWeights x).filterMap lengthOf = [] ∧ (allWeights x).filterMap resultsOf = [] ∧
    (allWeights x).filterMap averagesOf = [] ∧ (allWeights x).filterMap enabledOf = [] ∧
    (allWeights x).filterMap monitorOf = [] := by
  unfold allWeights
  refine ⟨?_, ?_, ?_, ?_, ?_⟩ <;>
  · rw [List.filterMap_eq_nil_iff]
    intro a ha
    rcases List.mem_append.mp ha with ha | ha <;>
    · obtain ⟨k, -, rfl⟩ := List.mem_map.mp ha
      rfl

theorem padded_getD (w : List Rat) (m : Nat) : (padded w).getD m 0 = w.getD m 0 := by
  unfold padded
  simp only [List.getD_eq_getElem?_getD]
  by_cases h : m < w.length
  · rw [List.getElem?_append_left h]
  · rw [List.getElem?_append_right (by omega), List.getElem?_eq_none (l := w) (by omega)]
    by_cases h2 : m - w.length < 4096 - w.length
    · rw [List.getElem?_replicate_of_lt h2]; rfl
    · rw [List.getElem?_eq_none (by simp; omega)]

theorem total_add (n : Nat) (f g : Nat → Rat) : total n (fun k => f k + g k) = total n f + total n g := by
  unfold total
  induction List.range n with
  | nil => simp
  | cons k l ih => simp only [List.map_cons, List.sum_cons, ih]; ring

theorem total_congr {n : Nat} {f g : Nat → Rat} (h : ∀ k, k < n → f k = g k) : total n f = total n g := by
  unfold total
  congr 1
  apply List.map_congr_left
  intro k hk
  exact h k (List.mem_range.mp hk)

/-! ### Configuration -/

theorem configure_ok [DecidableEq ι] {rate : Rat} {reps : Nat} {bm : BinMode} {wf : ι → Option (List (Rat × Rat))}
    {a : AcqInfo ι} {acqs : List (AcqInfo ι)} {out : List Setting × AcqConfig} :
    configure rate reps bm wf (a :: acqs) = .ok out ↔ bm ≠ .other ∧ pyRound (a.duration * rate) ≤ 4096 ∧
      ∃ s r, acqLoop rate (if bm = .append then 1 else reps) wf none [] (firstAcqs [] (a :: acqs)) = .ok (s, r) ∧
        out = (allWeights 0 ++ s ++ [.integrationLength (pyRound (a.duration * rate)), .resultEnable false,
          .monitorEnable false, .resultLength (if bm = .append then (a :: acqs).length * reps else (a :: acqs).length),
          .resultEnable true, .resultAverages (if bm = .append then 1 else reps)], ⟨(a :: acqs).length, r, bm⟩) := by
  unfold configure
  cases bm with
  | other => simp
  | average =>
    simp only [ne_eq, reduceCtorEq, not_false_eq_true, true_and, if_false]
    cases hl : acqLoop rate reps wf none [] (firstAcqs [] (a :: acqs)) with
    | error e => simp
    | ok p =>
      obtain ⟨s, r⟩ := p
      simp only
      by_cases h : 4096 < pyRound (a.duration * rate)
      · rw [if_pos h]
        constructor
        · intro h'; simp at h'
        · rintro ⟨h', -⟩; omega
      · rw [if_neg h]
        simp only [Except.ok.injEq]
        constructor
        · rintro rfl; exact ⟨by omega, s, r, rfl, rfl⟩
        · rintro ⟨-, s', r', h', rfl⟩; cases h'; rfl
  | append =>
    simp only [ne_eq, reduceCtorEq, not_false_eq_true, true_and, if_true]
    cases hl : acqLoop rate 1 wf none [] (firstAcqs [] (a :: acqs)) with
    | error e => simp
    | ok p =>
      obtain ⟨s, r⟩ := p
      simp only
      by_cases h : 4096 < pyRound (a.duration * rate)
      · rw [if_pos h]
        constructor
        · intro h'; simp at h'
        · rintro ⟨h', -⟩; omega
      · rw [if_neg h]
        simp only [Except.ok.injEq]
        constructor
        · rintro rfl; exact ⟨by omega, s, r, rfl, rfl⟩
        · rintro ⟨-, s', r', h', rfl⟩; cases h'; rfl

/-- **C66, refused.** The acquisitions of a UHFQA are accepted exactly if the bin mode is average or append, all are
traces or complex integrations with weights of at most 4096 samples on one of the channels 0, …, 4, have the same
duration of at most 4096 samples, and different acquisitions use different channels. -/
theorem configure_iff [DecidableEq ι] {rate : Rat} {reps : Nat} {bm : BinMode} {wf : ι → Option (List (Rat × Rat))}
    {acqs : List (AcqInfo ι)} (hs : ∀ a ∈ acqs, ∀ b ∈ acqs, a.wave = b.wave → a = b) (hne : acqs ≠ []) :
    (∃ out, configure rate reps bm wf acqs = .ok out) ↔ (bm = .average ∨ bm = .append) ∧
      (∀ a ∈ acqs, (a.protocol = .trace ∨
        a.protocol = .ssb ∧ a.channel < 5 ∧ ∃ w, wf a.wave = some w ∧ w.length ≤ 4096) ∧
        pyRound (a.duration * rate) ≤ 4096) ∧
      (∀ a ∈ acqs, ∀ b ∈ acqs, a.duration = b.duration ∧ (a ≠ b → a.channel ≠ b.channel)) := by
  match acqs, hne with
  | a :: rest, _ =>
    have hmem := mem_firstAcqs hs
    have hloop := acqLoop_iff (rate := rate) (av := if bm = .append then 1 else reps) (wf := wf)
      (firstAcqs [] (a :: rest)) none []
    have hbm : bm ≠ .other ↔ (bm = .average ∨ bm = .append) := by cases bm <;> simp
    constructor
    · rintro ⟨out, h⟩
      obtain ⟨h1, h2, s, r, h3, -⟩ := configure_ok.mp h
      obtain ⟨h4, h5⟩ := hloop.mp ⟨_, h3⟩
      have hall : ∀ x ∈ a :: rest, ∀ y ∈ a :: rest, x ≠ y → x.channel ≠ y.channel ∧ x.duration = y.duration := by
        intro x hx y hy hxy
        haveI : Std.Symm (fun a b : AcqInfo ι => a.channel ≠ b.channel ∧ a.duration = b.duration) :=
          ⟨fun _ _ h => ⟨fun e => h.1 e.symm, h.2.symm⟩⟩
        exact h5.forall ((hmem x).mpr hx) ((hmem y).mpr hy) hxy
      have hdur : ∀ x ∈ a :: rest, x.duration = a.duration := by
        intro x hx
        by_cases hxa : x = a
        · rw [hxa]
        · exact (hall x hx a (by simp) hxa).2
      refine ⟨hbm.mp h1, ?_, ?_⟩
      · intro x hx
        refine ⟨(h4 x ((hmem x).mpr hx)).1, ?_⟩
        rw [hdur x hx]
        exact h2
      · intro x hx y hy
        exact ⟨by rw [hdur x hx, hdur y hy], fun h => (hall x hx y hy h).1⟩
    · rintro ⟨h1, h2, h3⟩
      obtain ⟨out, ho⟩ := hloop.mpr ⟨by
        intro x hx
        have hx' := (hmem x).mp hx
        exact ⟨(h2 x hx').1, by simp, rfl⟩, by
        have hnd := firstAcqs_nodup (a :: rest) []
        rw [List.pairwise_iff_getElem] at hnd ⊢
        intro i j hi hj hij
        have hx := (hmem _).mp (List.getElem_mem hi)
        have hy := (hmem _).mp (List.getElem_mem hj)
        obtain ⟨h4, h5⟩ := h3 _ hx _ hy
        exact ⟨h5 (fun e => hnd i j hi hj hij (by rw [e])), h4⟩⟩
      obtain ⟨s, r⟩ := out
      exact ⟨_, configure_ok.mpr ⟨hbm.mpr h1, (h2 a (by simp)).2, s, r, ho, rfl⟩⟩

theorem lastOf_middle {β : Type} (l : List β) (x : β) : ((l ++ [x]) ++ []).getLast? = some x := by
  rw [List.append_nil, List.getLast?_concat]

/-- The values that are in force. -/
theorem configured [DecidableEq ι] {rate : Rat} {reps : Nat} {bm : BinMode} {wf : ι → Option (List (Rat × Rat))}
    {acqs : List (AcqInfo ι)} (hs : ∀ a ∈ acqs, ∀ b ∈ acqs, a.wave = b.wave → a = b)
    (hp : ∀ a ∈ acqs, a.protocol = .ssb) {s : List Setting} {cfg : AcqConfig}
    (h : configure rate reps bm wf acqs = .ok (s, cfg)) {a : AcqInfo ι} (ha : a ∈ acqs) :
    ∃ w, wf a.wave = some w ∧ lastOf lengthOf s = some (pyRound (a.duration * rate)) ∧
      lastOf resultsOf s = some (if bm = .append then acqs.length * reps else acqs.length) ∧
      lastOf averagesOf s = some (if bm = .append then 1 else reps) ∧ lastOf enabledOf s = some true ∧
      lastOf (realOf (2 * a.channel)) s = some (padded (w.map Prod.fst)) ∧
      lastOf (imagOf (2 * a.channel)) s = some (padded (w.map Prod.snd)) ∧
      lastOf (realOf (2 * a.channel + 1)) s = some (padded (w.map Prod.snd)) ∧
      lastOf (imagOf (2 * a.channel + 1)) s = some ((padded (w.map Prod.fst)).map fun x => -1 * x) := by
  have hacc := (configure_iff hs (List.ne_nil_of_mem ha)).mp ⟨_, h⟩
  match acqs, ha with
  | a0 :: rest, ha =>
    have hdur : a0.duration = a.duration := (hacc.2.2 a0 (by simp) a ha).1
    obtain ⟨h1, h2, s', r, h3, h4⟩ := configure_ok.mp h
    obtain ⟨rfl, -⟩ := Prod.mk.inj h4
    obtain ⟨-, i2, i3, i4, i5, i6⟩ := acqLoop_weights _ _ _ _ h3 (fun x hx => hp x (firstAcqs_sub _ _ _ hx).1)
    obtain ⟨w, hw, j1, j2, j3, j4⟩ := i2 a ((mem_firstAcqs hs a).mpr ha)
    obtain ⟨k1, k2, k3, k4, -⟩ := allWeights_none 0
    refine ⟨w, hw, ?_, ?_, ?_, ?_, ?_, ?_, ?_, ?_⟩ <;> unfold lastOf
    · rw [List.filterMap_append, List.filterMap_append, k1, i3, hdur]; rfl
    · rw [List.filterMap_append, List.filterMap_append, k2, i4]; rfl
    · rw [List.filterMap_append, List.filterMap_append, k3, i5]; rfl
    · rw [List.filterMap_append, List.filterMap_append, k4, i6]; rfl
    · rw [List.filterMap_append, List.filterMap_append, j1]
      exact lastOf_middle _ _
    · rw [List.filterMap_append, List.filterMap_append, j2]
      exact lastOf_middle _ _
    · rw [List.filterMap_append, List.filterMap_append, j3]
      exact lastOf_middle _ _
    · rw [List.filterMap_append, List.filterMap_append, j4]
      exact lastOf_middle _ _

/-- The two nodes of a channel together measure the product of weights and conjugate signal. -/
theorem node_pair [DecidableEq ι] {rate : Rat} {reps : Nat} {bm : BinMode} {wf : ι → Option (List (Rat × Rat))}
    {acqs : List (AcqInfo ι)} (hs : ∀ a ∈ acqs, ∀ b ∈ acqs, a.wave = b.wave → a = b)
    (hp : ∀ a ∈ acqs, a.protocol = .ssb) {s : List Setting} {cfg : AcqConfig}
    (h : configure rate reps bm wf acqs = .ok (s, cfg)) {a : AcqInfo ι} (ha : a ∈ acqs) :
    ∃ w, wf a.wave = some w ∧ ∀ x : Signal,
      ((integrated s (2 * a.channel) x).1 + (integrated s (2 * a.channel) x).2,
        (integrated s (2 * a.channel + 1) x).1 + (integrated s (2 * a.channel + 1) x).2) =
      measured (pyRound (a.duration * rate)).toNat w x := by
  obtain ⟨w, hw, h1, -, -, -, h2, h3, h4, h5⟩ := configured hs hp h ha
  refine ⟨w, hw, fun x => ?_⟩
  have hfst : ∀ m, (w.map Prod.fst).getD m 0 = (w.getD m (0, 0)).1 := by
    intro m
    simp only [List.getD_eq_getElem?_getD, List.getElem?_map]
    cases w[m]? <;> rfl
  have hsnd : ∀ m, (w.map Prod.snd).getD m 0 = (w.getD m (0, 0)).2 := by
    intro m
    simp only [List.getD_eq_getElem?_getD, List.getElem?_map]
    cases w[m]? <;> rfl
  have hneg : ∀ (l : List Rat) m, (l.map fun x => -1 * x).getD m 0 = - l.getD m 0 := by
    intro l m
    simp only [List.getD_eq_getElem?_getD, List.getElem?_map]
    cases l[m]? <;> simp
  simp only [integrated, h1, h2, h3, h4, h5, Option.getD_some, measured, timesConj, padded_getD, hneg, hfst, hsnd]
  rw [← total_add, ← total_add]
  congr 1
  apply total_congr
  intro k _
  ring

theorem total_div (n : Nat) (f : Nat → Rat) (c : Rat) : total n f / c = total n fun k => f k / c := by
  unfold total
  induction List.range n with
  | nil => simp
  | cons k l ih => simp only [List.map_cons, List.sum_cons, ← ih]; ring

theorem combine_results [DecidableEq ι] {rate : Rat} {reps : Nat} {bm : BinMode} {wf : ι → Option (List (Rat × Rat))}
    {acqs : List (AcqInfo ι)} (hs : ∀ a ∈ acqs, ∀ b ∈ acqs, a.wave = b.wave → a = b)
    (hp : ∀ a ∈ acqs, a.protocol = .ssb) {s : List Setting} {cfg : AcqConfig}
    (h : configure rate reps bm wf acqs = .ok (s, cfg)) {a : AcqInfo ι} (ha : a ∈ acqs) (x : Nat → Signal) :
    ∃ w, wf a.wave = some w ∧
      combine (nodeResults s x (2 * a.channel)) (nodeResults s x (2 * a.channel + 1)) =
        (List.range (if bm = .append then acqs.length * reps else acqs.length)).map fun j =>
          mean (if bm = .append then 1 else reps) fun k => measured (pyRound (a.duration * rate)).toNat w
            (x (k * (if bm = .append then acqs.length * reps else acqs.length) + j)) := by
  obtain ⟨w, hw, h1⟩ := node_pair hs hp h ha
  obtain ⟨w', hw', -, h2, h3, -⟩ := configured hs hp h ha
  refine ⟨w, hw, ?_⟩
  unfold combine nodeResults
  simp only [h2, h3, Option.getD_some]
  rw [List.zipWith_map, List.zipWith_self]
  apply List.map_congr_left
  intro j _
  unfold mean
  rw [← add_div, ← add_div, ← total_add, ← total_add]
  congr 2
  · apply total_congr
    intro k _
    exact congrArg Prod.fst (h1 (x (k * (if bm = .append then acqs.length * reps else acqs.length) + j)))
  · apply total_congr
    intro k _
    exact congrArg Prod.snd (h1 (x (k * (if bm = .append then acqs.length * reps else acqs.length) + j)))

/-! ### Retrieving -/

theorem retrieveQa_iff {cfg : AcqConfig} {nodes : Nat → List (Rat × Rat)} {mon : List (Rat × Rat)} :
    ∀ (rs : List (Nat × Proto)) (f : Nat × Proto → Arr), (∀ e ∈ rs,
      arrayOf cfg e.2 (combine (nodes (2 * e.1)) (nodes (2 * e.1 + 1))) mon = .ok (f e)) →
      retrieveQa cfg nodes mon rs = .ok (rs.map fun e => (e.1, f e))
  | [], f, _ => rfl
  | (c, pr) :: rest, f, h => by
    unfold retrieveQa
    have h1 := h (c, pr) (by simp)
    simp only at h1
    rw [h1]
    simp only
    rw [retrieveQa_iff rest f fun e he => h e (List.mem_cons_of_mem _ he)]
    rfl

theorem chunks_range (n : Nat) : ∀ (r k : Nat) (f : Nat → Rat × Rat),
    chunks n r ((List.range' k (n * r)).map f) = (List.range r).map fun i => (List.range n).map fun j => f (k + i * n + j)
  | 0, k, f => by simp [chunks]
  | r + 1, k, f => by
    have e : List.range' k (n * (r + 1)) = List.range' k n ++ List.range' (k + n) (n * r) := by
      rw [Nat.mul_add, Nat.mul_one, Nat.add_comm (n * r) n, ← List.range'_append_1]
    rw [chunks, e, List.map_append, List.take_left' (by simp), List.drop_left' (by simp), chunks_range n r (k + n) f,
      List.range_succ_eq_map, List.map_cons, List.map_map]
    congr 1
    · rw [List.range'_eq_map_range, List.map_map]
      apply List.map_congr_left
      intro j _
      simp
    · apply List.map_congr_left
      intro i _
      apply List.map_congr_left
      intro j _
      simp only [Function.comp_apply, Nat.succ_eq_add_one]
      congr 1
      ring

theorem configure_config [DecidableEq ι] {rate : Rat} {reps : Nat} {bm : BinMode} {wf : ι → Option (List (Rat × Rat))}
    {acqs : List (AcqInfo ι)} {s : List Setting} {cfg : AcqConfig}
    (h : configure rate reps bm wf acqs = .ok (s, cfg)) (hne : acqs ≠ []) :
    cfg.n = acqs.length ∧ cfg.binMode = bm ∧
      cfg.resolvers = (firstAcqs [] acqs).map fun a => (a.channel, a.protocol) := by
  match acqs, hne with
  | a :: rest, _ =>
    obtain ⟨-, -, s', r, h3, h4⟩ := configure_ok.mp h
    obtain ⟨-, rfl⟩ := Prod.mk.inj h4
    exact ⟨rfl, rfl, acqLoop_resolvers _ _ _ _ h3⟩

/-- **C66, averages.** With bin mode average, the array of an acquisition channel has an entry for every acquisition of
the UHFQA, in the order of time: the mean over the repetitions of the integral of the weights of the channel times the
conjugate signal of the acquisition. -/
theorem qa_average_partial [DecidableEq ι] {rate : Rat} {reps : Nat} {wf : ι → Option (List (Rat × Rat))}
    {acqs : List (AcqInfo ι)} (hs : ∀ a ∈ acqs, ∀ b ∈ acqs, a.wave = b.wave → a = b)
    (hp : ∀ a ∈ acqs, a.protocol = .ssb) (hne : acqs ≠ []) {s : List Setting} {cfg : AcqConfig}
    (h : configure rate reps .average wf acqs = .ok (s, cfg)) (x : Nat → Signal) (mon : List (Rat × Rat)) :
    ∃ l, retrieveQa cfg (nodeResults s x) mon cfg.resolvers = .ok l ∧ (l.map Prod.fst).Nodup ∧
      ∀ c arr, (c, arr) ∈ l ↔ ∃ a ∈ acqs, a.channel = c ∧ ∃ w, wf a.wave = some w ∧
        arr = .average ((List.range acqs.length).map fun k => mean reps fun r =>
          measured (pyRound (a.duration * rate)).toNat w (x (r * acqs.length + k))) := by
  classical
  obtain ⟨h1, h2, h3⟩ := configure_config h hne
  have hacc := ((configure_iff hs hne).mp ⟨_, h⟩).2.2
  have hfun : ∀ a ∈ acqs, ∀ w, wf a.wave = some w →
      arrayOf cfg a.protocol (combine (nodeResults s x (2 * a.channel)) (nodeResults s x (2 * a.channel + 1))) mon =
      .ok (.average ((List.range acqs.length).map fun k => mean reps fun r =>
          measured (pyRound (a.duration * rate)).toNat w (x (r * acqs.length + k)))) := by
    intro a ha w hw
    obtain ⟨w', hw', hc⟩ := combine_results hs hp h ha x
    rw [hw] at hw'
    cases hw'
    rw [hc, hp a ha]
    simp only [arrayOf, h2, reduceCtorEq, if_false, List.length_map, List.length_range, h1, if_true]
  have hw : ∀ a ∈ acqs, ∃ w, wf a.wave = some w := by
    intro a ha
    obtain ⟨w, hw, -⟩ := node_pair hs hp h ha
    exact ⟨w, hw⟩
  let arrs : Nat × Proto → Arr := fun e =>
    match arrayOf cfg e.2 (combine (nodeResults s x (2 * e.1)) (nodeResults s x (2 * e.1 + 1))) mon with
    | .ok v => v
    | .error _ => .average []
  have hok : ∀ a ∈ acqs, arrayOf cfg a.protocol
      (combine (nodeResults s x (2 * a.channel)) (nodeResults s x (2 * a.channel + 1))) mon =
      .ok (arrs (a.channel, a.protocol)) := by
    intro a ha
    obtain ⟨w, hw⟩ := hw a ha
    show _ = Except.ok (match arrayOf cfg a.protocol
      (combine (nodeResults s x (2 * a.channel)) (nodeResults s x (2 * a.channel + 1))) mon with
      | .ok v => v
      | .error _ => .average [])
    rw [hfun a ha w hw]
  have hret := retrieveQa_iff (cfg := cfg) (nodes := nodeResults s x) (mon := mon) cfg.resolvers arrs (by
    intro e he
    rw [h3] at he
    obtain ⟨a, ha, rfl⟩ := List.mem_map.mp he
    exact hok a ((mem_firstAcqs hs a).mp ha))
  refine ⟨_, hret, ?_, ?_⟩
  · rw [h3, List.map_map, List.map_map]
    have hnd := firstAcqs_nodup acqs []
    unfold List.Nodup
    rw [List.pairwise_map]
    apply List.Pairwise.imp_of_mem _ hnd
    intro a b ha hb hab
    exact (hacc a ((mem_firstAcqs hs a).mp ha) b ((mem_firstAcqs hs b).mp hb)).2 (fun e => hab (by rw [e]))
  · intro c arr
    rw [h3, List.map_map, List.mem_map]
    constructor
    · rintro ⟨a, ha, he⟩
      have ha' := (mem_firstAcqs hs a).mp ha
      simp only [Function.comp_apply, Prod.mk.injEq] at he
      obtain ⟨rfl, rfl⟩ := he
      obtain ⟨w, hw⟩ := hw a ha'
      refine ⟨a, ha', rfl, w, hw, ?_⟩
      have h4 := hok a ha'
      rw [hfun a ha' w hw] at h4
      exact (Except.ok.inj h4).symm
    · rintro ⟨a, ha, rfl, w, hw, rfl⟩
      refine ⟨a, (mem_firstAcqs hs a).mpr ha, ?_⟩
      simp only [Function.comp_apply, Prod.mk.injEq, true_and]
      have h4 := hok a ha
      rw [hfun a ha w hw] at h4
      exact (Except.ok.inj h4).symm

/-- **C66, append.** With bin mode append, the array of an acquisition channel has a row for every repetition, with an
entry for every acquisition of the UHFQA in the order of time: the integral of the weights of the channel times the
conjugate signal of the acquisition in this repetition. -/
theorem qa_append_partial [DecidableEq ι] {rate : Rat} {reps : Nat} {wf : ι → Option (List (Rat × Rat))}
    {acqs : List (AcqInfo ι)} (hs : ∀ a ∈ acqs, ∀ b ∈ acqs, a.wave = b.wave → a = b)
    (hp : ∀ a ∈ acqs, a.protocol = .ssb) (hne : acqs ≠ []) {s : List Setting} {cfg : AcqConfig}
    (h : configure rate reps .append wf acqs = .ok (s, cfg)) (x : Nat → Signal) (mon : List (Rat × Rat)) :
    ∃ l, retrieveQa cfg (nodeResults s x) mon cfg.resolvers = .ok l ∧ (l.map Prod.fst).Nodup ∧
      ∀ c arr, (c, arr) ∈ l ↔ ∃ a ∈ acqs, a.channel = c ∧ ∃ w, wf a.wave = some w ∧
        arr = .append ((List.range reps).map fun r => (List.range acqs.length).map fun k =>
          measured (pyRound (a.duration * rate)).toNat w (x (r * acqs.length + k))) := by
  classical
  obtain ⟨h1, h2, h3⟩ := configure_config h hne
  have hacc := ((configure_iff hs hne).mp ⟨_, h⟩).2.2
  have hlen : 0 < acqs.length := List.length_pos_of_ne_nil hne
  have hfun : ∀ a ∈ acqs, ∀ w, wf a.wave = some w →
      arrayOf cfg a.protocol (combine (nodeResults s x (2 * a.channel)) (nodeResults s x (2 * a.channel + 1))) mon =
      .ok (.append ((List.range reps).map fun r => (List.range acqs.length).map fun k =>
          measured (pyRound (a.duration * rate)).toNat w (x (r * acqs.length + k)))) := by
    intro a ha w hw
    obtain ⟨w', hw', hc⟩ := combine_results hs hp h ha x
    rw [hw] at hw'
    cases hw'
    rw [hc, hp a ha]
    have hone : ∀ f : Nat → Rat × Rat, mean 1 f = f 0 := by
      intro f
      simp [mean, total]
    simp only [arrayOf, h2, List.length_map, List.length_range, h1, if_true]
    rw [if_neg (by
      rw [Nat.mul_mod_right]
      omega), Nat.mul_div_cancel_left _ hlen, List.range_eq_range' (n := acqs.length * reps), chunks_range]
    simp only [Nat.zero_add, hone, Nat.zero_mul]
  have hw : ∀ a ∈ acqs, ∃ w, wf a.wave = some w := by
    intro a ha
    obtain ⟨w, hw, -⟩ := node_pair hs hp h ha
    exact ⟨w, hw⟩
  let arrs : Nat × Proto → Arr := fun e =>
    match arrayOf cfg e.2 (combine (nodeResults s x (2 * e.1)) (nodeResults s x (2 * e.1 + 1))) mon with
    | .ok v => v
    | .error _ => .average []
  have hok : ∀ a ∈ acqs, arrayOf cfg a.protocol
      (combine (nodeResults s x (2 * a.channel)) (nodeResults s x (2 * a.channel + 1))) mon =
      .ok (arrs (a.channel, a.protocol)) := by
    intro a ha
    obtain ⟨w, hw⟩ := hw a ha
    show _ = Except.ok (match arrayOf cfg a.protocol
      (combine (nodeResults s x (2 * a.channel)) (nodeResults s x (2 * a.channel + 1))) mon with
      | .ok v => v
      | .error _ => .average [])
    rw [hfun a ha w hw]
  have hret := retrieveQa_iff (cfg := cfg) (nodes := nodeResults s x) (mon := mon) cfg.resolvers arrs (by
    intro e he
    rw [h3] at he
    obtain ⟨a, ha, rfl⟩ := List.mem_map.mp he
    exact hok a ((mem_firstAcqs hs a).mp ha))
  refine ⟨_, hret, ?_, ?_⟩
  · rw [h3, List.map_map, List.map_map]
    have hnd := firstAcqs_nodup acqs []
    unfold List.Nodup
    rw [List.pairwise_map]
    apply List.Pairwise.imp_of_mem _ hnd
    intro a b ha hb hab
    exact (hacc a ((mem_firstAcqs hs a).mp ha) b ((mem_firstAcqs hs b).mp hb)).2 (fun e => hab (by rw [e]))
  · intro c arr
    rw [h3, List.map_map, List.mem_map]
    constructor
    · rintro ⟨a, ha, he⟩
      have ha' := (mem_firstAcqs hs a).mp ha
      simp only [Function.comp_apply, Prod.mk.injEq] at he
      obtain ⟨rfl, rfl⟩ := he
      obtain ⟨w, hw⟩ := hw a ha'
      refine ⟨a, ha', rfl, w, hw, ?_⟩
      have h4 := hok a ha'
      rw [hfun a ha' w hw] at h4
      exact (Except.ok.inj h4).symm
    · rintro ⟨a, ha, rfl, w, hw, rfl⟩
      refine ⟨a, (mem_firstAcqs hs a).mpr ha, ?_⟩
      simp only [Function.comp_apply, Prod.mk.injEq, true_and]
      have h4 := hok a ha
      rw [hfun a ha w hw] at h4
      exact (Except.ok.inj h4).symm

/-- **C66, bin mode.** A schedule with a UHFQA is accepted exactly if it has an acquisition and all acquisitions have the
same protocol and bin mode. -/
theorem binModeOf_iff {l : List (Proto × BinMode)} {b : BinMode} : binModeOf l = .ok b ↔
    l ≠ [] ∧ ∃ p, ∀ a ∈ l, a = (p, b) := by
  cases l with
  | nil => simp [binModeOf]
  | cons a rest =>
    simp only [binModeOf]
    by_cases h : ((a :: rest).all fun b => decide (b = a)) = true
    · rw [if_pos h, Except.ok.injEq]
      rw [List.all_eq_true] at h
      simp only [decide_eq_true_eq] at h
      constructor
      · rintro rfl
        exact ⟨by simp, a.1, fun x hx => h x hx⟩
      · rintro ⟨-, p, hp⟩
        rw [hp a (by simp)]
    · rw [if_neg h]
      constructor
      · intro h'; simp at h'
      · rintro ⟨-, p, hp⟩
        exfalso
        apply h
        rw [List.all_eq_true]
        intro x hx
        rw [hp x hx, hp a (by simp)]
        simp

/-- **C66, traces.** Whatever the acquisitions are, the input monitor, from which traces are read, is switched off. -/
theorem monitor_off [DecidableEq ι] {rate : Rat} {reps : Nat} {bm : BinMode} {wf : ι → Option (List (Rat × Rat))}
    {acqs : List (AcqInfo ι)} (hne : acqs ≠ []) {s : List Setting} {cfg : AcqConfig}
    (h : configure rate reps bm wf acqs = .ok (s, cfg)) : lastOf monitorOf s = some false := by
  match acqs, hne with
  | a :: rest, _ =>
    obtain ⟨-, -, s', r, h3, h4⟩ := configure_ok.mp h
    obtain ⟨rfl, -⟩ := Prod.mk.inj h4
    unfold lastOf
    rw [List.filterMap_append]
    exact List.getLast?_concat

/-- **C66, traces.** The monitor is set up for the duration of the trace and the repetitions, switched on (but then off
again, `monitor_off`), and the array of every channel is the content of the monitor. -/
theorem qa_trace_partial [DecidableEq ι] {rate : Rat} {reps : Nat} {wf : ι → Option (List (Rat × Rat))}
    {acqs : List (AcqInfo ι)} (hne : acqs ≠ [])
    (hs : ∀ a ∈ acqs, ∀ b ∈ acqs, a.wave = b.wave → a = b) (htr : ∀ a ∈ acqs, a.protocol = .trace) {s : List Setting} {cfg : AcqConfig}
    (h : configure rate reps .average wf acqs = .ok (s, cfg)) (nodes : Nat → List (Rat × Rat)) (mon : List (Rat × Rat)) :
    Setting.monitorEnable true ∈ s ∧ Setting.monitorAverages reps ∈ s ∧
      (∀ a ∈ acqs, Setting.monitorLength (pyRound (a.duration * rate)) ∈ s) ∧
      ∃ l, retrieveQa cfg nodes mon cfg.resolvers = .ok l ∧ l ≠ [] ∧ ∀ e ∈ l, e.2 = .trace mon := by
  obtain ⟨hn, hb, hr⟩ := configure_config h hne
  match acqs, hne with
  | a :: rest, _ =>
    obtain ⟨-, -, s', r, h3, h4⟩ := configure_ok.mp h
    obtain ⟨rfl, -⟩ := Prod.mk.inj h4
    have hfirst : a ∈ firstAcqs [] (a :: rest) := by simp [firstAcqs]
    have key : ∀ (l : List (AcqInfo ι)) (dur : Option Rat) (used : List Nat) (out : List Setting × List (Nat × Proto)),
        acqLoop rate reps wf dur used l = .ok out → ∀ b ∈ l, b.protocol = .trace →
          Setting.monitorEnable true ∈ out.1 ∧ Setting.monitorAverages reps ∈ out.1 ∧
            Setting.monitorLength (pyRound (b.duration * rate)) ∈ out.1 := by
      intro l
      induction l with
      | nil => intro _ _ _ _ b hb; simp at hb
      | cons c l ih =>
        intro dur used out ho b hb hp
        obtain ⟨-, -, s1, s2, r1, h5, h6, rfl⟩ := acqLoop_cons.mp ho
        rcases List.mem_cons.mp hb with rfl | hb
        · simp only [acqSettings, hp, Except.ok.injEq] at h5
          subst h5
          exact ⟨List.mem_append_left _ (List.mem_append_left _ (.head _)),
            List.mem_append_left _ (List.mem_append_left _ (.tail _ (.head _))),
            List.mem_append_left _ (List.mem_append_left _ (.tail _ (.tail _ (.head _))))⟩
        · obtain ⟨h7, h8, h9⟩ := ih _ _ _ h6 b hb hp
          exact ⟨List.mem_append_right _ h7, List.mem_append_right _ h8, List.mem_append_right _ h9⟩
    have hif : (if BinMode.average = .append then 1 else reps) = reps := rfl
    rw [hif] at h3
    have up : ∀ x, x ∈ s' → x ∈ allWeights 0 ++ s' ++ [Setting.integrationLength (pyRound (a.duration * rate)), .resultEnable false,
          .monitorEnable false, .resultLength (if BinMode.average = .append then (a :: rest).length * reps else (a :: rest).length),
          .resultEnable true, .resultAverages (if BinMode.average = .append then 1 else reps)] :=
      fun x hx => List.mem_append_left _ (List.mem_append_right _ hx)
    obtain ⟨h5, h6, -⟩ := key _ _ _ _ h3 a hfirst (htr a (by simp))
    refine ⟨up _ h5, up _ h6, ?_, ?_⟩
    · intro b hb
      obtain ⟨c, hc, hcw⟩ := firstAcqs_all (a :: rest) [] b hb (by simp)
      obtain rfl := hs c (firstAcqs_sub _ _ _ hc).1 b hb hcw
      exact up _ (key _ _ _ _ h3 c hc (htr c hb)).2.2
    · refine ⟨cfg.resolvers.map fun e => (e.1, .trace mon), ?_, ?_, ?_⟩
      · refine retrieveQa_iff _ _ fun e he => ?_
        rw [hr] at he
        obtain ⟨c, hc, rfl⟩ := List.mem_map.mp he
        have := htr c (firstAcqs_sub _ _ _ hc).1
        simp [arrayOf, this, hb]
      · rw [hr]
        simp [firstAcqs]
      · intro e he
        obtain ⟨x, _, rfl⟩ := List.mem_map.mp he
        rfl

end Verif.Zi
