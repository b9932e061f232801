/-
Theorems about warnings.
-/
import Verif.Warnings.Model
import Verif.AcqSet.Qtm
import Mathlib.Tactic.Linarith

set_option linter.unusedSimpArgs false

namespace Verif.Warnings

/-! ### Clocks -/

/-- A frequency of the device configuration agrees with one of the schedule: it is NaN or the
same number. -/
def Agree (d s : Freq) : Prop := d = none ∨ ∃ x : Rat, d = some x ∧ s = some x

/-- Consistent definitions of a clock: the device configuration has only NaN, or as many frequencies
as the schedule, which agree one by one. -/
def Consistent (d s : List Freq) : Prop := (∀ f ∈ d, f = none) ∨ List.Forall₂ Agree d s

theorem agree_iff (d s : Freq) : (d.isNone || eqF d s) = true ↔ Agree d s := by
  unfold Agree eqF
  cases d <;> cases s <;> simp [eq_comm]

theorem zip_all {xs ys : List Freq} (h : xs.length = ys.length) :
    (xs.zip ys).all (fun p => p.1.isNone || eqF p.1 p.2) = true ↔ List.Forall₂ Agree xs ys := by
  induction xs generalizing ys with
  | nil => cases ys with
    | nil => simp
    | cons y ys => simp at h
  | cons x xs ih => cases ys with
    | nil => simp at h
    | cons y ys =>
      rw [List.zip_cons_cons, List.all_cons, Bool.and_eq_true, agree_iff, ih (by simpa using h),
        List.forall₂_cons]

/-- C88. Two single frequencies, or two arrays of the same length: they are called compatible iff they
are consistent, and a warning is emitted iff they are not. -/
theorem same_length_partial {d s : Freqs} (h : (∃ x y, d = .scalar x ∧ s = .scalar y) ∨
    ∃ xs ys, d = .array xs ∧ s = .array ys ∧ xs.length = ys.length) :
    ((clocksCompatible d s).1 = true ↔ Consistent d.entries s.entries) ∧
    ((clocksCompatible d s).2 = true ↔ ¬ Consistent d.entries s.entries) := by
  have key : ∀ ps, broadcast d s = some ps →
      (ps.all (fun p => p.1.isNone || eqF p.1 p.2) = true ↔ List.Forall₂ Agree d.entries s.entries) →
      ((clocksCompatible d s).1 = true ↔ Consistent d.entries s.entries) ∧
      ((clocksCompatible d s).2 = true ↔ ¬ Consistent d.entries s.entries) := by
    intro ps hb hps
    unfold clocksCompatible Consistent
    rw [hb, ← hps]
    have hn : d.entries.all (·.isNone) = true ↔ ∀ f ∈ d.entries, f = none := by
      simp [List.all_eq_true]
    rw [← hn]
    by_cases h1 : d.entries.all (·.isNone) = true
    · simp only [h1, if_true]; simp
    · simp only [h1]
      by_cases h2 : ps.all (fun p => p.1.isNone || eqF p.1 p.2) = true
      · simp only [h2]; simp
      · simp only [h2]; simp
  rcases h with ⟨x, y, rfl, rfl⟩ | ⟨xs, ys, rfl, rfl, hl⟩
  · refine key _ rfl ?_
    simp only [Freqs.entries, List.map_cons, List.map_nil, List.all_cons, List.all_nil, Bool.and_true,
      agree_iff, List.forall₂_cons, List.forall₂_nil_left_iff, and_true]
  · refine key (xs.zip ys) (by simp [broadcast, hl]) (zip_all hl)

/-- A clock that the device configuration gives as one number other than NaN, and the schedule as an
array: a warning iff some frequency differs. -/
theorem scalar_array (x : Rat) (ys : List Freq) :
    ((clocksCompatible (.scalar (some x)) (.array ys)).2 = true ↔ ∃ y ∈ ys, y ≠ some x) ∧
    ((clocksCompatible (.scalar (some x)) (.array ys)).1 = true ↔ ∀ y ∈ ys, y = some x) := by
  have hy : ∀ y : Freq, ((some x : Freq).isNone || eqF (some x) y) = decide (y = some x) := by
    intro y; cases y <;> simp [eqF, eq_comm]
  have hb : (((Freqs.array ys).entries.map fun b => (some x, b)).all
      (fun p => p.1.isNone || eqF p.1 p.2)) = ys.all (fun y => decide (y = some x)) := by
    rw [List.all_map]
    congr 1
    funext y
    exact hy y
  unfold clocksCompatible
  rw [if_neg (by simp [Freqs.entries])]
  simp only [broadcast, hb]
  by_cases h : ys.all (fun y => decide (y = some x)) = true
  · rw [if_pos h]
    have h' : ∀ y ∈ ys, y = some x := by simpa [List.all_eq_true] using h
    refine ⟨⟨by simp, ?_⟩, ⟨fun _ => h', fun _ => rfl⟩⟩
    rintro ⟨y, hy, hn⟩; exact absurd (h' y hy) hn
  · rw [if_neg h]
    have h' : ∃ y ∈ ys, y ≠ some x := by
      by_contra hn
      push Not at hn
      exact h (by simpa [List.all_eq_true] using hn)
    refine ⟨⟨fun _ => h', fun _ => rfl⟩, ⟨by simp, fun ha => ?_⟩⟩
    obtain ⟨y, hy, hn⟩ := h'; exact absurd (ha y hy) hn

/-- Finding: arrays of different lengths (neither of them 1) are inconsistent, but there is no warning. -/
theorem lengths_not_warned {xs ys : List Freq} (hl : xs.length ≠ ys.length) (hx : xs.length ≠ 1)
    (hy : ys.length ≠ 1) (hn : ∃ f ∈ xs, f ≠ none) :
    clocksCompatible (.array xs) (.array ys) = (false, false) ∧ ¬ Consistent xs ys := by
  constructor
  · have hb : broadcast (.array xs) (.array ys) = none := by
      unfold broadcast
      simp only [hl, if_false]
      split
      · simp at hx
      · simp at hy
      · rfl
    unfold clocksCompatible
    rw [hb, if_neg]
    obtain ⟨f, hf, hne⟩ := hn
    simp only [List.all_eq_true, not_forall, Freqs.entries]
    exact ⟨f, hf, by simpa using hne⟩
  · rintro (h | h)
    · obtain ⟨f, hf, hne⟩ := hn; exact hne (h f hf)
    · exact hl h.length_eq

/-- Finding: one frequency in an array is compared with each of another array; the documentation says that
arrays of different lengths are not equal. -/
theorem broadcast_compatible :
    clocksCompatible (.array [some 5]) (.array [some 5, some 5]) = (true, false) ∧
    ¬ Consistent [some 5] [some 5, some 5] := by
  refine ⟨by decide +kernel, ?_⟩
  rintro (h | h)
  · exact absurd (h (some 5) (by simp)) (by simp)
  · exact absurd h.length_eq (by simp)

/-- C88. The schedule wins: a clock that it defines keeps its frequency; a clock that only the device
configuration has gets the frequency there. -/
theorem schedule_wins {dev all : List (String × Freqs)} (hd : (dev.map (·.1)).Nodup) (c : String) :
    Dict.get? (addDevice dev all).1 c = (Dict.get? all c).or (Dict.get? dev c) := by
  induction dev generalizing all with
  | nil => simp [addDevice, Dict.get?]
  | cons e r ih =>
    obtain ⟨k, f⟩ := e
    simp only [List.map_cons, List.nodup_cons] at hd
    have hk : Dict.get? r k = none := by
      cases hg : Dict.get? r k with
      | none => rfl
      | some v => exact absurd (List.mem_map.2 ⟨_, Dict.mem_of_get? hg, rfl⟩) hd.1
    have hcons : Dict.get? ((k, f) :: r) c = if k = c then some f else Dict.get? r c := by
      rw [Dict.get?_cons]
    unfold addDevice
    cases hg : Dict.get? all k with
    | none =>
      simp only
      rw [ih hd.2, hcons]
      by_cases hkc : k = c
      · subst hkc; rw [Dict.get?_set_self, hg]; simp
      · rw [Dict.get?_set_ne _ _ (Ne.symm hkc), if_neg hkc]
    | some s =>
      simp only
      rw [ih hd.2, hcons]
      by_cases hkc : k = c
      · subst hkc; rw [hg]; simp
      · rw [if_neg hkc]

/-- C88. A warning is emitted for a clock iff both define it and the comparison warns. -/
theorem warned_iff {dev all : List (String × Freqs)} (hd : (dev.map (·.1)).Nodup) (c : String) :
    c ∈ (addDevice dev all).2 ↔
      ∃ d s, (c, d) ∈ dev ∧ Dict.get? all c = some s ∧ (clocksCompatible d s).2 = true := by
  induction dev generalizing all with
  | nil => simp [addDevice]
  | cons e r ih =>
    obtain ⟨k, f⟩ := e
    simp only [List.map_cons, List.nodup_cons] at hd
    have hin : ∀ {d}, (c, d) ∈ r → c ≠ k := by
      rintro d h rfl; exact hd.1 (List.mem_map.2 ⟨_, h, rfl⟩)
    unfold addDevice
    cases hg : Dict.get? all k with
    | none =>
      simp only
      rw [ih hd.2]
      constructor
      · rintro ⟨d, s, h1, h2, h3⟩
        rw [Dict.get?_set_ne _ _ (hin h1)] at h2
        exact ⟨d, s, List.mem_cons_of_mem _ h1, h2, h3⟩
      · rintro ⟨d, s, h1, h2, h3⟩
        rcases List.mem_cons.1 h1 with h1 | h1
        · simp only [Prod.mk.injEq] at h1
          rw [h1.1, hg] at h2; cases h2
        · exact ⟨d, s, h1, by rw [Dict.get?_set_ne _ _ (hin h1)]; exact h2, h3⟩
    | some v =>
      simp only
      by_cases hw : (clocksCompatible f v).2 = true
      · rw [if_pos hw, List.mem_cons, ih hd.2]
        constructor
        · rintro (rfl | ⟨d, s, h1, h2, h3⟩)
          · exact ⟨f, v, by simp, hg, hw⟩
          · exact ⟨d, s, List.mem_cons_of_mem _ h1, h2, h3⟩
        · rintro ⟨d, s, h1, h2, h3⟩
          rcases List.mem_cons.1 h1 with h1 | h1
          · simp only [Prod.mk.injEq] at h1; exact Or.inl h1.1
          · exact Or.inr ⟨d, s, h1, h2, h3⟩
      · rw [if_neg hw, ih hd.2]
        constructor
        · rintro ⟨d, s, h1, h2, h3⟩; exact ⟨d, s, List.mem_cons_of_mem _ h1, h2, h3⟩
        · rintro ⟨d, s, h1, h2, h3⟩
          rcases List.mem_cons.1 h1 with h1 | h1
          · simp only [Prod.mk.injEq] at h1
            obtain ⟨rfl, rfl⟩ := h1
            rw [hg] at h2
            simp only [Option.some.injEq] at h2
            subst h2; exact absurd h3 hw
          · exact ⟨d, s, h1, h2, h3⟩

/-- A case with every possibility. -/
theorem exClocks : addDevice
    [("q0.01", .scalar (some 5)), ("q0.12", .scalar (some 4)), ("q0.ro", .scalar none),
     ("q1.01", .scalar (some 6))]
    [("q0.01", .scalar (some 5)), ("q0.12", .scalar (some 3)), ("q0.ro", .scalar (some 7))] =
    ([("q0.01", .scalar (some 5)), ("q0.12", .scalar (some 3)), ("q0.ro", .scalar (some 7)),
      ("q1.01", .scalar (some 6))], ["q0.12"]) := by decide +kernel

/-! ### Time references -/

open AcqSet (Acq Proto TimeRef)

theorem mem_acqs {l : List Strat} {a : Acq} : a ∈ acqs l ↔ Strat.acq a ∈ l := by
  induction l with
  | nil => simp [acqs]
  | cons s l ih => cases s <;> simp [acqs, ih]

/-- Some acquisition with protocol Timetag is relative to `ref`. -/
def TagsBy (l : List Strat) (ref : TimeRef) : Prop :=
  ∃ a t, Strat.acq a ∈ l ∧ a.proto = .timetag ∧ a.timing = some t ∧ t.ref = ref

/-- A sequencer with a timetag, whose settings could be made, has one time reference. -/
theorem one_ref {l : List Strat} {s : AcqSet.Qtm} (h : AcqSet.qtm (acqs l) = .ok s) {a : Acq}
    (ha : Strat.acq a ∈ l) (hp : a.proto = .timetag) :
    ∃ r, ∀ b, Strat.acq b ∈ l → ∃ t, b.timing = some t ∧ t.ref = r := by
  obtain ⟨src, ref, ch, hall, -⟩ := AcqSet.qtm_times h ⟨a, mem_acqs.2 ha, Or.inl hp⟩
  exact ⟨ref, fun b hb => ⟨_, hall b (mem_acqs.2 hb), rfl⟩⟩

/-- C89. On a sequencer whose settings could be made: the first warning is emitted iff a timetag is
relative to a timestamp and there is none; the second iff there are timetags and a timestamp, and
no timetag is relative to it. -/
theorem time_ref_warned_partial {l : List Strat} {s : AcqSet.Qtm} (h : AcqSet.qtm (acqs l) = .ok s) :
    ∃ w, timeRefWarning l = .ok w ∧
      (w = some .missing ↔ TagsBy l .timestamp ∧ Strat.timestamp ∉ l) ∧
      (w = some .unused ↔ (∃ a, Strat.acq a ∈ l ∧ a.proto = .timetag) ∧ ¬ TagsBy l .timestamp ∧
        Strat.timestamp ∈ l) := by
  have hp : (l.any fun s => decide (s = .timestamp)) = true ↔ Strat.timestamp ∈ l := by simp
  unfold timeRefWarning
  cases hf : (acqs l).find? (fun a => decide (a.proto = .timetag)) with
  | none =>
    have hno : ¬ ∃ a, Strat.acq a ∈ l ∧ a.proto = .timetag := by
      rintro ⟨a, ha, hpa⟩
      have := List.find?_eq_none.1 hf a (mem_acqs.2 ha)
      simp [hpa] at this
    refine ⟨none, rfl, ?_, ?_⟩
    · refine ⟨fun h => (by cases h), ?_⟩
      rintro ⟨⟨a, t, h1, h2, -⟩, -⟩; exact absurd ⟨a, h1, h2⟩ hno
    · exact ⟨fun h => (by cases h), fun h => absurd h.1 hno⟩
  | some a =>
    have ha := mem_acqs.1 (List.mem_of_find?_eq_some hf)
    have hpa : a.proto = .timetag := by simpa using List.find?_some hf
    obtain ⟨r, hr⟩ := one_ref h ha hpa
    obtain ⟨t, ht, htr⟩ := hr a ha
    have htag : TagsBy l .timestamp ↔ t.ref = .timestamp := by
      constructor
      · rintro ⟨b, tb, h1, h2, h3, h4⟩
        obtain ⟨t', ht', hr'⟩ := hr b h1
        rw [h3, Option.some.injEq] at ht'
        rw [htr, ← hr', ← ht', h4]
      · intro e; exact ⟨a, t, ha, hpa, ht, e⟩
    have hex : ∃ a, Strat.acq a ∈ l ∧ a.proto = .timetag := ⟨a, ha, hpa⟩
    simp only [ht]
    rw [htag, ← hp]
    by_cases h1 : t.ref = .timestamp <;>
      cases h2 : (l.any fun s => decide (s = .timestamp)) <;> simp [h1, hex]

/-- A Timetag acquisition. -/
def tag (p : Proto) (r : TimeRef) : Acq where
  proto := p
  bin := .append
  duration := 1
  channel := 0
  disc := none
  address := none
  count := none
  dual := none
  timing := some ⟨.first, r, none⟩

/-- The hypothesis is met, with each result. -/
theorem exRefs :
    (∃ s, AcqSet.qtm (acqs [.other, .acq (tag .timetag .timestamp), .acq (tag .timetag .timestamp)]) = .ok s) ∧
    timeRefWarning [.other, .acq (tag .timetag .timestamp), .acq (tag .timetag .timestamp)] =
      .ok (some .missing) ∧
    timeRefWarning [.timestamp, .acq (tag .timetag .timestamp)] = .ok none ∧
    timeRefWarning [.acq (tag .timetag .start), .timestamp] = .ok (some .unused) ∧
    timeRefWarning [.acq (tag .timetag .start)] = .ok none := by
  refine ⟨⟨_, rfl⟩, by decide +kernel, by decide +kernel, by decide +kernel, by decide +kernel⟩

/-- Finding: traces of timetags are relative to the same reference, but without a Timetag acquisition
nothing is checked: neither a reference to a timestamp that is missing, nor a timestamp that nothing
refers to. -/
theorem only_timetag {l : List Strat} (h : ∀ a, Strat.acq a ∈ l → a.proto ≠ .timetag) :
    timeRefWarning l = .ok none := by
  unfold timeRefWarning
  have : (acqs l).find? (fun a => decide (a.proto = .timetag)) = none := by
    rw [List.find?_eq_none]
    intro a ha
    simpa using h a (mem_acqs.1 ha)
  rw [this]

/-- A trace of timetags relative to a timestamp, which is missing; and a lone timestamp. -/
theorem exOnly : (∃ s, AcqSet.qtm (acqs [.acq (tag .timetagTrace .timestamp)]) = .ok s) ∧
    timeRefWarning [.acq (tag .timetagTrace .timestamp)] = .ok none ∧
    timeRefWarning [.timestamp] = .ok none := by
  refine ⟨⟨_, rfl⟩, by decide +kernel, by decide +kernel⟩

end Verif.Warnings
