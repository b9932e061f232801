import Verif.Stack.Spec
import Verif.Stack.SweepLemmas
import Verif.Common.Lists

set_option linter.unusedSimpArgs false
set_option linter.unusedVariables false
set_option linter.unusedSectionVars false

namespace Verif.Stack

variable {V : Type} [AddCommMonoid V]

/-- A keyed pulse on `pc`, in components. -/
structure IsPulse (pc : String × String) (e : Entry V) (k : Nat) (i : Info V) : Prop where
  key : e.key = some k
  infos : e.infos = [i]
  wf : i.wave.hasWf = true
  pc : i.pc = pc

theorem first_of_infos {e : Entry V} {i : Info V} (h : e.infos = [i]) (hw : i.wave.hasWf = true) :
    e.first? = some i := by
  unfold Entry.first?; rw [h]; simp [hw]

theorem isPulse_of_onPc {pc : String × String} {e : Entry V} (hs : Single e)
    (h : onPc pc e = true) : ∃ k i, IsPulse pc e k i := by
  unfold onPc at h
  simp only [Bool.and_eq_true, decide_eq_true_eq] at h
  obtain ⟨k, hk⟩ := Option.isSome_iff_exists.mp h.1
  rcases hs with ⟨i, hi, hw⟩ | hs
  · refine ⟨k, i, hk, hi, hw, ?_⟩
    rw [first_of_infos hi hw] at h
    simpa using h.2
  · exfalso
    obtain ⟨h1, h2⟩ := h
    unfold Entry.first? at h2
    cases hc : e.infos with
    | nil => rw [hc] at h2; simp at h2
    | cons i is =>
      have := hs i (by rw [hc]; exact List.mem_cons_self)
      rw [hc] at h2
      simp [this, Wave.hasWf] at h2

theorem IsPulse.first {pc : String × String} {e : Entry V} {k : Nat} {i : Info V}
    (h : IsPulse pc e k i) : e.first? = some i := first_of_infos h.infos h.wf

theorem IsPulse.start {pc : String × String} {e : Entry V} {k : Nat} {i : Info V}
    (h : IsPulse pc e k i) : e.start = e.absTime + i.t0 := by
  unfold Entry.start; rw [h.first]; rfl

theorem IsPulse.stop {pc : String × String} {e : Entry V} {k : Nat} {i : Info V}
    (h : IsPulse pc e k i) : e.stop = e.start + i.wave.dur := by
  unfold Entry.stop; rw [h.first]; rfl

theorem IsPulse.events {pc : String × String} {e : Entry V} {k : Nat} {i : Info V}
    (h : IsPulse pc e k i) : entryEvents pc e = [⟨e.start, false, k⟩, ⟨e.stop, true, k⟩] := by
  unfold entryEvents
  rw [h.key, h.first, h.stop, h.start]
  simp [h.pc]

/-- A group of keyed pulses on `pc` with distinct keys. -/
structure Group (pc : String × String) (E : List (Entry V)) : Prop where
  pulse : ∀ e ∈ E, ∃ k i, IsPulse pc e k i
  nodup : (E.map Entry.key).Nodup

theorem Group.tail {pc : String × String} {e : Entry V} {E : List (Entry V)}
    (h : Group pc (e :: E)) : Group pc E :=
  ⟨fun e' he' => h.pulse e' (List.mem_cons_of_mem _ he'),
    (List.nodup_cons.mp (by simpa using h.nodup)).2⟩

theorem Group.mem_events {pc : String × String} {E : List (Entry V)} (h : Group pc E) (ev : Ev) :
    ev ∈ events E pc ↔ ∃ e ∈ E, ∃ k, e.key = some k ∧
      (ev = ⟨e.start, false, k⟩ ∨ ev = ⟨e.stop, true, k⟩) := by
  unfold events
  rw [List.mem_flatMap]
  constructor
  · rintro ⟨e, he, hev⟩
    obtain ⟨k, i, hp⟩ := h.pulse e he
    rw [hp.events] at hev
    simp only [List.mem_cons, List.not_mem_nil, or_false] at hev
    exact ⟨e, he, k, hp.key, hev⟩
  · rintro ⟨e, he, k, hk, hev⟩
    obtain ⟨k', i, hp⟩ := h.pulse e he
    have : k' = k := by have := hp.key; rw [hk] at this; exact (Option.some.inj this).symm
    subst this
    refine ⟨e, he, ?_⟩
    rw [hp.events]
    simpa using hev

/-- Entries of a group are determined by their key. -/
theorem Group.eq_of_key {pc : String × String} {E : List (Entry V)} (h : Group pc E)
    {a b : Entry V} (ha : a ∈ E) (hb : b ∈ E) (hk : a.key = b.key) : a = b :=
  List.inj_on_of_nodup_map h.nodup ha hb hk

theorem Group.uniq {pc : String × String} {E : List (Entry V)} (h : Group pc E) :
    ((events E pc).map (fun e => (e.key, e.isEnd))).Nodup := by
  induction E with
  | nil => simp [Stack.events]
  | cons e E ih =>
    have htail := h.tail
    obtain ⟨k, i, hp⟩ := h.pulse e List.mem_cons_self
    have hnd := h.nodup
    rw [List.map_cons, List.nodup_cons] at hnd
    have hev : events (e :: E) pc = [⟨e.start, false, k⟩, ⟨e.stop, true, k⟩] ++ events E pc := by
      unfold Stack.events; rw [List.flatMap_cons, hp.events]
    rw [hev, List.map_append, List.nodup_append]
    refine ⟨by simp, ih htail, ?_⟩
    intro a ha b hb
    obtain ⟨ev, hevm, rfl⟩ := List.mem_map.mp hb
    obtain ⟨e', he', k', hk', h'⟩ := (htail.mem_events ev).mp hevm
    have hkk : ev.key = k' := by rcases h' with rfl | rfl <;> rfl
    intro hab
    have : a.1 = k := by
      simp only [List.map_cons, List.map_nil, List.mem_cons, List.not_mem_nil, or_false] at ha
      rcases ha with rfl | rfl <;> rfl
    apply hnd.1
    rw [List.mem_map]
    refine ⟨e', he', ?_⟩
    rw [hk', hp.key, ← hkk]
    have := congrArg Prod.fst hab
    simp only at this
    rw [← this]; simpa using ‹a.1 = k›

theorem evLe_trans (a b c : Ev) : evLe a b = true → evLe b c = true → evLe a c = true := by
  unfold evLe
  simp only [Bool.or_eq_true, Bool.and_eq_true, decide_eq_true_eq, Bool.not_eq_true']
  rintro (h1 | ⟨h1, h1'⟩) (h2 | ⟨h2, h2'⟩)
  · left; omega
  · left; omega
  · left; omega
  · right
    refine ⟨by omega, ?_⟩
    rcases h1' with h | h
    · exact Or.inl h
    · rcases h2' with h' | h'
      · rw [h] at h'; cases h'
      · exact Or.inr h'

theorem evLe_total (a b : Ev) : (evLe a b || evLe b a) = true := by
  unfold evLe
  simp only [Bool.or_eq_true, Bool.and_eq_true, decide_eq_true_eq, Bool.not_eq_true']
  rcases Int.lt_trichotomy a.time b.time with h | h | h
  · left; left; exact h
  · cases ha : a.isEnd
    · left; right; exact ⟨h, Or.inl rfl⟩
    · right; right; exact ⟨h.symm, Or.inr rfl⟩
  · right; left; exact h

/-- The intervals of a group. -/
structure IvSpec (E : List (Entry V)) (ivs : List Interval) : Prop where
  active : ∀ n k, (∃ iv ∈ ivs, iv.start ≤ n ∧ n < iv.stop ∧ k ∈ iv.keys) ↔
    ∃ e ∈ E, e.key = some k ∧ e.start ≤ n ∧ n < e.stop
  disjoint : ivs.Pairwise (fun a b => a.stop ≤ b.start)
  shape : ∀ iv ∈ ivs, iv.start < iv.stop ∧ iv.keys ≠ [] ∧ iv.keys.Nodup
  stops : ∀ iv ∈ ivs, ∃ e ∈ E, iv.stop = e.start ∨ iv.stop = e.stop

theorem group_ivSpec {pc : String × String} {E : List (Entry V)} (h : Group pc E) :
    IvSpec E (sweep none [] ((events E pc).mergeSort evLe)) := by
  have hperm := List.mergeSort_perm (events E pc) evLe
  have hsort := List.pairwise_mergeSort evLe_trans evLe_total (events E pc)
  generalize hl : (events E pc).mergeSort evLe = l at hperm hsort
  have hmem : ∀ ev, ev ∈ l ↔ ∃ e ∈ E, ∃ k, e.key = some k ∧
      (ev = ⟨e.start, false, k⟩ ∨ ev = ⟨e.stop, true, k⟩) := by
    intro ev; rw [hperm.mem_iff, h.mem_events]
  have hle : ∀ e ∈ E, e.start ≤ e.stop := by
    intro e he
    obtain ⟨k, i, hp⟩ := h.pulse e he
    rw [hp.stop]; omega
  have hcons : Cons [] l := by
    refine ⟨List.nodup_nil, ?_, ?_, by simp, by simp, ?_⟩
    · exact (hperm.map _).nodup_iff.mpr h.uniq
    · refine hsort.imp_of_mem ?_
      intro a b ha hb hab
      rintro ⟨hk, h1, h2⟩
      obtain ⟨e, he, k, hek, rfl | rfl⟩ := (hmem a).mp ha
      · cases h1
      obtain ⟨e', he', k', hek', rfl | rfl⟩ := (hmem b).mp hb
      · simp only at hk
        subst hk
        have := h.eq_of_key he he' (by rw [hek, hek'])
        subst this
        have := hle e he
        unfold evLe at hab
        simp at hab
        omega
      · cases h2
    · intro k _
      constructor
      · rintro ⟨ev, hev, hk, h1⟩
        obtain ⟨e, he, k', hek, rfl | rfl⟩ := (hmem ev).mp hev
        · cases h1
        · exact ⟨⟨e.start, false, k'⟩, (hmem _).mpr ⟨e, he, k', hek, Or.inl rfl⟩, hk, rfl⟩
      · rintro ⟨ev, hev, hk, h1⟩
        obtain ⟨e, he, k', hek, rfl | rfl⟩ := (hmem ev).mp hev
        · exact ⟨⟨e.stop, true, k'⟩, (hmem _).mpr ⟨e, he, k', hek, Or.inr rfl⟩, hk, rfl⟩
        · cases h1
  have htime : l.Pairwise (fun a b => a.time ≤ b.time) := by
    refine hsort.imp ?_
    intro a b hab
    unfold evLe at hab
    simp only [Bool.or_eq_true, Bool.and_eq_true, decide_eq_true_eq] at hab
    omega
  have hact : ∀ n k, ActiveG [] l n k ↔ ∃ e ∈ E, e.key = some k ∧ e.start ≤ n ∧ n < e.stop := by
    intro n k
    unfold ActiveG
    constructor
    · rintro ⟨h1, h2⟩
      rcases h1 with h1 | ⟨ev, hev, hk, hend, ht⟩
      · simp at h1
      · obtain ⟨e, he, k', hek, rfl | rfl⟩ := (hmem ev).mp hev
        · simp only at hk ht
          subst hk
          exact ⟨e, he, hek, ht,
            h2 ⟨e.stop, true, k'⟩ ((hmem _).mpr ⟨e, he, k', hek, Or.inr rfl⟩) rfl rfl⟩
        · cases hend
    · rintro ⟨e, he, hek, h1, h2⟩
      refine ⟨Or.inr ⟨⟨e.start, false, k⟩, (hmem _).mpr ⟨e, he, k, hek, Or.inl rfl⟩, rfl, rfl, h1⟩, ?_⟩
      intro ev hev hk hend
      obtain ⟨e', he', k', hek', rfl | rfl⟩ := (hmem ev).mp hev
      · cases hend
      · simp only at hk
        subst hk
        have := h.eq_of_key he he' (by rw [hek, hek'])
        subst this
        exact h2
  cases l with
  | nil =>
    have hE : E = [] := by
      cases E with
      | nil => rfl
      | cons e E =>
        obtain ⟨k, i, hp⟩ := h.pulse e List.mem_cons_self
        have := (hmem ⟨e.start, false, k⟩).mpr ⟨e, List.mem_cons_self, k, hp.key, Or.inl rfl⟩
        simp at this
    subst hE
    exact ⟨by simp [sweep], by simp [sweep], by simp [sweep], by simp [sweep]⟩
  | cons ev l =>
    have hsp := sweep_none_spec hcons htime
    refine ⟨?_, hsp.disjoint, fun iv hiv => (hsp.shape iv hiv).2, ?_⟩
    · intro n k
      by_cases hn : ev.time ≤ n
      · rw [hsp.active n hn k, hact]
      · constructor
        · rintro ⟨iv, hiv, h1, _⟩
          have := (hsp.shape iv hiv).1
          omega
        · rintro ⟨e, he, hek, h1, h2⟩
          exfalso
          have hm := (hmem ⟨e.start, false, k⟩).mpr ⟨e, he, k, hek, Or.inl rfl⟩
          rw [List.pairwise_cons] at htime
          rcases List.mem_cons.mp hm with hm | hm
          · rw [← hm] at hn; exact hn h1
          · have := htime.1 _ hm
            simp only at this
            omega
    · intro iv hiv
      obtain ⟨ev', hev', hstop⟩ := hsp.stops iv hiv
      obtain ⟨e, he, k, _, rfl | rfl⟩ := (hmem ev').mp hev'
      · exact ⟨e, he, Or.inl hstop.symm⟩
      · exact ⟨e, he, Or.inr hstop.symm⟩

/-- Within an interval the active pulses do not change. -/
theorem IvSpec.mem_keys {E : List (Entry V)} {ivs : List Interval} (h : IvSpec E ivs)
    {iv : Interval} (hiv : iv ∈ ivs) {n : Int} (h1 : iv.start ≤ n) (h2 : n < iv.stop) (k : Nat) :
    k ∈ iv.keys ↔ ∃ e ∈ E, e.key = some k ∧ e.start ≤ n ∧ n < e.stop := by
  rw [← h.active n k]
  constructor
  · intro hk; exact ⟨iv, hiv, h1, h2, hk⟩
  · rintro ⟨iv', hiv', g1, g2, hk⟩
    have : iv' = iv := by
      by_contra hne
      rcases pairwise_cases h.disjoint hiv' hiv with h | h | h
      · exact hne h
      · omega
      · omega
    rw [← this]; exact hk

end Verif.Stack
