/-
The sweep line finds, for each instant, exactly the active pulses.
-/
import Verif.Stack.Model
import Mathlib.Data.List.Basic
import Mathlib.Data.List.Nodup
import Mathlib.Order.Basic
import Mathlib.Data.List.Perm.Basic

set_option linter.unusedSimpArgs false
set_option linter.unusedVariables false

namespace Verif.Stack

/-- Consistency of the active set with the rest of the events. -/
structure Cons (act : List Nat) (l : List Ev) : Prop where
  nodup : act.Nodup
  uniq : (l.map (fun e => (e.key, e.isEnd))).Nodup
  ordered : l.Pairwise (fun a b => ¬ (a.key = b.key ∧ a.isEnd = true ∧ b.isEnd = false))
  act_start : ∀ k ∈ act, ∀ e ∈ l, e.key = k → e.isEnd = true
  act_end : ∀ k ∈ act, ∃ e ∈ l, e.key = k ∧ e.isEnd = true
  rest : ∀ k, k ∉ act → ((∃ e ∈ l, e.key = k ∧ e.isEnd = true) ↔
    ∃ e ∈ l, e.key = k ∧ e.isEnd = false)

/-- `k` is active at `n`, given the active set and the remaining events. -/
def ActiveG (act : List Nat) (l : List Ev) (n : Int) (k : Nat) : Prop :=
  (k ∈ act ∨ ∃ e ∈ l, e.key = k ∧ e.isEnd = false ∧ e.time ≤ n) ∧
  ∀ e ∈ l, e.key = k → e.isEnd = true → n < e.time

theorem mem_addKey {k k' : Nat} {act : List Nat} : k' ∈ addKey k act ↔ k' = k ∨ k' ∈ act := by
  unfold addKey
  split
  · constructor
    · exact Or.inr
    · rintro (rfl | h) <;> assumption
  · simp [or_comm]

theorem cons_start {act : List Nat} {e : Ev} {l : List Ev} (h : Cons act (e :: l))
    (he : e.isEnd = false) : Cons (addKey e.key act) l := by
  have hk : e.key ∉ act := by
    intro hm
    have := h.act_start _ hm e List.mem_cons_self rfl
    rw [he] at this; cases this
  have huniq := h.uniq
  rw [List.map_cons, List.nodup_cons] at huniq
  have hord := h.ordered
  rw [List.pairwise_cons] at hord
  refine ⟨?_, huniq.2, hord.2, ?_, ?_, ?_⟩
  · unfold addKey
    rw [if_neg hk, List.nodup_append]
    refine ⟨h.nodup, by simp, ?_⟩
    intro a ha b hb
    simp only [List.mem_singleton] at hb
    subst hb; rintro rfl; exact hk ha
  · intro k hkm e' he' hkey
    rcases mem_addKey.mp hkm with rfl | hkm
    · by_contra hne
      apply huniq.1
      rw [List.mem_map]
      refine ⟨e', he', ?_⟩
      have : e'.isEnd = false := by simpa using hne
      rw [hkey, this, he]
    · exact h.act_start k hkm e' (List.mem_cons_of_mem _ he') hkey
  · intro k hkm
    rcases mem_addKey.mp hkm with rfl | hkm
    · obtain ⟨e', he', hkey, hend⟩ := (h.rest e.key hk).mpr ⟨e, List.mem_cons_self, rfl, he⟩
      rcases List.mem_cons.mp he' with rfl | he'
      · rw [he] at hend; cases hend
      · exact ⟨e', he', hkey, hend⟩
    · obtain ⟨e', he', hkey, hend⟩ := h.act_end k hkm
      rcases List.mem_cons.mp he' with rfl | he'
      · rw [he] at hend; cases hend
      · exact ⟨e', he', hkey, hend⟩
  · intro k hkm
    have hk1 : k ≠ e.key := fun hc => hkm (mem_addKey.mpr (Or.inl hc))
    have hk2 : k ∉ act := fun hc => hkm (mem_addKey.mpr (Or.inr hc))
    have := h.rest k hk2
    constructor
    · rintro ⟨e', he', hkey, hend⟩
      obtain ⟨e2, he2, hkey2, hend2⟩ := this.mp ⟨e', List.mem_cons_of_mem _ he', hkey, hend⟩
      rcases List.mem_cons.mp he2 with rfl | he2
      · exact absurd hkey2.symm hk1
      · exact ⟨e2, he2, hkey2, hend2⟩
    · rintro ⟨e', he', hkey, hend⟩
      obtain ⟨e2, he2, hkey2, hend2⟩ := this.mpr ⟨e', List.mem_cons_of_mem _ he', hkey, hend⟩
      rcases List.mem_cons.mp he2 with rfl | he2
      · exact absurd hkey2.symm hk1
      · exact ⟨e2, he2, hkey2, hend2⟩

theorem cons_end_mem {act : List Nat} {e : Ev} {l : List Ev} (h : Cons act (e :: l))
    (he : e.isEnd = true) : e.key ∈ act := by
  by_contra hk
  obtain ⟨e', he', hkey, hend⟩ := (h.rest e.key hk).mp ⟨e, List.mem_cons_self, rfl, he⟩
  rcases List.mem_cons.mp he' with rfl | he'
  · rw [he] at hend; cases hend
  · have hord := h.ordered
    rw [List.pairwise_cons] at hord
    exact hord.1 e' he' ⟨hkey.symm, he, hend⟩

theorem cons_end {act : List Nat} {e : Ev} {l : List Ev} (h : Cons act (e :: l))
    (he : e.isEnd = true) : Cons (act.erase e.key) l := by
  have hk := cons_end_mem h he
  have huniq := h.uniq
  rw [List.map_cons, List.nodup_cons] at huniq
  have hord := h.ordered
  rw [List.pairwise_cons] at hord
  refine ⟨h.nodup.erase _, huniq.2, hord.2, ?_, ?_, ?_⟩
  · intro k hkm e' he' hkey
    exact h.act_start k (List.mem_of_mem_erase hkm) e' (List.mem_cons_of_mem _ he') hkey
  · intro k hkm
    rw [h.nodup.mem_erase_iff] at hkm
    obtain ⟨e', he', hkey, hend⟩ := h.act_end k hkm.2
    rcases List.mem_cons.mp he' with rfl | he'
    · exact absurd hkey.symm hkm.1
    · exact ⟨e', he', hkey, hend⟩
  · intro k hkm
    rw [h.nodup.mem_erase_iff] at hkm
    by_cases hke : k = e.key
    · subst hke
      constructor
      · rintro ⟨e', he', hkey, hend⟩
        exfalso
        apply huniq.1
        rw [List.mem_map]
        exact ⟨e', he', by rw [hkey, hend, he]⟩
      · rintro ⟨e', he', hkey, hend⟩
        exfalso
        exact hord.1 e' he' ⟨hkey.symm, he, hend⟩
    · have hk2 : k ∉ act := fun hc => hkm ⟨hke, hc⟩
      have := h.rest k hk2
      constructor
      · rintro ⟨e', he', hkey, hend⟩
        obtain ⟨e2, he2, hkey2, hend2⟩ := this.mp ⟨e', List.mem_cons_of_mem _ he', hkey, hend⟩
        rcases List.mem_cons.mp he2 with rfl | he2
        · exact absurd hkey2.symm hke
        · exact ⟨e2, he2, hkey2, hend2⟩
      · rintro ⟨e', he', hkey, hend⟩
        obtain ⟨e2, he2, hkey2, hend2⟩ := this.mpr ⟨e', List.mem_cons_of_mem _ he', hkey, hend⟩
        rcases List.mem_cons.mp he2 with rfl | he2
        · exact absurd hkey2.symm hke
        · exact ⟨e2, he2, hkey2, hend2⟩

/-- The next active set. -/
def step (act : List Nat) (e : Ev) : List Nat :=
  if e.isEnd then act.erase e.key else addKey e.key act

theorem cons_step {act : List Nat} {e : Ev} {l : List Ev} (h : Cons act (e :: l)) :
    Cons (step act e) l := by
  unfold step
  by_cases he : e.isEnd = true
  · rw [if_pos he]; exact cons_end h he
  · rw [if_neg he]; exact cons_start h (by simpa using he)

theorem active_step {act : List Nat} {e : Ev} {l : List Ev} (h : Cons act (e :: l)) {n : Int}
    (hn : e.time ≤ n) (k : Nat) : ActiveG act (e :: l) n k ↔ ActiveG (step act e) l n k := by
  have huniq := h.uniq
  rw [List.map_cons, List.nodup_cons] at huniq
  have hord := h.ordered
  rw [List.pairwise_cons] at hord
  unfold step
  by_cases he : e.isEnd = true
  · rw [if_pos he]
    have hk := cons_end_mem h he
    unfold ActiveG
    rw [h.nodup.mem_erase_iff]
    by_cases hke : k = e.key
    · subst hke
      constructor
      · rintro ⟨_, h2⟩
        have := h2 e List.mem_cons_self rfl he
        omega
      · rintro ⟨h1, _⟩
        rcases h1 with ⟨h1, _⟩ | ⟨e', he', hkey, hend, _⟩
        · exact absurd rfl h1
        · exact absurd ⟨hkey.symm, he, hend⟩ (hord.1 e' he')
    · constructor
      · rintro ⟨h1, h2⟩
        refine ⟨?_, fun e' he' => h2 e' (List.mem_cons_of_mem _ he')⟩
        rcases h1 with h1 | ⟨e', he', hkey, hend, ht⟩
        · exact Or.inl ⟨hke, h1⟩
        · rcases List.mem_cons.mp he' with rfl | he'
          · exact absurd hkey.symm hke
          · exact Or.inr ⟨e', he', hkey, hend, ht⟩
      · rintro ⟨h1, h2⟩
        refine ⟨?_, ?_⟩
        · rcases h1 with ⟨_, h1⟩ | ⟨e', he', hr⟩
          · exact Or.inl h1
          · exact Or.inr ⟨e', List.mem_cons_of_mem _ he', hr⟩
        · intro e' he' hkey hend
          rcases List.mem_cons.mp he' with rfl | he'
          · exact absurd hkey.symm hke
          · exact h2 e' he' hkey hend
  · rw [if_neg he]
    have he : e.isEnd = false := by simpa using he
    unfold ActiveG
    rw [mem_addKey]
    constructor
    · rintro ⟨h1, h2⟩
      refine ⟨?_, fun e' he' => h2 e' (List.mem_cons_of_mem _ he')⟩
      rcases h1 with h1 | ⟨e', he', hkey, hend, ht⟩
      · exact Or.inl (Or.inr h1)
      · rcases List.mem_cons.mp he' with rfl | he'
        · exact Or.inl (Or.inl hkey.symm)
        · exact Or.inr ⟨e', he', hkey, hend, ht⟩
    · rintro ⟨h1, h2⟩
      refine ⟨?_, ?_⟩
      · rcases h1 with (rfl | h1) | ⟨e', he', hr⟩
        · exact Or.inr ⟨e, List.mem_cons_self, rfl, he, hn⟩
        · exact Or.inl h1
        · exact Or.inr ⟨e', List.mem_cons_of_mem _ he', hr⟩
      · intro e' he' hkey hend
        rcases List.mem_cons.mp he' with rfl | he'
        · rw [he] at hend; cases hend
        · exact h2 e' he' hkey hend

theorem sweep_some (t : Int) (act : List Nat) (e : Ev) (es : List Ev) :
    sweep (some t) act (e :: es) = if e.time > t then
      (if act.isEmpty then [] else [⟨t, e.time, act⟩]) ++ sweep (some e.time) (step act e) es
    else sweep (some t) (step act e) es := rfl

/-- What the sweep computes. -/
structure SweepSpec (t : Int) (act : List Nat) (l : List Ev) (r : List Interval) : Prop where
  active : ∀ n, t ≤ n → ∀ k, (∃ iv ∈ r, iv.start ≤ n ∧ n < iv.stop ∧ k ∈ iv.keys) ↔
    ActiveG act l n k
  disjoint : r.Pairwise (fun a b => a.stop ≤ b.start)
  shape : ∀ iv ∈ r, t ≤ iv.start ∧ iv.start < iv.stop ∧ iv.keys ≠ [] ∧ iv.keys.Nodup
  stops : ∀ iv ∈ r, ∃ e ∈ l, e.time = iv.stop

theorem sweep_spec : ∀ (l : List Ev) (t : Int) (act : List Nat), Cons act l →
    l.Pairwise (fun a b => a.time ≤ b.time) → (∀ e ∈ l, t ≤ e.time) →
    SweepSpec t act l (sweep (some t) act l) := by
  intro l
  induction l with
  | nil =>
    intro t act hc _ _
    have hact : act = [] := by
      cases act with
      | nil => rfl
      | cons k act =>
        obtain ⟨e, he, _⟩ := hc.act_end k List.mem_cons_self
        simp at he
    subst hact
    refine ⟨?_, by simp [sweep], by simp [sweep], by simp [sweep]⟩
    intro n _ k
    simp [sweep, ActiveG]
  | cons e l ih =>
    intro t act hc hs ht
    rw [List.pairwise_cons] at hs
    have hc' := cons_step hc
    rw [sweep_some]
    split
    · rename_i hgt
      have hr := ih e.time (step act e) hc' hs.2 hs.1
      refine ⟨?_, ?_, ?_, ?_⟩
      · intro n hn k
        by_cases hne : e.time ≤ n
        · rw [active_step hc hne, ← hr.active n hne k]
          constructor
          · rintro ⟨iv, hiv, h1, h2, h3⟩
            rcases List.mem_append.mp hiv with hiv | hiv
            · split at hiv
              · simp at hiv
              · simp only [List.mem_singleton] at hiv
                subst hiv
                simp only at h2
                omega
            · exact ⟨iv, hiv, h1, h2, h3⟩
          · rintro ⟨iv, hiv, h⟩
            exact ⟨iv, List.mem_append_right _ hiv, h⟩
        · have hne : n < e.time := by omega
          have hA : ActiveG act (e :: l) n k ↔ k ∈ act := by
            unfold ActiveG
            constructor
            · rintro ⟨h1 | ⟨e', he', _, _, h1⟩, _⟩
              · exact h1
              · rcases List.mem_cons.mp he' with rfl | he'
                · omega
                · have := hs.1 e' he'; omega
            · intro hk
              refine ⟨Or.inl hk, ?_⟩
              intro e' he' _ _
              rcases List.mem_cons.mp he' with rfl | he'
              · exact hne
              · have := hs.1 e' he'; omega
          rw [hA]
          constructor
          · rintro ⟨iv, hiv, h1, h2, h3⟩
            rcases List.mem_append.mp hiv with hiv | hiv
            · split at hiv
              · simp at hiv
              · simp only [List.mem_singleton] at hiv
                subst hiv
                exact h3
            · have := (hr.shape iv hiv).1; omega
          · intro hk
            refine ⟨⟨t, e.time, act⟩, List.mem_append_left _ ?_, hn, hne, hk⟩
            have : act.isEmpty = false := by
              cases act with
              | nil => simp at hk
              | cons _ _ => rfl
            simp [this]
      · rw [List.pairwise_append]
        refine ⟨by split <;> simp, hr.disjoint, ?_⟩
        intro a ha b hb
        split at ha
        · simp at ha
        · simp only [List.mem_singleton] at ha
          subst ha
          exact (hr.shape b hb).1
      · intro iv hiv
        rcases List.mem_append.mp hiv with hiv | hiv
        · split at hiv
          · simp at hiv
          · rename_i hne
            simp only [List.mem_singleton] at hiv
            subst hiv
            refine ⟨Int.le_refl _, hgt, ?_, hc.nodup⟩
            intro h0
            simp only at h0
            rw [h0] at hne; simp at hne
        · obtain ⟨h1, h2, h3⟩ := hr.shape iv hiv
          exact ⟨by omega, h2, h3⟩
      · intro iv hiv
        rcases List.mem_append.mp hiv with hiv | hiv
        · split at hiv
          · simp at hiv
          · simp only [List.mem_singleton] at hiv
            subst hiv
            exact ⟨e, List.mem_cons_self, rfl⟩
        · obtain ⟨e', he', h⟩ := hr.stops iv hiv
          exact ⟨e', List.mem_cons_of_mem _ he', h⟩
    · rename_i hgt
      have het : e.time = t := by have := ht e List.mem_cons_self; omega
      have hr := ih t (step act e) hc' hs.2 (fun e' he' => ht e' (List.mem_cons_of_mem _ he'))
      refine ⟨?_, hr.disjoint, hr.shape, ?_⟩
      · intro n hn k
        rw [hr.active n hn k, active_step hc (by omega)]
      · intro iv hiv
        obtain ⟨e', he', h⟩ := hr.stops iv hiv
        exact ⟨e', List.mem_cons_of_mem _ he', h⟩

/-- The sweep from the start. -/
theorem sweep_none_spec {e : Ev} {l : List Ev} (hc : Cons [] (e :: l))
    (hs : (e :: l).Pairwise (fun a b => a.time ≤ b.time)) :
    SweepSpec e.time [] (e :: l) (sweep none [] (e :: l)) := by
  have he : e.isEnd = false := by
    by_contra hne
    have := cons_end_mem hc (by simpa using hne)
    simp at this
  have : sweep none [] (e :: l) = sweep (some e.time) [] (e :: l) := by
    rw [sweep_some, if_neg (Int.lt_irrefl _)]
    show sweep (some e.time) (addKey e.key []) l = _
    unfold step
    rw [he]; rfl
  rw [this]
  refine sweep_spec (e :: l) e.time [] hc hs ?_
  rw [List.pairwise_cons] at hs
  intro e' he'
  rcases List.mem_cons.mp he' with rfl | he'
  · exact Int.le_refl _
  · exact hs.1 e' he'

end Verif.Stack
