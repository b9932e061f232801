/-
C24: latency corrections are relative: non-negative, minimum zero, differences kept.
-/
import Verif.Latency.Model
import Mathlib.Algebra.Order.Field.Rat
import Mathlib.Tactic.Linarith

namespace Verif.Latency

theorem foldl_min (vs : List Rat) (v : Rat) :
    vs.foldl min v ≤ v ∧ (∀ x ∈ vs, vs.foldl min v ≤ x) ∧ (vs.foldl min v = v ∨ vs.foldl min v ∈ vs) := by
  induction vs generalizing v with
  | nil => simp
  | cons a vs ih =>
    obtain ⟨h1, h2, h3⟩ := ih (min v a)
    simp only [List.foldl_cons]
    refine ⟨le_trans h1 (min_le_left _ _), ?_, ?_⟩
    · intro x hx
      rcases List.mem_cons.mp hx with rfl | hx
      · exact le_trans h1 (min_le_right _ _)
      · exact h2 x hx
    · rcases h3 with h3 | h3
      · rcases min_choice v a with h | h
        · left; rw [h3, h]
        · right; rw [h3, h]; exact List.mem_cons_self
      · right; exact List.mem_cons_of_mem _ h3

theorem minimum_spec {vs : List Rat} (h : vs ≠ []) :
    minimum vs ∈ vs ∧ ∀ x ∈ vs, minimum vs ≤ x := by
  cases vs with
  | nil => exact absurd rfl h
  | cons v vs =>
    obtain ⟨h1, h2, h3⟩ := foldl_min vs v
    refine ⟨?_, ?_⟩
    · rcases h3 with h3 | h3
      · show vs.foldl min v ∈ _; rw [h3]; exact List.mem_cons_self
      · exact List.mem_cons_of_mem _ h3
    · intro x hx
      rcases List.mem_cons.mp hx with rfl | hx
      · exact h1
      · exact h2 x hx

theorem fold_get (conf : List (String × Rat)) (used : List (String × String))
    (d : List (String × Rat)) (k : String) :
    Dict.get? (used.foldl (fun rel pc => Dict.set rel (key pc) (getOr0 conf (key pc))) d) k =
      if k ∈ used.map key then some (getOr0 conf k) else Dict.get? d k := by
  induction used generalizing d with
  | nil => simp
  | cons pc used ih =>
    rw [List.foldl_cons, ih, Dict.get?_set]
    by_cases h : k = key pc
    · subst h; simp
    · by_cases h2 : k ∈ used.map key
      · simp [h2]
      · simp [h, h2]

/-- The dict before the minimum is subtracted. -/
theorem exists_min (conf : List (String × Rat)) (used : List (String × String)) (hu : used ≠ []) :
    ∃ m, (∃ pc ∈ used, getOr0 conf (key pc) = m) ∧ (∀ pc ∈ used, m ≤ getOr0 conf (key pc)) ∧
      ∀ pc ∈ used, applied used (some conf) pc = getOr0 conf (key pc) - m := by
  let rel := used.foldl (fun rel pc => Dict.set rel (key pc) (getOr0 conf (key pc))) []
  have hget : ∀ k, Dict.get? rel k = if k ∈ used.map key then some (getOr0 conf k) else none := by
    intro k; exact fold_get conf used [] k
  have hmem : ∀ pc ∈ used, getOr0 conf (key pc) ∈ rel.map Prod.snd := by
    intro pc hpc
    have h := hget (key pc)
    rw [if_pos (List.mem_map.mpr ⟨pc, hpc, rfl⟩)] at h
    exact List.mem_map.mpr ⟨_, Dict.mem_of_get? h, rfl⟩
  have hnd : (Dict.keys rel).Nodup := by
    have : ∀ (us : List (String × String)) (d : List (String × Rat)), (Dict.keys d).Nodup →
        (Dict.keys (us.foldl (fun rel pc => Dict.set rel (key pc) (getOr0 conf (key pc))) d)).Nodup := by
      intro us
      induction us with
      | nil => intro d h; exact h
      | cons u us ih => intro d h; exact ih _ (Dict.keys_set_nodup h _ _)
    exact this used [] (by simp [Dict.keys])
  have hval : ∀ x ∈ rel.map Prod.snd, ∃ pc ∈ used, getOr0 conf (key pc) = x := by
    intro x hx
    obtain ⟨⟨k, v⟩, he, rfl⟩ := List.mem_map.mp hx
    have h1 := Dict.get?_of_mem hnd he
    rw [hget] at h1
    split at h1
    · rename_i h2
      obtain ⟨pc, hpc, rfl⟩ := List.mem_map.mp h2
      exact ⟨pc, hpc, Option.some.inj h1⟩
    · cases h1
  have hne : rel.map Prod.snd ≠ [] := by
    cases used with
    | nil => exact absurd rfl hu
    | cons u us => exact List.ne_nil_of_mem (hmem u List.mem_cons_self)
  obtain ⟨hm1, hm2⟩ := minimum_spec hne
  refine ⟨minimum (rel.map Prod.snd), hval _ hm1, fun pc hpc => hm2 _ (hmem pc hpc), ?_⟩
  intro pc hpc
  show (Dict.get? (rel.map (fun e => (e.1, e.2 - minimum (rel.map Prod.snd)))) (key pc)).getD 0 = _
  have h2 := Dict.get?_map_val rel (fun v => v - minimum (rel.map Prod.snd)) (key pc)
  rw [h2, hget, if_pos (List.mem_map.mpr ⟨pc, hpc, rfl⟩)]
  rfl

/-- **C24.**  With configured latencies, the corrections applied to the port-clocks of a schedule
are non-negative, one of them is zero, and they differ as the configured latencies (zero if
missing) do. -/
theorem latencies_relative (conf : List (String × Rat)) (used : List (String × String)) :
    (∀ pc ∈ used, 0 ≤ applied used (some conf) pc) ∧
    (used ≠ [] → ∃ pc ∈ used, applied used (some conf) pc = 0) ∧
    (∀ pc ∈ used, ∀ pc' ∈ used, applied used (some conf) pc - applied used (some conf) pc' =
      (Dict.get? conf (key pc)).getD 0 - (Dict.get? conf (key pc')).getD 0) := by
  by_cases hu : used = []
  · subst hu; simp
  obtain ⟨m, ⟨pc0, h0, h0m⟩, hm, hr⟩ := exists_min conf used hu
  refine ⟨?_, ?_, ?_⟩
  · intro pc hpc; rw [hr pc hpc]; have := hm pc hpc; linarith
  · intro _; exact ⟨pc0, h0, by rw [hr pc0 h0, h0m]; ring⟩
  · intro pc hpc pc' hpc'
    rw [hr pc hpc, hr pc' hpc']; unfold getOr0; ring

/-- **C24.**  The corrections do not depend on the order in which the set of port-clocks is
iterated. -/
theorem latencies_order (conf : Option (List (String × Rat))) (used used' : List (String × String))
    (h : ∀ pc, pc ∈ used ↔ pc ∈ used') (pc : String × String) (hpc : pc ∈ used) :
    applied used conf pc = applied used' conf pc := by
  cases conf with
  | none => rfl
  | some conf =>
    have hu : used ≠ [] := List.ne_nil_of_mem hpc
    have hu' : used' ≠ [] := List.ne_nil_of_mem ((h pc).mp hpc)
    obtain ⟨m, ⟨p0, h0, e0⟩, hm, hr⟩ := exists_min conf used hu
    obtain ⟨m', ⟨p1, h1, e1⟩, hm', hr'⟩ := exists_min conf used' hu'
    rw [hr pc hpc, hr' pc ((h pc).mp hpc)]
    have a := hm p1 ((h p1).mpr h1)
    have b := hm' p0 ((h p0).mp h0)
    rw [e1] at a; rw [e0] at b
    have : m = m' := le_antisymm a b
    rw [this]

/-- **C24.**  Without configured latencies nothing is corrected. -/
theorem latencies_none (used : List (String × String)) (pc : String × String) :
    applied used none pc = 0 := rfl

/-- Non-trivial instance: a negative, a positive and a missing latency. -/
example :
    let used := [("q0:mw", "q0.01"), ("q1:mw", "q1.01"), ("q0:res", "q0.ro")]
    let conf := some [("q0:mw-q0.01", (-20 : Rat)), ("q1:mw-q1.01", 4)]
    used.map (applied used conf) = [0, 24, 20] := by decide +kernel

/-- Finding: the keys of different port-clocks may coincide, so that they share a correction. -/
theorem keys_collide : key ("a", "b-c") = key ("a-b", "c") ∧ (("a", "b-c") ≠ ("a-b", "c")) := by
  decide +kernel

end Verif.Latency
