/-
Curves through points in the order of time.
-/
import Verif.Diagram.Spec
import Mathlib.Tactic.Linarith
import Mathlib.Tactic.FieldSimp
import Mathlib.Tactic.Ring
import Mathlib.Algebra.Order.Field.Basic

namespace Verif.Diagram

open Spec

set_option linter.unusedSimpArgs false
set_option linter.unusedVariables false

/-- In the order of time. -/
def Inc (l : Points) : Prop := l.Pairwise fun a b => a.1 < b.1

theorem Inc.tail {p : Rat × C} {l : Points} (h : Inc (p :: l)) : Inc l := (List.pairwise_cons.mp h).2

theorem Inc.head {p : Rat × C} {l : Points} (h : Inc (p :: l)) : ∀ q ∈ l, p.1 < q.1 := (List.pairwise_cons.mp h).1

/-- The value between two neighbouring points. -/
theorem value_between {l1 l2 : Points} {t t' x : Rat} {v v' : C} (h : Inc (l1 ++ (t, v) :: (t', v') :: l2)) (h1 : t ≤ x)
    (h2 : x < t') : value (l1 ++ (t, v) :: (t', v') :: l2) x =
      (v.1 + (v'.1 - v.1) * ((x - t) / (t' - t)), v.2 + (v'.2 - v.2) * ((x - t) / (t' - t))) := by
  induction l1 with
  | nil => rw [List.nil_append, value, if_neg (by linarith), if_pos h2]
  | cons p l1 ih =>
    have hp := h.head
    have ih' := ih h.tail
    have hpt : p.1 < t := hp (t, v) (by simp)
    cases l1 with
    | nil =>
      obtain ⟨s, w⟩ := p
      simp only at hpt
      simp only [List.nil_append, List.cons_append] at ih' ⊢
      rw [value, if_neg (by linarith), if_neg (by linarith), ih']
    | cons q l1 =>
      obtain ⟨s, w⟩ := p
      obtain ⟨s', w'⟩ := q
      simp only at hpt
      have hq : s' < t := h.tail.head (t, v) (by simp)
      have hs : s < s' := hp (s', w') (by simp)
      simp only [List.cons_append] at ih' ⊢
      rw [value, if_neg (by linarith), if_neg (by linarith), ih']

/-- The value at a point. -/
theorem value_at {l : Points} (h : Inc l) {t : Rat} {v : C} (hm : (t, v) ∈ l) : value l t = v := by
  induction l with
  | nil => simp at hm
  | cons p l ih =>
    obtain ⟨s, w⟩ := p
    cases l with
    | nil =>
      simp only [List.mem_singleton, Prod.mk.injEq] at hm
      obtain ⟨rfl, rfl⟩ := hm
      simp [value]
    | cons q l =>
      obtain ⟨s', w'⟩ := q
      have hs : s < s' := h.head (s', w') (by simp)
      rcases List.mem_cons.mp hm with he | hm
      · cases he
        rw [value, if_neg (lt_irrefl _), if_pos hs]
        simp
      · have hle : s' ≤ t := by
          rcases List.mem_cons.mp hm with he | hm
          · cases he; exact le_rfl
          · exact le_of_lt (h.tail.head (t, v) hm)
        rw [value, if_neg (by linarith), if_neg (by linarith), ih h.tail hm]

/-- Before the first point. -/
theorem value_before {l : Points} {x : Rat} (h : ∀ p ∈ l, x < p.1) : value l x = (0, 0) := by
  match l with
  | [] => rfl
  | [(t, v)] =>
    have := h (t, v) (by simp)
    simp only at this
    rw [value, if_neg (by linarith)]
  | (t, v) :: (t', v') :: rest =>
    have := h (t, v) (by simp)
    simp only at this
    rw [value, if_pos this]

/-- After the last point. -/
theorem value_after {l : Points} {x : Rat} (h : ∀ p ∈ l, p.1 < x) : value l x = (0, 0) := by
  match l with
  | [] => rfl
  | [(t, v)] =>
    have := h (t, v) (by simp)
    simp only at this
    rw [value, if_neg (by linarith)]
  | (t, v) :: (t', v') :: rest =>
    have h1 := h (t, v) (by simp)
    have h2 := h (t', v') (by simp)
    simp only at h1 h2
    rw [value, if_neg (by linarith), if_neg (by linarith)]
    exact value_after fun p hp => h p (List.mem_cons_of_mem _ hp)

/-- Between two neighbouring points of the same value. -/
theorem value_flat {l1 l2 : Points} {t t' x : Rat} {v : C} (h : Inc (l1 ++ (t, v) :: (t', v) :: l2)) (h1 : t ≤ x)
    (h2 : x ≤ t') : value (l1 ++ (t, v) :: (t', v) :: l2) x = v := by
  rcases lt_or_eq_of_le h2 with h2 | rfl
  · rw [value_between h h1 h2]
    simp
  · exact value_at h (by simp)

end Verif.Diagram
