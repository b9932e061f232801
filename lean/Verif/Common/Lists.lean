/- Small facts about lists. -/
import Mathlib.Data.List.Basic

namespace Verif

theorem pairwise_cases {α : Type} {R : α → α → Prop} {l : List α} (h : l.Pairwise R) {a b : α}
    (ha : a ∈ l) (hb : b ∈ l) : a = b ∨ R a b ∨ R b a := by
  induction l with
  | nil => simp at ha
  | cons x l ih =>
    rw [List.pairwise_cons] at h
    rcases List.mem_cons.mp ha with ha1 | ha1 <;> rcases List.mem_cons.mp hb with hb1 | hb1
    · exact Or.inl (ha1.trans hb1.symm)
    · exact Or.inr (Or.inl (ha1 ▸ h.1 b hb1))
    · exact Or.inr (Or.inr (hb1 ▸ h.1 a ha1))
    · exact ih h.2 ha1 hb1

end Verif
