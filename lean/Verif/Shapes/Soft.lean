/-
Shapes of pulses: soft square.
-/
import Verif.Shapes.Props
import Mathlib.Algebra.Order.BigOperators.Group.List
import Mathlib.Algebra.BigOperators.Ring.List

namespace Verif.Shapes

open Complex (I)

set_option linter.unusedSimpArgs false
set_option linter.unusedVariables false

theorem hann_length (m : Nat) : (hann m).length = m := by
  simp only [hann]; split <;> simp_all

theorem hann_nonneg (m : Nat) : ∀ x ∈ hann m, 0 ≤ x := by
  intro x hx
  simp only [hann] at hx
  split at hx
  · simp at hx; simp [hx]
  · obtain ⟨n, -, rfl⟩ := List.mem_map.mp hx
    have := Real.cos_le_one (2 * Real.pi * n / (m - 1 : ℝ))
    linarith

theorem hann_one_pos (m : Nat) (hm : 3 ≤ m) : ∃ x ∈ hann m, 0 < x := by
  refine ⟨1 / 2 - 1 / 2 * Real.cos (2 * Real.pi * (1 : ℕ) / (m - 1 : ℝ)), ?_, ?_⟩
  · simp only [hann, if_neg (by omega : m ≠ 1)]
    exact List.mem_map.mpr ⟨1, by simp; omega, rfl⟩
  · have hm' : (2 : ℝ) ≤ m - 1 := by
      have : (3 : ℝ) ≤ m := by exact_mod_cast hm
      linarith
    have hp := Real.pi_pos
    have h1 : 0 < 2 * Real.pi * (1 : ℕ) / (m - 1 : ℝ) := by
      have : (0 : ℝ) < m - 1 := by linarith
      push_cast
      positivity
    have h2 : 2 * Real.pi * (1 : ℕ) / (m - 1 : ℝ) < 2 * Real.pi := by
      rw [div_lt_iff₀ (by linarith)]
      push_cast
      nlinarith
    have h3 : Real.cos (2 * Real.pi * (1 : ℕ) / (m - 1 : ℝ)) ≠ 1 := by
      intro h
      have := (Real.cos_eq_one_iff_of_lt_of_lt (by linarith) h2).mp h
      linarith
    have h4 := lt_of_le_of_ne (Real.cos_le_one _) h3
    linarith

theorem hann_sum_pos (m : Nat) (hm : 3 ≤ m) : 0 < (hann m).sum := by
  obtain ⟨x, hx, h0⟩ := hann_one_pos m hm
  exact lt_of_lt_of_le h0 (List.single_le_sum (hann_nonneg m) x hx)

theorem hann_sum_two : (hann 2).sum = 0 := by
  simp [hann, List.range_succ]
  norm_num [Real.cos_two_pi]

theorem sum_at0 (w : List ℝ) : ((List.range w.length).map fun k : Nat => at0 w (k : Int)).sum = w.sum := by
  congr 1
  apply List.ext_getElem?
  intro i
  simp only [List.getElem?_map]
  by_cases h : i < w.length
  · simp [List.getElem?_range h, at0, List.getElem?_eq_getElem h]
  · simp [List.getElem?_eq_none (Nat.not_lt.mp h), List.getElem?_eq_none (l := List.range w.length) (i := i) (by simp; omega)]

theorem at0_replicate (n : Nat) (a : ℂ) (j : Int) :
    at0 (List.replicate n a) j = if 0 ≤ j ∧ j < n then a else 0 := by
  simp only [at0]
  by_cases h : j < 0
  · simp [h]
  · simp only [h, if_false]
    by_cases h2 : j < n
    · rw [if_pos ⟨by omega, h2⟩, List.getElem?_replicate, if_pos (by omega)]; rfl
    · rw [if_neg (by omega), List.getElem?_replicate, if_neg (by omega)]; rfl

theorem at0_nonneg (m : Nat) (k : Int) : 0 ≤ at0 (hann m) k := by
  simp only [at0]
  split
  · exact le_refl _
  · by_cases h : k.toNat < (hann m).length
    · rw [List.getElem?_eq_getElem h]; exact hann_nonneg m _ (List.getElem_mem h)
    · rw [List.getElem?_eq_none (Nat.not_lt.mp h)]; simp

/-- The part of the window that lies on the pulse when it is centered at sample `i`. -/
noncomputable def overlap (n m i : Nat) : ℝ :=
  ((List.range m).map fun k : Nat =>
    if 0 ≤ (i : Int) + ((m - 1) / 2 : Nat) - k ∧ (i : Int) + ((m - 1) / 2 : Nat) - k < n
    then at0 (hann m) (k : Int) else 0).sum

theorem ofReal_sum (l : List ℝ) : ((l.sum : ℝ) : ℂ) = (l.map fun x : ℝ => (x : ℂ)).sum := by
  induction l with
  | nil => simp
  | cons a l ih => simp [ih]

theorem convolve_square (n m : Nat) (a : ℂ) :
    convolveSame (List.replicate n a) (hann m) = (List.range n).map fun i : Nat => a * (overlap n m i : ℂ) := by
  simp only [convolveSame, List.length_replicate, hann_length]
  refine List.map_congr_left fun i _ => ?_
  simp only [overlap]
  rw [ofReal_sum, ← List.sum_map_mul_left, List.map_map]
  congr 1
  refine List.map_congr_left fun k _ => ?_
  rw [at0_replicate]
  simp only [Function.comp]
  split <;> simp

theorem overlap_mono (n m i j : Nat)
    (h : ∀ k : Nat, k < m → (0 ≤ (i : Int) + ((m - 1) / 2 : Nat) - k ∧ (i : Int) + ((m - 1) / 2 : Nat) - k < n) →
      (0 ≤ (j : Int) + ((m - 1) / 2 : Nat) - k ∧ (j : Int) + ((m - 1) / 2 : Nat) - k < n)) :
    overlap n m i ≤ overlap n m j := by
  simp only [overlap]
  apply List.sum_le_sum
  intro k hk
  by_cases h1 : 0 ≤ (i : Int) + ((m - 1) / 2 : Nat) - k ∧ (i : Int) + ((m - 1) / 2 : Nat) - k < n
  · rw [if_pos h1, if_pos (h k (by simpa using hk) h1)]
  · rw [if_neg h1]
    split
    · exact at0_nonneg m k
    · exact le_refl _

theorem overlap_full (n m i : Nat)
    (h : ∀ k : Nat, k < m → (0 ≤ (i : Int) + ((m - 1) / 2 : Nat) - k ∧ (i : Int) + ((m - 1) / 2 : Nat) - k < n)) :
    overlap n m i = (hann m).sum := by
  rw [← sum_at0, hann_length]
  simp only [overlap]
  congr 1
  refine List.map_congr_left fun k hk => ?_
  rw [if_pos (h k (by simpa using hk))]

theorem overlap_nonneg (n m i : Nat) : 0 ≤ overlap n m i := by
  simp only [overlap]
  apply List.sum_nonneg
  intro x hx
  obtain ⟨k, -, rfl⟩ := List.mem_map.mp hx
  split
  · exact at0_nonneg m k
  · exact le_refl _

theorem overlap_le (n m i : Nat) : overlap n m i ≤ (hann m).sum := by
  rw [← sum_at0, hann_length]
  simp only [overlap]
  apply List.sum_le_sum
  intro k hk
  split
  · exact le_refl _
  · exact at0_nonneg m k

/-- A soft square pulse of at least six samples rises, stays at its amplitude for the middle part, and
falls: with `m` half of the number of samples and `c` half of `m - 1`, the samples are `amp` times a factor
between zero and one that does not fall up to sample `n-1-c`, is one from sample `m-1-c` to sample `n-1-c`,
and does not rise after sample `m-1-c`. -/
theorem softSquare_shape (t : List ℝ) (amp : ℂ) (ht : 6 ≤ t.length) : ∃ r : ℕ → ℝ,
    softSquare t amp = .ok ((List.range t.length).map fun i : Nat => amp * (r i : ℂ)) ∧
    (∀ i, 0 ≤ r i ∧ r i ≤ 1) ∧
    let n := t.length
    let m := n / 2
    let c := (m - 1) / 2
    (∀ i j, i ≤ j → j + c < n → r i ≤ r j) ∧
    (∀ i, m ≤ i + c + 1 → i + c < n → r i = 1) ∧
    (∀ i j, i ≤ j → m ≤ i + c + 1 → r j ≤ r i) := by
  have hm : 3 ≤ t.length / 2 := by omega
  have hs := hann_sum_pos _ hm
  refine ⟨fun i => overlap t.length (t.length / 2) i / (hann (t.length / 2)).sum, ?_, ?_, ?_, ?_, ?_⟩
  · simp only [softSquare, square_eq, if_pos (by omega : t.length > 1), if_neg hs.ne', convolve_square,
      List.map_map, Except.ok.injEq]
    refine List.map_congr_left fun i _ => ?_
    simp only [Function.comp]
    push_cast
    rw [mul_div_assoc]
  · intro i
    exact ⟨div_nonneg (overlap_nonneg _ _ _) hs.le, by rw [div_le_one hs]; exact overlap_le _ _ _⟩
  · intro i j hij hj
    apply div_le_div_of_nonneg_right _ hs.le
    apply overlap_mono
    intro k hk h
    constructor <;> omega
  · intro i h1 h2
    rw [div_eq_one_iff_eq hs.ne']
    apply overlap_full
    intro k hk
    constructor <;> omega
  · intro i j hij hi
    apply div_le_div_of_nonneg_right _ hs.le
    apply overlap_mono
    intro k hk h
    constructor <;> omega

/-- Soft square pulses of up to three samples are square; those of four and five samples are not
numbers (the window is `[0, 0]`). -/
theorem softSquare_short (t : List ℝ) (amp : ℂ) :
    (t.length ≤ 3 → softSquare t amp = .ok (t.map fun _ => amp)) ∧
    (t.length = 4 ∨ t.length = 5 → softSquare t amp = .error .notANumber) := by
  constructor
  · intro h
    have hsq : square t amp = t.map fun _ => amp := by rw [square_eq, List.map_const']
    simp only [softSquare]
    split
    · rename_i h1
      have h2 : t.length / 2 = 1 := by omega
      have h3 : hann 1 = [1] := by simp [hann]
      rw [h2, h3]
      simp only [List.sum_cons, List.sum_nil, add_zero, one_ne_zero, if_false, Except.ok.injEq]
      rw [square_eq, ← h3, convolve_square, List.map_const', List.map_map]
      apply List.ext_getElem
      · simp
      · intro i hi1 hi2
        simp only [List.getElem_map, List.getElem_range, Function.comp, List.getElem_replicate]
        rw [overlap_full]
        · simp [h3]
        · intro k hk
          simp at hi1
          constructor <;> simp <;> omega
    · rw [hsq]
  · intro h
    have h2 : t.length / 2 = 2 := by omega
    simp only [softSquare, if_pos (by omega : t.length > 1), h2, hann_sum_two, if_true]

end Verif.Shapes
