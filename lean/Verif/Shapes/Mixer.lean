/-
Corrections of mixer skewness.
-/
import Verif.Shapes.Sampling

namespace Verif.Shapes

open Complex (I)

set_option linter.unusedSimpArgs false
set_option linter.unusedVariables false

namespace Spec

/-- `m` is the largest magnitude in the list. -/
def Peak (l : List ℝ) (m : ℝ) : Prop := (∃ x ∈ l, |x| = m) ∧ ∀ x ∈ l, |x| ≤ m

end Spec

theorem foldl_max (l : List ℝ) (a : ℝ) (pre : List ℝ) (h : Spec.Peak pre a) :
    Spec.Peak (pre ++ l) (l.foldl (fun m y => max m |y|) a) := by
  induction l generalizing a pre with
  | nil => simpa using h
  | cons y l ih =>
    have := ih (max a |y|) (pre ++ [y]) (by
      obtain ⟨⟨x, hx, e⟩, h2⟩ := h
      constructor
      · rcases le_total a |y| with h3 | h3
        · exact ⟨y, by simp, by rw [max_eq_right h3]⟩
        · exact ⟨x, by simp [hx], by rw [max_eq_left h3]; exact e⟩
      · intro z hz
        rcases List.mem_append.mp hz with hz | hz
        · exact le_max_of_le_left (h2 z hz)
        · simp only [List.mem_singleton] at hz
          subst hz; exact le_max_right _ _)
    simpa using this

theorem maxAbs_spec (l : List ℝ) (h : l ≠ []) : ∃ m, maxAbs l = .ok m ∧ Spec.Peak l m := by
  match l, h with
  | x :: l, _ =>
    refine ⟨_, rfl, ?_⟩
    have := foldl_max l |x| [x] ⟨⟨x, by simp, rfl⟩, by simp⟩
    simpa using this

theorem Peak.unique {l : List ℝ} {a b : ℝ} (ha : Spec.Peak l a) (hb : Spec.Peak l b) : a = b := by
  obtain ⟨⟨x, hx, ex⟩, h1⟩ := ha
  obtain ⟨⟨y, hy, ey⟩, h2⟩ := hb
  apply le_antisymm
  · rw [← ex]; exact h2 x hx
  · rw [← ey]; exact h1 y hy

theorem Peak.nonneg {l : List ℝ} {a : ℝ} (ha : Spec.Peak l a) : 0 ≤ a := by
  obtain ⟨⟨x, -, rfl⟩, -⟩ := ha; exact abs_nonneg x

theorem Peak.mul {l : List ℝ} {a : ℝ} (ha : Spec.Peak l a) (c : ℝ) : Spec.Peak (l.map (· * c)) (a * |c|) := by
  obtain ⟨⟨x, hx, rfl⟩, h1⟩ := ha
  constructor
  · exact ⟨x * c, List.mem_map.mpr ⟨x, hx, rfl⟩, abs_mul x c⟩
  · intro z hz
    obtain ⟨y, hy, rfl⟩ := List.mem_map.mp hz
    rw [abs_mul]
    exact mul_le_mul_of_nonneg_right (h1 y hy) (abs_nonneg c)

/-- Rescaling multiplies with one factor, so that the largest magnitude is the wanted one. -/
theorem rescale_spec (l : List ℝ) (h : l ≠ []) (o : ℝ) (ho : 0 ≤ o) : ∃ c : ℝ, 0 ≤ c ∧
    rescale l o = .ok (l.map (· * c)) ∧ ((∃ x ∈ l, x ≠ 0) → Spec.Peak (l.map (· * c)) o) := by
  obtain ⟨m, hm, hp⟩ := maxAbs_spec l h
  have h0 := Peak.nonneg hp
  by_cases hz : m = 0
  · refine ⟨0, le_refl _, ?_, ?_⟩
    · have : ∀ x ∈ l, x = 0 := by
        intro x hx
        have := hp.2 x hx
        rw [hz] at this
        exact abs_eq_zero.mp (le_antisymm this (abs_nonneg x))
      simp only [rescale, hm, bind, Except.bind, hz, ne_eq, not_true, if_false, pure, Except.pure,
        List.map_replicate, zero_mul, Except.ok.injEq, mul_zero, List.map_const']
    · rintro ⟨x, hx, hne⟩
      have := hp.2 x hx
      rw [hz] at this
      exact absurd (abs_eq_zero.mp (le_antisymm this (abs_nonneg x))) hne
  · refine ⟨o / m, div_nonneg ho h0, ?_, ?_⟩
    · simp only [rescale, hm, bind, Except.bind, ne_eq, hz, not_false_iff, if_true, pure, Except.pure,
        List.map_map, Except.ok.injEq]
      refine List.map_congr_left fun x _ => ?_
      simp only [Function.comp]
      ring
    · intro _
      have := Peak.mul hp (o / m)
      rw [abs_of_nonneg (div_nonneg ho h0)] at this
      have e : m * (o / m) = o := by field_simp
      rwa [e] at this

/-- Mixer corrections: the real part becomes proportional to `re + im * tan(phi)`, with a positive factor
that makes its largest magnitude `sqrt(alpha)` times the one before; the imaginary part is divided by
`sqrt(alpha)` (and changes sign if `cos(phi)` is negative). -/
theorem mixer_spec (w : List ℂ) (hw : w ≠ []) (alpha p : ℝ) (ha : 0 < alpha)
    (hc : Real.cos (p / 180 * Real.pi) ≠ 0) : ∃ ys, ∃ c : ℝ, 0 ≤ c ∧
    mixerCorrections w alpha p = .ok ys ∧
    ys.map Complex.re = w.map (fun z => c * (z.re + z.im * Real.tan (p / 180 * Real.pi))) ∧
    ys.map Complex.im = w.map (fun z => (if 0 < Real.cos (p / 180 * Real.pi) then z.im else -z.im) / Real.sqrt alpha) ∧
    ((∃ z ∈ w, z.re + z.im * Real.tan (p / 180 * Real.pi) ≠ 0) → ∀ m, Spec.Peak (w.map Complex.re) m →
      Spec.Peak (ys.map Complex.re) (Real.sqrt alpha * m)) := by
  have hphi : deg2rad p = p / 180 * Real.pi := by simp only [deg2rad]; ring
  generalize p / 180 * Real.pi = phi at *
  have hsa : 0 < Real.sqrt alpha := Real.sqrt_pos.mpr ha
  have hne : ∀ f : ℂ → ℝ, w.map f ≠ [] := by intro f h; exact hw (List.map_eq_nil_iff.mp h)
  obtain ⟨m1, e1, p1⟩ := maxAbs_spec (w.map Complex.re) (hne _)
  obtain ⟨m2, e2, p2⟩ := maxAbs_spec (w.map Complex.im) (hne _)
  obtain ⟨c1, hc1, r1, q1⟩ := rescale_spec (w.map fun z => z.re + z.im * Real.tan phi) (hne _) m1 (Peak.nonneg p1)
  obtain ⟨c2, hc2, r2, q2⟩ := rescale_spec (w.map fun z => z.im / Real.cos phi) (hne _) m2 (Peak.nonneg p2)
  have him : ∀ z ∈ w, z.im / Real.cos phi * c2 = if 0 < Real.cos phi then z.im else -z.im := by
    by_cases hz : ∃ z ∈ w, z.im ≠ 0
    · obtain ⟨z0, hz0, hne0⟩ := hz
      have h3 := q2 ⟨z0.im / Real.cos phi, List.mem_map.mpr ⟨z0, hz0, rfl⟩, div_ne_zero hne0 hc⟩
      have h4 := Peak.mul p2 (c2 / Real.cos phi)
      have h5 : (w.map Complex.im).map (· * (c2 / Real.cos phi)) =
          (w.map fun z => z.im / Real.cos phi).map (· * c2) := by
        simp only [List.map_map]
        refine List.map_congr_left fun z _ => ?_
        simp only [Function.comp]; ring
      rw [h5] at h4
      have h6 : m2 = m2 * |c2 / Real.cos phi| := Peak.unique h3 h4
      have hm2 : 0 < m2 := lt_of_lt_of_le (abs_pos.mpr hne0) (p2.2 _ (List.mem_map.mpr ⟨z0, hz0, rfl⟩))
      have h7 : |c2 / Real.cos phi| = 1 := by
        have : m2 * |c2 / Real.cos phi| = m2 * 1 := by rw [← h6, mul_one]
        exact mul_left_cancel₀ hm2.ne' this
      rw [abs_div, abs_of_nonneg hc2, div_eq_one_iff_eq (abs_ne_zero.mpr hc)] at h7
      intro z _
      split
      · rename_i h; rw [h7, abs_of_pos h]; field_simp
      · rename_i h
        have h8 : Real.cos phi < 0 := lt_of_le_of_ne (not_lt.mp h) hc
        rw [h7, abs_of_neg h8]; field_simp
    · intro z hzw
      have : z.im = 0 := by
        by_contra h; exact hz ⟨z, hzw, h⟩
      simp [this]
  refine ⟨w.map fun z => ((c1 * Real.sqrt alpha * (z.re + z.im * Real.tan phi) : ℝ) : ℂ) +
    1 * I * ((z.im / Real.cos phi * c2 / Real.sqrt alpha : ℝ) : ℂ), c1 * Real.sqrt alpha,
    mul_nonneg hc1 hsa.le, ?_, ?_, ?_, ?_⟩
  · simp only [mixerCorrections, hphi, not_le.mpr ha, hc, or_self, if_false, e1, e2, r1, r2, bind, Except.bind,
      pure, Except.pure, List.map_map, Except.ok.injEq]
    have : ∀ (f g : ℂ → ℝ), List.zipWith (fun a b : ℝ => (a : ℂ) + 1 * I * (b : ℂ)) (w.map f) (w.map g) =
        w.map fun z => (f z : ℂ) + 1 * I * (g z : ℂ) := by
      intro f g
      rw [List.zipWith_map]
      induction w with
      | nil => rfl
      | cons a w ih => simp
    rw [this]
    refine List.map_congr_left fun z _ => ?_
    simp only [Function.comp]
    congr 2
    ring
  · simp only [List.map_map]
    refine List.map_congr_left fun z _ => ?_
    simp only [Function.comp, one_mul, Complex.add_re, Complex.ofReal_re, Complex.mul_re, Complex.I_re,
      Complex.I_im, Complex.ofReal_im, zero_mul, mul_zero, sub_self, add_zero]
  · simp only [List.map_map]
    refine List.map_congr_left fun z hz => ?_
    simp only [Function.comp, one_mul, Complex.add_im, Complex.ofReal_re, Complex.mul_im, Complex.I_re,
      Complex.I_im, Complex.ofReal_im, zero_mul, zero_add, add_zero]
    rw [him z hz]
  · rintro ⟨z, hz, hne1⟩ m hm
    have h3 := q1 ⟨_, List.mem_map.mpr ⟨z, hz, rfl⟩, hne1⟩
    rw [Peak.unique hm p1]
    have h4 := Peak.mul h3 (Real.sqrt alpha)
    rw [abs_of_pos hsa, mul_comm m1] at h4
    simp only [List.map_map] at h4 ⊢
    convert h4 using 1
    refine List.map_congr_left fun z _ => ?_
    simp only [Function.comp, one_mul, Complex.add_re, Complex.ofReal_re, Complex.mul_re, Complex.I_re,
      Complex.I_im, Complex.ofReal_im, zero_mul, mul_zero, sub_self, add_zero]
    ring

end Verif.Shapes
