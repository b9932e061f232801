/-
Shapes of pulses: square, ramp, staircase, chirp, drag, Hermite, soft square.
-/
import Verif.Shapes.Model
import Mathlib.Analysis.SpecialFunctions.ExpDeriv
import Mathlib.Analysis.SpecialFunctions.Trigonometric.Deriv
import Mathlib.Tactic.FieldSimp
import Mathlib.Tactic.Positivity
import Mathlib.Tactic.Linarith
import Mathlib.Tactic.LinearCombination

namespace Verif.Shapes

open Complex (I)

set_option linter.unusedSimpArgs false
set_option linter.unusedVariables false

/-- A square pulse has its amplitude at every sample. -/
theorem square_shape (t : List ℝ) (amp : ℂ) : (square t amp).length = t.length ∧
    ∀ y ∈ square t amp, y = amp := by
  constructor
  · simp [square]
  · intro y hy
    simp only [square, List.map_replicate, mul_one] at hy
    exact List.eq_of_mem_replicate hy

theorem square_eq (t : List ℝ) (amp : ℂ) : square t amp = List.replicate t.length amp := by
  simp [square]

/-- A square pulse with imaginary amplitude. -/
theorem squareImaginary_shape (t : List ℝ) (amp : ℂ) : squareImaginary t amp = t.map fun _ => I * amp := by
  simp [squareImaginary, square_eq, List.map_const']

/-- A ramp is the straight line from `offset` at time zero to `offset + amp` at its duration, and only
that line. -/
theorem ramp_shape (amp offset d : ℝ) (hd : d ≠ 0) : ∃ f : ℝ → ℝ,
    (∀ t, ramp t amp offset (some d) = .ok (t.map f)) ∧
    f 0 = offset ∧ f d = offset + amp ∧ (∀ x y z, f (x + y) - f x = f (z + y) - f z) ∧
    ∀ x, f x - offset = x / d * amp := by
  refine ⟨fun x => amp / d * x + offset, fun t => by simp [ramp, hd], by simp, ?_, ?_, ?_⟩
  · field_simp; ring
  · intros; ring
  · intros; field_simp; ring

/-- Between the start and the end a ramp stays between its two values. -/
theorem ramp_bounded {t : List ℝ} {amp offset d : ℝ} {ys : List ℝ}
    (h : ramp t amp offset (some d) = .ok ys) (hd : 0 < d) (ha : 0 ≤ amp)
    (ht : ∀ x ∈ t, 0 ≤ x ∧ x < d) : ∀ y ∈ ys, offset ≤ y ∧ y ≤ offset + amp := by
  simp only [ramp, hd.ne', if_false, Except.ok.injEq] at h
  subst h
  intro y hy
  obtain ⟨x, hx, rfl⟩ := List.mem_map.mp hy
  obtain ⟨h0, h1⟩ := ht x hx
  have : amp / d * x = amp * (x / d) := by ring
  have h2 : 0 ≤ x / d := by positivity
  have h3 : x / d ≤ 1 := by rw [div_le_one hd]; exact h1.le
  constructor
  · rw [this]; nlinarith
  · rw [this]; nlinarith

/-- The deprecated ramp without duration has the same samples if the times are `k / fs` and the duration
is their number over `fs`. -/
theorem ramp_legacy_same (n : Nat) (hn : 0 < n) (fs : ℝ) (hf : 0 < fs) (amp offset : ℝ) :
    ramp ((List.range n).map fun k : Nat => (k : ℝ) / fs) amp offset none =
      ramp ((List.range n).map fun k : Nat => (k : ℝ) / fs) amp offset (some (n / fs)) := by
  have h : (n : ℝ) ≠ 0 := by exact_mod_cast hn.ne'
  have h1 : (n : ℝ) / fs ≠ 0 := div_ne_zero h hf.ne'
  simp only [ramp, h1, if_false, List.length_map, List.length_range, List.map_map, Except.ok.injEq]
  refine List.map_congr_left fun k _ => ?_
  simp only [Function.comp]
  field_simp
  ring

/-- A rising staircase with `n` steps: in the `j`-th of `n` equal intervals of its duration it has the
`j`-th of `n` equally spaced amplitudes from `startAmp` to `finalAmp`; before its start it has the first and
after its end the last one. -/
theorem staircase_shape (a b d : ℝ) (n : Nat) (hd : 0 < d) (hn : 2 ≤ n) (hab : a ≤ b) : ∃ f : ℝ → ℝ,
    (∀ t, staircase t a b n (some d) = .ok (t.map f)) ∧
    (∀ j : Nat, j < n → ∀ x, (j : ℝ) * (d / n) ≤ x → x < (j + 1) * (d / n) →
      f x = a + j * ((b - a) / (n - 1))) ∧
    (∀ x, x < 0 → f x = a) ∧ (∀ x, d ≤ x → f x = b) := by
  have hn0 : (0 : ℝ) < n := by exact_mod_cast (by omega : 0 < n)
  have hn1 : (0 : ℝ) < n - 1 := by
    have : (2 : ℝ) ≤ n := by exact_mod_cast hn
    linarith
  have hs : 0 ≤ (b - a) / ((n : ℝ) - 1) := div_nonneg (by linarith) hn1.le
  refine ⟨fun x => min (max ((⌊x * (n / d)⌋ : ℤ) * ((b - a) / ((n : ℝ) - 1)) + a) a) b, ?_, ?_, ?_, ?_⟩
  · intro t
    have : ((n : ℤ) - 1 : ℤ) ≠ 0 := by omega
    simp [staircase, this, hd.ne', Function.comp_def]
  · intro j hj x h1 h2
    have hfl : ⌊x * (n / d)⌋ = (j : ℤ) := by
      rw [Int.floor_eq_iff]
      constructor
      · push_cast
        have : (j : ℝ) = (j : ℝ) * (d / n) * (n / d) := by field_simp
        rw [this]
        exact mul_le_mul_of_nonneg_right h1 (by positivity)
      · push_cast
        have : (j : ℝ) + 1 = (j + 1) * (d / n) * (n / d) := by field_simp
        rw [this]
        exact mul_lt_mul_of_pos_right h2 (by positivity)
    simp only [hfl, Int.cast_natCast]
    have hj1 : (j : ℝ) ≤ n - 1 := by
      have : (j : ℝ) + 1 ≤ n := by exact_mod_cast hj
      linarith
    have h3 : (j : ℝ) * ((b - a) / ((n : ℝ) - 1)) ≤ b - a := by
      calc (j : ℝ) * ((b - a) / ((n : ℝ) - 1)) ≤ ((n : ℝ) - 1) * ((b - a) / ((n : ℝ) - 1)) :=
            mul_le_mul_of_nonneg_right hj1 hs
        _ = b - a := by field_simp
    have h4 : 0 ≤ (j : ℝ) * ((b - a) / ((n : ℝ) - 1)) := by positivity
    rw [max_eq_left (by linarith), min_eq_left (by linarith)]
    ring
  · intro x hx
    have : ⌊x * (n / d)⌋ ≤ -1 := by
      have : ⌊x * (n / d)⌋ < 0 := by
        rw [Int.floor_lt]
        push_cast
        exact mul_neg_of_neg_of_pos hx (by positivity)
      omega
    have h2 : ((⌊x * (n / d)⌋ : ℤ) : ℝ) ≤ -1 := by exact_mod_cast this
    simp only
    rw [max_eq_right (by nlinarith), min_eq_left hab]
  · intro x hx
    have : (n : ℤ) ≤ ⌊x * (n / d)⌋ := by
      rw [Int.le_floor]
      push_cast
      calc (n : ℝ) = d * (n / d) := by field_simp
        _ ≤ x * (n / d) := mul_le_mul_of_nonneg_right hx (by positivity)
    have h2 : (n : ℝ) ≤ ((⌊x * (n / d)⌋ : ℤ) : ℝ) := by exact_mod_cast this
    have h3 : b - a ≤ ((⌊x * (n / d)⌋ : ℤ) : ℝ) * ((b - a) / ((n : ℝ) - 1)) := by
      calc b - a = ((n : ℝ) - 1) * ((b - a) / ((n : ℝ) - 1)) := by field_simp
        _ ≤ _ := mul_le_mul_of_nonneg_right (by linarith) hs
    simp only
    rw [min_eq_right]
    exact le_max_of_le_left (by linarith)

/-- A staircase that is asked to fall has its final amplitude all the time. -/
theorem falling_staircase_flat (t : List ℝ) (a b d : ℝ) (n : ℤ) (hd : d ≠ 0) (hn : n ≠ 1) (hab : b ≤ a) :
    staircase t a b n (some d) = .ok (t.map fun _ => b) := by
  have : n - 1 ≠ 0 := by omega
  simp only [staircase, this, hd, if_false, List.map_map, Except.ok.injEq]
  refine List.map_congr_left fun x _ => ?_
  simp only [Function.comp]
  rw [min_eq_right]
  exact le_trans hab (le_max_right _ _)

/-- A staircase with one step is an error. -/
theorem one_step_rejected (t : List ℝ) (a b d : ℝ) : staircase t a b 1 (some d) = .error .zeroDivision := by
  simp [staircase]

/-- A chirp has constant magnitude; it starts at `amp`, and its phase advances at every time with the
frequency that goes linearly from `startFreq` at time zero to `endFreq` at its duration. -/
theorem chirp_shape (amp f0 f1 d : ℝ) (hd : d ≠ 0) : ∃ f : ℝ → ℂ, ∃ freq : ℝ → ℝ,
    (∀ t, chirp t amp f0 f1 (some d) = .ok (t.map f)) ∧
    f 0 = amp ∧ (∀ x, ‖f x‖ = |amp|) ∧
    (∀ x, HasDerivAt f (2 * Real.pi * I * freq x * f x) x) ∧
    freq 0 = f0 ∧ freq d = f1 ∧ ∀ x, freq x = f0 + x / d * (f1 - f0) := by
  refine ⟨fun x => (amp : ℂ) * Complex.exp (1 * I * 2 * (Real.pi : ℂ) *
    (((f1 - f0) / d * x / 2 + f0 : ℝ) : ℂ) * (x : ℂ)), fun x => f0 + x / d * (f1 - f0), ?_, ?_, ?_, ?_, ?_, ?_, ?_⟩
  · intro t; simp [chirp, hd]
  · simp
  · intro x
    have : 1 * I * 2 * (Real.pi : ℂ) * (((f1 - f0) / d * x / 2 + f0 : ℝ) : ℂ) * (x : ℂ) =
        ((2 * Real.pi * ((f1 - f0) / d * x / 2 + f0) * x : ℝ) : ℂ) * I := by
      push_cast; ring
    beta_reduce
    rw [this, norm_mul, Complex.norm_exp_ofReal_mul_I]
    simp
  · intro x
    have h0 : HasDerivAt (fun y : ℝ => (y : ℂ)) 1 x := (hasDerivAt_id x).ofReal_comp
    have h1 : HasDerivAt (fun y : ℝ => 1 * I * 2 * (Real.pi : ℂ) *
        ((((f1 : ℂ) - f0) / d * y / 2 + f0)) * (y : ℂ))
        (1 * I * 2 * (Real.pi : ℂ) * (((f1 : ℂ) - f0) / d * 1 / 2) * x + 1 * I * 2 * (Real.pi : ℂ) *
        ((((f1 : ℂ) - f0) / d * x / 2 + f0)) * 1) x := by
      exact ((((h0.const_mul _).div_const 2).add_const (f0 : ℂ)).const_mul _).mul h0
    have h2 := (h1.cexp).const_mul (amp : ℂ)
    have h3 : (fun y : ℝ => (amp : ℂ) * Complex.exp (1 * I * 2 * (Real.pi : ℂ) *
        (((f1 - f0) / d * y / 2 + f0 : ℝ) : ℂ) * (y : ℂ))) =
        (fun y : ℝ => (amp : ℂ) * Complex.exp (1 * I * 2 * (Real.pi : ℂ) *
        ((((f1 : ℂ) - f0) / d * y / 2 + f0)) * (y : ℂ))) := by
      funext y; push_cast; rfl
    rw [h3]
    refine h2.congr_deriv ?_
    beta_reduce
    push_cast
    ring
  · simp
  · field_simp; ring
  · intro x; rfl

end Verif.Shapes
