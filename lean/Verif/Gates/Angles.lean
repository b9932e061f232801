/-
C41: gates store the angles and matrices they should.
-/
import Verif.Gates.Lemmas
import Verif.Numeric.Props
import Mathlib.Analysis.SpecialFunctions.Trigonometric.Bounds

set_option linter.unusedSimpArgs false
set_option linter.unusedVariables false

namespace Verif.Gates

open Complex (I)
open Verif.Numeric (pyRound pyMod)

theorem pyMod_spec (x m : Rat) (hm : 0 < m) :
    0 ≤ pyMod x m ∧ pyMod x m < m ∧ ∃ k : ℤ, pyMod x m = x + m * k := by
  unfold pyMod
  have h1 : (⌊x / m⌋ : Rat) ≤ x / m := Int.floor_le _
  have h2 : x / m < ⌊x / m⌋ + 1 := Int.lt_floor_add_one _
  have e : x / m * m = x := by field_simp
  refine ⟨?_, ?_, -⌊x / m⌋, ?_⟩
  · nlinarith
  · nlinarith
  · push_cast; ring

/-- **C41, range of angles.** The mapped angle is in `]-180, 180]` and differs from the given one by
full turns. -/
theorem modulo360_spec (θ : Rat) :
    -180 < modulo360 θ ∧ modulo360 θ ≤ 180 ∧ ∃ k : ℤ, modulo360 θ = θ + 360 * k := by
  obtain ⟨h1, h2, k, h3⟩ := pyMod_spec (-θ - 180) 360 (by norm_num)
  unfold modulo360
  refine ⟨by linarith, by linarith, -k + 1, ?_⟩
  rw [h3]; push_cast; ring

/-- An angle in `]-180, 180]` is the only one that differs from it by full turns. -/
theorem modulo360_unique {θ m : Rat} {k : ℤ} (h1 : -180 < m) (h2 : m ≤ 180) (h : m = θ + 360 * k) :
    modulo360 θ = m := by
  obtain ⟨h3, h4, j, h5⟩ := modulo360_spec θ
  have : (k : Rat) - j < 1 := by linarith
  have h6 : (j : Rat) - k < 1 := by linarith
  have a : k - j < 1 := by exact_mod_cast this
  have b : j - k < 1 := by exact_mod_cast h6
  have : k = j := by omega
  rw [h5, h, this]

theorem pyMod_unique {x m y : Rat} {k : ℤ} (h1 : 0 ≤ y) (h2 : y < m) (h : y = x + m * k) :
    pyMod x m = y := by
  have hm : 0 < m := by linarith
  obtain ⟨h3, h4, j, h5⟩ := pyMod_spec x m hm
  have e : m * ((k : Rat) - j) < m := by nlinarith
  have e' : m * ((j : Rat) - k) < m := by nlinarith
  have a' : (k : Rat) - j < 1 := by
    by_contra hc
    nlinarith
  have b' : (j : Rat) - k < 1 := by
    by_contra hc
    nlinarith
  have a : k - j < 1 := by exact_mod_cast a'
  have b : j - k < 1 := by exact_mod_cast b'
  have : k = j := by omega
  rw [h5, h, this]

variable {Q : Type}

/-- **C41, full turns.** Rotations whose angles differ by full turns are the same operation. -/
theorem rxy_full_turns (θ φ : Rat) (j k : ℤ) (q : Q) : Rxy (θ + 360 * j) (φ + 360 * k) q = Rxy θ φ q := by
  have h1 : modulo360 (θ + 360 * j) = modulo360 θ := by
    obtain ⟨h1, h2, m, h3⟩ := modulo360_spec θ
    exact modulo360_unique (k := m - j) h1 h2 (by rw [h3]; push_cast; ring)
  have h2 : pyMod (φ + 360 * k) 360 = pyMod φ 360 := by
    obtain ⟨h1, h2, m, h3⟩ := pyMod_spec φ 360 (by norm_num)
    exact pyMod_unique (k := m - k) h1 h2 (by rw [h3]; push_cast; ring)
  unfold Rxy
  rw [h1, h2]

theorem rz_full_turns (θ : Rat) (j : ℤ) (q : Q) : Rz (θ + 360 * j) q = Rz θ q := by
  obtain ⟨h1, h2, m, h3⟩ := modulo360_spec θ
  unfold Rz
  rw [modulo360_unique (θ := θ + 360 * j) (k := m - j) h1 h2 (by rw [h3]; push_cast; ring)]

/-! ### Matrices -/

theorem rad_turns (θ : Rat) (k : ℤ) : rad (θ + 360 * k) = rad θ + 2 * Real.pi * k := by
  unfold rad; push_cast; ring

theorem exp_half_turns (x : ℝ) (k : ℤ) :
    Complex.exp (I * ((x + 2 * Real.pi * k : ℝ) : ℂ) / 2) = (-1 : ℂ) ^ k * Complex.exp (I * x / 2) := by
  have e : I * ((x + 2 * Real.pi * k : ℝ) : ℂ) / 2 = (k : ℂ) * (Real.pi * I) + I * x / 2 := by
    push_cast; ring
  rw [e, Complex.exp_add, Complex.exp_int_mul, Complex.exp_pi_mul_I]

theorem neg_one_zpow_inv (k : ℤ) : ((-1 : ℂ) ^ (-k)) = (-1) ^ k := by
  rcases Int.even_or_odd k with h | h
  · rw [h.neg_one_zpow, h.neg.neg_one_zpow]
  · rw [h.neg_one_zpow, h.neg.neg_one_zpow]

theorem exp_half_turns' (x : ℝ) (k : ℤ) :
    Complex.exp (-I * ((x + 2 * Real.pi * k : ℝ) : ℂ) / 2) = (-1 : ℂ) ^ k * Complex.exp (-I * x / 2) := by
  have e : -I * ((x + 2 * Real.pi * k : ℝ) : ℂ) / 2 = ((-k : ℤ) : ℂ) * (Real.pi * I) + -I * x / 2 := by
    push_cast; ring
  rw [e, Complex.exp_add, Complex.exp_int_mul, Complex.exp_pi_mul_I, neg_one_zpow_inv]

/-- Full turns about z change the matrix by the sign only. -/
theorem rzMatrix_turns (θ : Rat) (k : ℤ) : rzMatrix (θ + 360 * k) = (-1 : ℂ) ^ k • rzMatrix θ := by
  ext a b
  unfold rzMatrix
  rw [rad_turns, exp_half_turns, exp_half_turns']
  fin_cases a <;> fin_cases b <;> simp

theorem cos_half_turns (x : ℝ) (k : ℤ) :
    Complex.cos (((x + 2 * Real.pi * k : ℝ) : ℂ) / 2) = (-1 : ℂ) ^ k * Complex.cos (x / 2) := by
  have e : ((x + 2 * Real.pi * k : ℝ) : ℂ) / 2 = x / 2 + k * Real.pi := by push_cast; ring
  have e2 : (x / 2 + k * Real.pi : ℂ) = ((x / 2 + k * Real.pi : ℝ) : ℂ) := by push_cast; rfl
  rw [e, e2, ← Complex.ofReal_cos, Real.cos_add_int_mul_pi]
  push_cast; rfl

theorem sin_half_turns (x : ℝ) (k : ℤ) :
    Complex.sin (((x + 2 * Real.pi * k : ℝ) : ℂ) / 2) = (-1 : ℂ) ^ k * Complex.sin (x / 2) := by
  have e : ((x + 2 * Real.pi * k : ℝ) : ℂ) / 2 = x / 2 + k * Real.pi := by push_cast; ring
  have e2 : (x / 2 + k * Real.pi : ℂ) = ((x / 2 + k * Real.pi : ℝ) : ℂ) := by push_cast; rfl
  rw [e, e2, ← Complex.ofReal_sin, Real.sin_add_int_mul_pi]
  push_cast; rfl

/-- Full turns about an axis in the equator change the matrix by the sign only, full turns of the axis
do not change it. -/
theorem rxyMatrix_turns (θ φ : Rat) (j k : ℤ) :
    rxyMatrix (θ + 360 * j) (φ + 360 * k) = (-1 : ℂ) ^ j • rxyMatrix θ φ := by
  have e1 : Complex.exp (I * ((rad φ + 2 * Real.pi * k : ℝ) : ℂ)) = Complex.exp (I * rad φ) := by
    have e : I * ((rad φ + 2 * Real.pi * k : ℝ) : ℂ) = I * rad φ + k * (2 * Real.pi * I) := by
      push_cast; ring
    rw [e, Complex.exp_add, Complex.exp_int_mul_two_pi_mul_I, mul_one]
  have e2 : Complex.exp (-I * ((rad φ + 2 * Real.pi * k : ℝ) : ℂ)) = Complex.exp (-I * rad φ) := by
    have e : -I * ((rad φ + 2 * Real.pi * k : ℝ) : ℂ) = -I * rad φ + ((-k : ℤ) : ℂ) * (2 * Real.pi * I) := by
      push_cast; ring
    rw [e, Complex.exp_add, Complex.exp_int_mul_two_pi_mul_I, mul_one]
  ext a b
  unfold rxyMatrix
  rw [rad_turns, rad_turns, e1, e2, cos_half_turns, sin_half_turns]
  fin_cases a <;> fin_cases b <;> simp <;> ring

/-- **C41, matrix of Rz.** The matrix stored by `Rz(θ)` is the rotation by `θ` about z, up to the sign. -/
theorem rz_stored (θ : Rat) (q : Q) : ∃ θ', Rz θ q = .rz θ' q ∧
    (rzMatrix θ' = rzMatrix θ ∨ rzMatrix θ' = -rzMatrix θ) := by
  obtain ⟨_, _, k, h⟩ := modulo360_spec θ
  refine ⟨modulo360 θ, rfl, ?_⟩
  rw [h, rzMatrix_turns]
  rcases Int.even_or_odd k with h | h
  · left; rw [h.neg_one_zpow, one_smul]
  · right; rw [h.neg_one_zpow, neg_one_smul]

/-- The error of rounding. -/
theorem round8_close (x : Rat) : |round8 x - x| ≤ 1 / 200000000 := by
  have h := Numeric.pyRound_close (x * 100000000)
  unfold round8
  rw [abs_le] at h ⊢
  constructor <;> linarith [h.1, h.2]

theorem rad_close {x y : Rat} {ε : Rat} (h : |x - y| ≤ ε) : |rad x - rad y| ≤ (ε : ℝ) * Real.pi / 180 := by
  have e : rad x - rad y = ((x - y : Rat) : ℝ) * (Real.pi / 180) := by
    unfold rad; push_cast; ring
  have hp : (0 : ℝ) < Real.pi / 180 := by have := Real.pi_pos; positivity
  rw [e, abs_mul, abs_of_pos hp]
  have : |((x - y : Rat) : ℝ)| ≤ (ε : ℝ) := by exact_mod_cast h
  nlinarith

theorem norm_exp_sub_le (x y : ℝ) : ‖Complex.exp (I * x) - Complex.exp (I * y)‖ ≤ |x - y| := by
  have e : Complex.exp (I * x) - Complex.exp (I * y) =
      Complex.exp (I * y) * (Complex.exp (I * ((x - y : ℝ) : ℂ)) - 1) := by
    rw [mul_sub, ← Complex.exp_add]
    congr 1
    · congr 1; push_cast; ring
    · ring
  rw [e, norm_mul, mul_comm I (y : ℂ), Complex.norm_exp_ofReal_mul_I, one_mul]
  exact Real.norm_exp_I_mul_ofReal_sub_one_le

/-- Close angles have close matrices. -/
theorem rxyMatrix_close {θ θ' φ φ' : Rat} {ε : Rat} (h : |θ - θ'| ≤ ε) (h' : |φ - φ'| ≤ ε) (a b : Fin 2) :
    ‖rxyMatrix θ φ a b - rxyMatrix θ' φ' a b‖ ≤ (ε : ℝ) * Real.pi / 120 := by
  have hθ := rad_close h
  have hφ := rad_close h'
  have hε : (0 : ℝ) ≤ (ε : ℝ) := by exact_mod_cast (abs_nonneg _).trans h
  have hpi := Real.pi_pos
  have hhalf : |rad θ / 2 - rad θ' / 2| ≤ (ε : ℝ) * Real.pi / 360 := by
    have : rad θ / 2 - rad θ' / 2 = (rad θ - rad θ') / 2 := by ring
    rw [this, abs_div, abs_of_pos (by norm_num : (0 : ℝ) < 2)]
    linarith
  have hcos : |Real.cos (rad θ / 2) - Real.cos (rad θ' / 2)| ≤ (ε : ℝ) * Real.pi / 360 := by
    have := Real.abs_cos_sub_cos_le (rad θ / 2) (rad θ' / 2)
    linarith
  have hsin : |Real.sin (rad θ / 2) - Real.sin (rad θ' / 2)| ≤ (ε : ℝ) * Real.pi / 360 := by
    have := Real.abs_sin_sub_sin_le (rad θ / 2) (rad θ' / 2)
    linarith
  have hc : ‖Complex.cos (rad θ / 2) - Complex.cos (rad θ' / 2)‖ ≤ (ε : ℝ) * Real.pi / 360 := by
    have e : Complex.cos (rad θ / 2) - Complex.cos (rad θ' / 2) =
        ((Real.cos (rad θ / 2) - Real.cos (rad θ' / 2) : ℝ) : ℂ) := by push_cast; rfl
    rw [e, Complex.norm_real]; exact hcos
  have hs : ‖Complex.sin (rad θ / 2) - Complex.sin (rad θ' / 2)‖ ≤ (ε : ℝ) * Real.pi / 360 := by
    have e : Complex.sin (rad θ / 2) - Complex.sin (rad θ' / 2) =
        ((Real.sin (rad θ / 2) - Real.sin (rad θ' / 2) : ℝ) : ℂ) := by push_cast; rfl
    rw [e, Complex.norm_real]; exact hsin
  have hs1 : ‖Complex.sin (rad θ / 2)‖ ≤ 1 := by
    have e : Complex.sin (rad θ / 2) = ((Real.sin (rad θ / 2) : ℝ) : ℂ) := by push_cast; rfl
    rw [e, Complex.norm_real]; exact Real.abs_sin_le_one _
  have key : ∀ x y : ℝ, |x - y| ≤ (ε : ℝ) * Real.pi / 180 →
      ‖-I * Complex.exp (I * x) * Complex.sin (rad θ / 2) - -I * Complex.exp (I * y) * Complex.sin (rad θ' / 2)‖
        ≤ (ε : ℝ) * Real.pi / 120 := by
    intro x y hxy
    have e : -I * Complex.exp (I * x) * Complex.sin (rad θ / 2) - -I * Complex.exp (I * y) * Complex.sin (rad θ' / 2)
        = -I * ((Complex.exp (I * x) - Complex.exp (I * y)) * Complex.sin (rad θ / 2) +
          Complex.exp (I * y) * (Complex.sin (rad θ / 2) - Complex.sin (rad θ' / 2))) := by ring
    rw [e, norm_mul, norm_neg, Complex.norm_I, one_mul]
    refine (norm_add_le _ _).trans ?_
    rw [norm_mul, norm_mul, mul_comm I (y : ℂ), Complex.norm_exp_ofReal_mul_I, one_mul, mul_comm (y : ℂ) I]
    have h1 := norm_exp_sub_le x y
    have h2 : ‖Complex.exp (I * x) - Complex.exp (I * y)‖ * ‖Complex.sin (rad θ / 2)‖ ≤ (ε : ℝ) * Real.pi / 180 := by
      have := norm_nonneg (Complex.exp (I * x) - Complex.exp (I * y))
      nlinarith [norm_nonneg (Complex.sin (rad θ / 2))]
    linarith
  rcases fin2_cases a with rfl | rfl <;> rcases fin2_cases b with rfl | rfl
  · simp only [rxyMatrix, Matrix.of_apply, Matrix.cons_val_zero, Matrix.cons_val_one]
    have : (0 : ℝ) ≤ ε * Real.pi := by positivity
    linarith
  · simp only [rxyMatrix, Matrix.of_apply, Matrix.cons_val_zero, Matrix.cons_val_one]
    have := key (-rad φ) (-rad φ') (by rw [neg_sub_neg, abs_sub_comm]; exact hφ)
    have e1 : ∀ z : ℝ, I * ((-z : ℝ) : ℂ) = -I * (z : ℂ) := by intro z; push_cast; ring
    rw [e1, e1] at this
    exact this
  · simp only [rxyMatrix, Matrix.of_apply, Matrix.cons_val_zero, Matrix.cons_val_one]
    exact key _ _ hφ
  · simp only [rxyMatrix, Matrix.of_apply, Matrix.cons_val_zero, Matrix.cons_val_one]
    have : (0 : ℝ) ≤ ε * Real.pi := by positivity
    linarith

/-- **C41, matrix of Rxy.** The matrix stored by `Rxy(θ, φ)` is, up to the sign, the one of the rotation
with these angles, with an error of at most 2e-10 in each entry (by rounding angles to eight digits). -/
theorem rxy_stored (θ φ : Rat) (q : Q) : ∃ θ' φ', Rxy θ φ q = .rxy θ' φ' q ∧
    ∃ s : ℂ, (s = 1 ∨ s = -1) ∧ ∀ a b, ‖rxyMatrix θ' φ' a b - s * rxyMatrix θ φ a b‖ ≤ 2 / 10000000000 := by
  obtain ⟨_, _, j, hj⟩ := modulo360_spec θ
  obtain ⟨_, _, k, hk⟩ := pyMod_spec φ 360 (by norm_num)
  refine ⟨_, _, rfl, (-1 : ℂ) ^ j, ?_, fun a b => ?_⟩
  · rcases Int.even_or_odd j with h | h
    · left; exact h.neg_one_zpow
    · right; exact h.neg_one_zpow
  · have h := rxyMatrix_close (round8_close (modulo360 θ)) (round8_close (pyMod φ 360)) a b
    have e := congrFun (congrFun (rxyMatrix_turns θ φ j k) a) b
    rw [← hj, ← hk] at e
    rw [e, Matrix.smul_apply, smul_eq_mul] at h
    refine h.trans ?_
    have := Real.pi_le_four
    push_cast
    nlinarith

end Verif.Gates
