/-
C41: the stored matrices are unitary, as documented, and composite gates are what they are replaced by.
-/
import Verif.Gates.Angles

set_option linter.unusedSimpArgs false
set_option linter.unusedVariables false

namespace Verif.Gates

open Complex (I)
open Verif.Numeric (pyRound pyMod)

/-! ### Unitarity -/

theorem rotation_unitary {c s : ℝ} {u v : ℂ} (h : c ^ 2 + s ^ 2 = 1) (hu : u * v = 1)
    (hv : (starRingEnd ℂ) u = v) (hv' : (starRingEnd ℂ) v = u) :
    (!![(c : ℂ), -I * v * s; -I * u * s, c] : Matrix (Fin 2) (Fin 2) ℂ) ∈ Matrix.unitaryGroup (Fin 2) ℂ := by
  rw [Matrix.mem_unitaryGroup_iff]
  have h' : (c : ℂ) ^ 2 + (s : ℂ) ^ 2 = 1 := by exact_mod_cast h
  have hI : I * I = -1 := Complex.I_mul_I
  ext a b
  fin_cases a <;> fin_cases b <;>
    simp [Matrix.mul_apply, Fin.sum_univ_two, hv, hv']
  · linear_combination h' + (s : ℂ) ^ 2 * hu - (s : ℂ) ^ 2 * u * v * (hI + 1)
  · ring
  · ring
  · linear_combination h' + (s : ℂ) ^ 2 * hu - (s : ℂ) ^ 2 * u * v * (hI + 1)

theorem conj_exp_I (x : ℝ) : (starRingEnd ℂ) (Complex.exp (I * x)) = Complex.exp (-I * x) := by
  rw [← Complex.exp_conj]; congr 1; simp

theorem conj_exp_neg_I (x : ℝ) : (starRingEnd ℂ) (Complex.exp (-I * x)) = Complex.exp (I * x) := by
  rw [← Complex.exp_conj]; congr 1; simp

/-- **C41, unitarity.** Matrices of rotations are unitary. -/
theorem rxyMatrix_unitary (θ φ : Rat) : rxyMatrix θ φ ∈ Matrix.unitaryGroup (Fin 2) ℂ := by
  have h := rotation_unitary (c := Real.cos (rad θ / 2)) (s := Real.sin (rad θ / 2))
    (u := Complex.exp (I * rad φ)) (v := Complex.exp (-I * rad φ)) (Real.cos_sq_add_sin_sq _)
    (by rw [← Complex.exp_add]; simp) (conj_exp_I _) (conj_exp_neg_I _)
  have e : rxyMatrix θ φ = !![((Real.cos (rad θ / 2) : ℝ) : ℂ), -I * Complex.exp (-I * rad φ) * ((Real.sin (rad θ / 2) : ℝ) : ℂ);
      -I * Complex.exp (I * rad φ) * ((Real.sin (rad θ / 2) : ℝ) : ℂ), ((Real.cos (rad θ / 2) : ℝ) : ℂ)] := by
    unfold rxyMatrix; push_cast; rfl
  rw [e]; exact h

theorem rzMatrix_unitary (θ : Rat) : rzMatrix θ ∈ Matrix.unitaryGroup (Fin 2) ℂ := by
  rw [Matrix.mem_unitaryGroup_iff]
  have h1 : (starRingEnd ℂ) (Complex.exp (-I * rad θ / 2)) = Complex.exp (I * rad θ / 2) := by
    have := conj_exp_neg_I (rad θ / 2)
    push_cast at this
    rw [← mul_div_assoc, ← mul_div_assoc] at this
    exact this
  have h2 : (starRingEnd ℂ) (Complex.exp (I * rad θ / 2)) = Complex.exp (-I * rad θ / 2) := by
    have := conj_exp_I (rad θ / 2)
    push_cast at this
    rw [← mul_div_assoc, ← mul_div_assoc] at this
    exact this
  have h3 : Complex.exp (-I * rad θ / 2) * Complex.exp (I * rad θ / 2) = 1 := by
    rw [← Complex.exp_add]
    have : -I * (rad θ : ℂ) / 2 + I * rad θ / 2 = 0 := by ring
    rw [this, Complex.exp_zero]
  have e : star (rzMatrix θ) = !![Complex.exp (I * rad θ / 2), 0; 0, Complex.exp (-I * rad θ / 2)] := by
    ext a b
    fin_cases a <;> fin_cases b <;> simp only [rzMatrix, Matrix.star_apply]
    · exact h1
    · simp
    · simp
    · exact h2
  rw [e]
  ext a b
  fin_cases a <;> fin_cases b <;>
    simp only [rzMatrix, Matrix.mul_apply, Fin.sum_univ_two, Matrix.of_apply, Fin.mk_zero,
      Fin.mk_one, Matrix.cons_val_zero, Matrix.cons_val_one, Fin.zero_eta, Fin.isValue]
  · rw [h3]; simp
  · simp
  · simp
  · rw [mul_comm (Complex.exp (I * rad θ / 2)), h3]; simp

theorem sqrt2_sq : ((Real.sqrt 2 : ℝ) : ℂ) ^ 2 = 2 := by
  have : (Real.sqrt 2) ^ 2 = 2 := Real.sq_sqrt (by norm_num)
  exact_mod_cast this

theorem sqrt2_ne : ((Real.sqrt 2 : ℝ) : ℂ) ≠ 0 := by
  intro h
  have := sqrt2_sq
  rw [h] at this
  norm_num at this

theorem hMatrix_unitary : hMatrix ∈ Matrix.unitaryGroup (Fin 2) ℂ := by
  rw [Matrix.mem_unitaryGroup_iff]
  have h := sqrt2_sq
  have hn := sqrt2_ne
  have hI : I * I = -1 := Complex.I_mul_I
  ext a b
  fin_cases a <;> fin_cases b <;>
    simp [hMatrix, Matrix.mul_apply, Fin.sum_univ_two] <;> field_simp <;> simp [h] <;> norm_num

theorem cnotMatrix_unitary : cnotMatrix ∈ Matrix.unitaryGroup (Fin 4) ℂ := by
  rw [Matrix.mem_unitaryGroup_iff]
  ext a b
  fin_cases a <;> fin_cases b <;>
    simp [cnotMatrix, Matrix.mul_apply, Fin.sum_univ_four, Matrix.star_apply]

theorem czMatrix_unitary : czMatrix ∈ Matrix.unitaryGroup (Fin 4) ℂ := by
  rw [Matrix.mem_unitaryGroup_iff]
  ext a b
  fin_cases a <;> fin_cases b <;>
    simp [czMatrix, Matrix.mul_apply, Fin.sum_univ_four, Matrix.star_apply]

/-! ### Documented matrices -/

variable {Q : Type}

theorem X_stored (q : Q) : X q = .rxy 180 0 q := by
  have h1 : round8 (modulo360 180) = 180 := by decide +kernel
  have h2 : round8 (pyMod 0 360) = 0 := by decide +kernel
  simp only [X, Rxy, h1, h2]

theorem X90_stored (q : Q) : X90 q = .rxy 90 0 q := by
  have h1 : round8 (modulo360 90) = 90 := by decide +kernel
  have h2 : round8 (pyMod 0 360) = 0 := by decide +kernel
  simp only [X90, Rxy, h1, h2]

theorem Y_stored (q : Q) : Y q = .rxy 180 90 q := by
  have h1 : round8 (modulo360 180) = 180 := by decide +kernel
  have h2 : round8 (pyMod 90 360) = 90 := by decide +kernel
  simp only [Y, Rxy, h1, h2]

theorem Y90_stored (q : Q) : Y90 q = .rxy 90 90 q := by
  have h1 : round8 (modulo360 90) = 90 := by decide +kernel
  have h2 : round8 (pyMod 90 360) = 90 := by decide +kernel
  simp only [Y90, Rxy, h1, h2]

theorem Z_stored (q : Q) : Z q = .rz 180 q := by
  have h1 : modulo360 180 = 180 := by decide +kernel
  simp only [Z, Rz, h1]

theorem Z90_stored (q : Q) : Z90 q = .rz 90 q := by
  have h1 : modulo360 90 = 90 := by decide +kernel
  simp only [Z90, Rz, h1]

theorem SDagger_stored (q : Q) : SDagger q = .rz (-90) q := by
  have h1 : modulo360 (-90) = -90 := by decide +kernel
  simp only [SDagger, Rz, h1]

theorem T_stored (q : Q) : T q = .rz 45 q := by
  have h1 : modulo360 45 = 45 := by decide +kernel
  simp only [T, Rz, h1]

theorem TDagger_stored (q : Q) : TDagger q = .rz (-45) q := by
  have h1 : modulo360 (-45) = -45 := by decide +kernel
  simp only [TDagger, Rz, h1]

theorem exp_I_eq (x : ℝ) : Complex.exp (I * x) = Real.cos x + Real.sin x * I := by
  rw [mul_comm, Complex.exp_mul_I]; push_cast; rfl

theorem exp_neg_I_eq (x : ℝ) : Complex.exp (-I * x) = Real.cos x - Real.sin x * I := by
  have : -I * (x : ℂ) = I * ((-x : ℝ) : ℂ) := by push_cast; ring
  rw [this, exp_I_eq, Real.cos_neg, Real.sin_neg]; push_cast; ring

theorem rxyMatrix_eq (θ φ : Rat) : rxyMatrix θ φ =
    !![(Real.cos (rad θ / 2) : ℂ), -I * (Real.cos (rad φ) - Real.sin (rad φ) * I) * Real.sin (rad θ / 2);
      -I * (Real.cos (rad φ) + Real.sin (rad φ) * I) * Real.sin (rad θ / 2), Real.cos (rad θ / 2)] := by
  unfold rxyMatrix
  rw [exp_I_eq, exp_neg_I_eq]
  push_cast
  rfl

theorem rzMatrix_eq (θ : Rat) : rzMatrix θ =
    !![(Real.cos (rad θ / 2) : ℂ) - Real.sin (rad θ / 2) * I, 0;
      0, Real.cos (rad θ / 2) + Real.sin (rad θ / 2) * I] := by
  have h1 := exp_I_eq (rad θ / 2)
  have h2 := exp_neg_I_eq (rad θ / 2)
  have e1 : I * ((rad θ / 2 : ℝ) : ℂ) = I * rad θ / 2 := by push_cast; ring
  have e2 : -I * ((rad θ / 2 : ℝ) : ℂ) = -I * rad θ / 2 := by push_cast; ring
  rw [e1] at h1
  rw [e2] at h2
  unfold rzMatrix
  rw [h1, h2]

theorem half_180 : rad 180 / 2 = Real.pi / 2 := by unfold rad; push_cast; ring
theorem half_90 : rad 90 / 2 = Real.pi / 4 := by unfold rad; push_cast; ring
theorem half_neg_90 : rad (-90) / 2 = -(Real.pi / 4) := by unfold rad; push_cast; ring
theorem half_45 : rad 45 / 2 = Real.pi / 8 := by unfold rad; push_cast; ring
theorem half_neg_45 : rad (-45) / 2 = -(Real.pi / 8) := by unfold rad; push_cast; ring
theorem rad_90 : rad 90 = Real.pi / 2 := by unfold rad; push_cast; ring

variable [DecidableEq Q]

/-- **C41, documentation of X.** -/
theorem X_matrix (q : Q) (ψ : State Q) : act (X q) ψ = apply1 !![0, -I; -I, 0] q ψ := by
  rw [X_stored, act, rxyMatrix_eq, half_180, rad_zero]
  simp

/-- **C41, documentation of X90.** -/
theorem X90_matrix (q : Q) (ψ : State Q) :
    act (X90 q) ψ = apply1 ((1 / (Real.sqrt 2 : ℂ)) • !![1, -I; -I, 1]) q ψ := by
  rw [X90_stored, act, rxyMatrix_eq, half_90, rad_zero, Real.cos_pi_div_four, Real.sin_pi_div_four]
  congr 1
  have h := sqrt2_sq
  have hn := sqrt2_ne
  ext a b
  fin_cases a <;> fin_cases b <;> simp <;> field_simp <;> linear_combination h

/-- **C41, documentation of Y.** -/
theorem Y_matrix (q : Q) (ψ : State Q) : act (Y q) ψ = apply1 !![0, -1; 1, 0] q ψ := by
  rw [Y_stored, act, rxyMatrix_eq, half_180, rad_90]
  simp

/-- The documented matrix of Y90. -/
noncomputable def y90Doc : Matrix (Fin 2) (Fin 2) ℂ := (1 / (Real.sqrt 2 : ℂ)) • !![1, -1; 1, 1]

theorem y90Matrix : rxyMatrix 90 90 = y90Doc := by
  rw [rxyMatrix_eq, half_90, rad_90, Real.cos_pi_div_four, Real.sin_pi_div_four]
  have h := sqrt2_sq
  have hn := sqrt2_ne
  have hI : I * I = -1 := Complex.I_mul_I
  unfold y90Doc
  ext a b
  fin_cases a <;> fin_cases b <;> simp <;> field_simp <;> linear_combination h

/-- **C41, documentation of Y90.** -/
theorem Y90_matrix (q : Q) (ψ : State Q) :
    act (Y90 q) ψ = apply1 ((1 / (Real.sqrt 2 : ℂ)) • !![1, -1; 1, 1]) q ψ := by
  rw [Y90_stored, act, y90Matrix]; rfl

theorem zMatrix : rzMatrix 180 = !![-I, 0; 0, I] := by
  rw [rzMatrix_eq, half_180]; simp

/-- **C41, documentation of Z.** -/
theorem Z_matrix (q : Q) (ψ : State Q) : act (Z q) ψ = apply1 !![-I, 0; 0, I] q ψ := by
  rw [Z_stored, act, zMatrix]

/-- **C41, documentation of Z90 and S.** -/
theorem Z90_matrix (q : Q) (ψ : State Q) :
    act (Z90 q) ψ = apply1 ((1 / (Real.sqrt 2 : ℂ)) • !![1 - I, 0; 0, 1 + I]) q ψ ∧ S q = Z90 q := by
  refine ⟨?_, rfl⟩
  rw [Z90_stored, act, rzMatrix_eq, half_90, Real.cos_pi_div_four, Real.sin_pi_div_four]
  congr 1
  have h := sqrt2_sq
  have hn := sqrt2_ne
  ext a b
  fin_cases a <;> fin_cases b <;> simp <;> field_simp
  · linear_combination (1 - I) * h
  · linear_combination (1 + I) * h

/-- **C41, documentation of SDagger.** -/
theorem SDagger_matrix (q : Q) (ψ : State Q) :
    act (SDagger q) ψ = apply1 ((1 / (Real.sqrt 2 : ℂ)) • !![1 + I, 0; 0, 1 - I]) q ψ := by
  rw [SDagger_stored, act, rzMatrix_eq, half_neg_90, Real.cos_neg, Real.sin_neg, Real.cos_pi_div_four,
    Real.sin_pi_div_four]
  congr 1
  have h := sqrt2_sq
  have hn := sqrt2_ne
  ext a b
  fin_cases a <;> fin_cases b <;> simp <;> field_simp
  · linear_combination (1 + I) * h
  · linear_combination (1 - I) * h

theorem exp_pi_four (s : ℝ) (h : s = Real.pi / 4) :
    Complex.exp (I * s) = (1 + I) / (Real.sqrt 2 : ℝ) := by
  have h2 := sqrt2_sq
  have hn := sqrt2_ne
  rw [exp_I_eq, h, Real.cos_pi_div_four, Real.sin_pi_div_four]
  push_cast
  field_simp
  linear_combination (1 + I) * h2

/-- **C41, documentation of T**: a global phase times diag(1, (1 + i)/√2). -/
theorem T_matrix (q : Q) (ψ : State Q) : act (T q) ψ =
    apply1 (Complex.exp (-I * (Real.pi / 8 : ℝ)) • !![1, 0; 0, (1 + I) / (Real.sqrt 2 : ℝ)]) q ψ := by
  rw [T_stored, act, ← exp_pi_four _ rfl]
  congr 1
  have e1 : -I * (rad 45 : ℂ) / 2 = -I * ((Real.pi / 8 : ℝ) : ℂ) := by
    rw [← half_45]; push_cast; ring
  have e2 : I * (rad 45 : ℂ) / 2 = -I * ((Real.pi / 8 : ℝ) : ℂ) + I * ((Real.pi / 4 : ℝ) : ℂ) := by
    have : rad 45 = Real.pi / 4 := by unfold rad; push_cast; ring
    rw [this]; push_cast; ring
  unfold rzMatrix
  rw [e1, e2, Complex.exp_add]
  ext a b
  fin_cases a <;> fin_cases b <;> simp

/-- **C41, documentation of TDagger**: a global phase times diag(1, (1 - i)/√2). -/
theorem TDagger_matrix (q : Q) (ψ : State Q) : act (TDagger q) ψ =
    apply1 (Complex.exp (I * (Real.pi / 8 : ℝ)) • !![1, 0; 0, (1 - I) / (Real.sqrt 2 : ℝ)]) q ψ := by
  have h2 := sqrt2_sq
  have hn := sqrt2_ne
  have e0 : (1 - I) / ((Real.sqrt 2 : ℝ) : ℂ) = Complex.exp (-I * ((Real.pi / 4 : ℝ) : ℂ)) := by
    rw [exp_neg_I_eq, Real.cos_pi_div_four, Real.sin_pi_div_four]
    push_cast
    field_simp
    linear_combination (I - 1) * h2
  rw [TDagger_stored, act, e0]
  congr 1
  have e : rad (-45) = -(Real.pi / 4) := by unfold rad; push_cast; ring
  have e1 : -I * (rad (-45) : ℂ) / 2 = I * ((Real.pi / 8 : ℝ) : ℂ) := by
    rw [e]; push_cast; ring
  have e2 : I * (rad (-45) : ℂ) / 2 = I * ((Real.pi / 8 : ℝ) : ℂ) + -I * ((Real.pi / 4 : ℝ) : ℂ) := by
    rw [e]; push_cast; ring
  unfold rzMatrix
  rw [e1, e2, Complex.exp_add]
  ext a b
  fin_cases a <;> fin_cases b <;> simp

/-! ### Composite gates -/

theorem y90_mul_z : y90Doc * !![-I, 0; 0, I] = hMatrix := by
  unfold y90Doc hMatrix
  ext a b
  fin_cases a <;> fin_cases b <;> simp [Matrix.mul_apply, Fin.sum_univ_two] <;> ring

/-- **C41, Hadamard.** Z followed by Y90 is the Hadamard gate, exactly, on any qubit of any register. -/
theorem hadamard_exact (q : Q) (ψ : State Q) : run (hadamardAsY90Z q) ψ = act (H q) ψ := by
  simp only [hadamardAsY90Z, run, Z_stored, Y90_stored, act, H]
  rw [apply1_mul, y90Matrix, zMatrix, y90_mul_z]

theorem apply1_h (q : Q) (ψ : State Q) (x : Q → Fin 2) : apply1 hMatrix q ψ x =
    -I / (Real.sqrt 2 : ℝ) * (ψ (Function.update x q 0) +
      (if x q = 0 then 1 else -1) * ψ (Function.update x q 1)) := by
  unfold apply1 hMatrix
  rw [Fin.sum_univ_two]
  rcases fin2_cases (x q) with h | h <;> rw [h] <;> simp <;> ring

theorem apply2_cnot {c t : Q} (h : c ≠ t) (ψ : State Q) (x : Q → Fin 2) :
    apply2 cnotMatrix c t ψ x =
      if x c = 0 then ψ x else ψ (Function.update x t (if x t = 0 then 1 else 0)) := by
  have hx : ∀ b, Function.update (Function.update x c (x c)) t b = Function.update x t b := by simp
  have hx' : Function.update x t (x t) = x := by simp
  unfold apply2
  simp only [Fin.sum_univ_two]
  rcases fin2_cases (x c) with h1 | h1 <;> rcases fin2_cases (x t) with h2 | h2 <;>
    rw [h1] at hx <;> rw [h2] at hx' <;> rw [h1, h2] <;>
    simp [cnotMatrix, pair, hx, hx']

/-- **C41, CNOT.** H, CZ and H on the target is the CNOT gate, up to the global phase -1. -/
theorem cnot_exact {c t : Q} (h : c ≠ t) (ψ : State Q) :
    run (cnotAsHCzH c t) ψ = (-1 : ℂ) • act (CNOT c t) ψ := by
  funext x
  simp only [cnotAsHCzH, run, act, H, CZ, CNOT, Pi.smul_apply, smul_eq_mul]
  rw [apply2_cnot h]
  simp only [apply1_h, apply2_cz h, Function.update_self, Function.update_idem, Function.update_of_ne h]
  have h2 := sqrt2_sq
  have hn := sqrt2_ne
  have hI : I * I = -1 := Complex.I_mul_I
  have e : -I / ((Real.sqrt 2 : ℝ) : ℂ) * (-I / (Real.sqrt 2 : ℝ)) = -1 / 2 := by
    field_simp; rw [h2]; linear_combination 2 * hI
  have hx' : Function.update x t (x t) = x := by simp
  rcases fin2_cases (x c) with h1 | h1 <;> rcases fin2_cases (x t) with h3 | h3 <;>
    rw [h3] at hx' <;> simp only [h1, h3, czSign] <;> simp [hx']
  · linear_combination (2 * ψ x) * e
  · linear_combination (2 * ψ x) * e
  · linear_combination (2 * ψ (Function.update x t 1)) * e
  · linear_combination (2 * ψ (Function.update x t 0)) * e

end Verif.Gates
