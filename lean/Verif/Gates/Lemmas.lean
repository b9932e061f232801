import Verif.Gates.Spec
import Mathlib.Tactic.Linarith
import Mathlib.Tactic.Ring
import Mathlib.Tactic.FinCases
import Mathlib.Tactic.FieldSimp
import Mathlib.Algebra.BigOperators.Fin

set_option linter.unusedSimpArgs false
set_option linter.unusedVariables false

namespace Verif.Gates

open Complex (I)

/-- The diagonal entries of `rzMatrix`. -/
noncomputable def zfac (b : Fin 2) (α : Rat) : ℂ :=
  if b = 0 then Complex.exp (-I * rad α / 2) else Complex.exp (I * rad α / 2)

theorem rad_add (a b : Rat) : rad (a + b) = rad a + rad b := by
  unfold rad; push_cast; ring

theorem rad_zero : rad 0 = 0 := by simp [rad]

theorem rad_neg (a : Rat) : rad (-a) = -rad a := by
  unfold rad; push_cast; ring

theorem rad_sub (a b : Rat) : rad (a - b) = rad a - rad b := by
  unfold rad; push_cast; ring

theorem zfac_add (b : Fin 2) (α β : Rat) : zfac b (α + β) = zfac b α * zfac b β := by
  unfold zfac
  split
  · rw [← Complex.exp_add, rad_add]; congr 1; push_cast; ring
  · rw [← Complex.exp_add, rad_add]; congr 1; push_cast; ring

theorem zfac_zero (b : Fin 2) : zfac b 0 = 1 := by
  unfold zfac; simp [rad_zero]

theorem zfac_ne (b : Fin 2) (α : Rat) : zfac b α ≠ 0 := by
  unfold zfac; split <;> exact Complex.exp_ne_zero _

theorem normSq_exp_I (x : ℝ) : Complex.normSq (Complex.exp (I * x)) = 1 := by
  rw [Complex.normSq_eq_norm_sq, mul_comm, Complex.norm_exp_ofReal_mul_I]; norm_num

theorem normSq_zfac (b : Fin 2) (α : Rat) : Complex.normSq (zfac b α) = 1 := by
  unfold zfac
  split
  · have e : -I * (rad α : ℂ) / 2 = I * ((-(rad α) / 2 : ℝ) : ℂ) := by push_cast; ring
    rw [e, normSq_exp_I]
  · have e : I * (rad α : ℂ) / 2 = I * ((rad α / 2 : ℝ) : ℂ) := by push_cast; ring
    rw [e, normSq_exp_I]

variable {Q : Type} [DecidableEq Q]

theorem apply1_rz (α : Rat) (q : Q) (ψ : State Q) (x : Q → Fin 2) :
    apply1 (rzMatrix α) q ψ x = zfac (x q) α * ψ x := by
  have h : Function.update x q (x q) = x := Function.update_eq_self q x
  have key : ∀ b : Fin 2, b = x q → rzMatrix α (x q) b * ψ (Function.update x q b) = zfac (x q) α * ψ x := by
    intro b hb
    subst hb
    rw [h]
    congr 1
    unfold zfac rzMatrix
    generalize x q = a
    fin_cases a <;> simp
  unfold apply1
  rw [Fin.sum_univ_two]
  have h2 : x q = 0 ∨ x q = 1 := by
    generalize x q = a
    fin_cases a <;> simp
  rcases h2 with h2 | h2
  · rw [key 0 h2.symm, h2]; simp [rzMatrix]
  · rw [key 1 h2.symm, h2]; simp [rzMatrix]

theorem apply1_mul (M N : Matrix (Fin 2) (Fin 2) ℂ) (q : Q) (ψ : State Q) :
    apply1 M q (apply1 N q ψ) = apply1 (M * N) q ψ := by
  funext x
  simp only [apply1, Fin.sum_univ_two, Matrix.mul_apply, Function.update_idem, Function.update_self]
  ring

theorem apply1_smul (M : Matrix (Fin 2) (Fin 2) ℂ) (q : Q) (k : ℂ) (ψ : State Q) :
    apply1 M q (k • ψ) = k • apply1 M q ψ := by
  funext x
  simp only [apply1, Fin.sum_univ_two, Pi.smul_apply, smul_eq_mul]
  ring

theorem apply2_smul (M : Matrix (Fin 4) (Fin 4) ℂ) (c t : Q) (k : ℂ) (ψ : State Q) :
    apply2 M c t (k • ψ) = k • apply2 M c t ψ := by
  funext x
  simp only [apply2, Fin.sum_univ_two, Pi.smul_apply, smul_eq_mul]
  ring

theorem act_smul (g : Gate Q) (k : ℂ) (ψ : State Q) : act g (k • ψ) = k • act g ψ := by
  cases g <;> simp only [act, apply1_smul, apply2_smul]

theorem run_smul (gs : List (Gate Q)) (k : ℂ) : ∀ ψ : State Q, run gs (k • ψ) = k • run gs ψ := by
  induction gs with
  | nil => intro ψ; rfl
  | cons g gs ih => intro ψ; simp only [run, act_smul, ih]

theorem run_append (a b : List (Gate Q)) : ∀ ψ : State Q, run (a ++ b) ψ = run b (run a ψ) := by
  induction a with
  | nil => intro ψ; rfl
  | cons g gs ih => intro ψ; simp only [List.cons_append, run, ih]

theorem playAll_append (d : Device Q) (s : Rat) (a b : List (Pulse Q)) : ∀ w : Hw Q,
    playAll d s (a ++ b) w = playAll d s b (playAll d s a w) := by
  induction a with
  | nil => intro w; rfl
  | cons g gs ih => intro w; simp only [List.cons_append, playAll, ih]

/-- The sign of a basis state in a CZ gate. -/
noncomputable def czSign (a b : Fin 2) : ℂ := if a = 1 ∧ b = 1 then -1 else 1

theorem fin2_cases (a : Fin 2) : a = 0 ∨ a = 1 := by fin_cases a <;> simp

theorem apply2_cz {c t : Q} (h : c ≠ t) (ψ : State Q) (x : Q → Fin 2) :
    apply2 czMatrix c t ψ x = czSign (x c) (x t) * ψ x := by
  have hx : Function.update (Function.update x c (x c)) t (x t) = x := by simp
  unfold apply2
  simp only [Fin.sum_univ_two]
  rcases fin2_cases (x c) with h1 | h1 <;> rcases fin2_cases (x t) with h2 | h2 <;>
    rw [h1, h2] at hx <;> rw [h1, h2] <;>
    simp [czMatrix, pair, czSign, hx]

/-- The virtual rotation. -/
noncomputable def frameFac [Fintype Q] (clk : Q → Rat) (x : Q → Fin 2) : ℂ := ∏ q, zfac (x q) (clk q)

noncomputable def frame [Fintype Q] (clk : Q → Rat) (ψ : State Q) : State Q :=
  fun x => frameFac clk x * ψ x

variable [Fintype Q]

theorem frameFac_update (clk : Q → Rat) (x : Q → Fin 2) (q : Q) (b : Fin 2) :
    frameFac clk (Function.update x q b) * zfac (x q) (clk q) = frameFac clk x * zfac b (clk q) := by
  unfold frameFac
  rw [← Finset.mul_prod_erase Finset.univ _ (Finset.mem_univ q),
    ← Finset.mul_prod_erase Finset.univ (fun q => zfac (x q) (clk q)) (Finset.mem_univ q)]
  have : ∏ q' ∈ Finset.univ.erase q, zfac (Function.update x q b q') (clk q') =
      ∏ q' ∈ Finset.univ.erase q, zfac (x q') (clk q') := by
    apply Finset.prod_congr rfl
    intro y hy
    rw [Function.update_of_ne (Finset.ne_of_mem_erase hy)]
  rw [this, Function.update_self]
  ring

theorem frameFac_shift (clk : Q → Rat) (x : Q → Fin 2) (q : Q) (α : Rat) :
    frameFac (Function.update clk q (clk q + α)) x = frameFac clk x * zfac (x q) α := by
  unfold frameFac
  rw [← Finset.mul_prod_erase Finset.univ _ (Finset.mem_univ q),
    ← Finset.mul_prod_erase Finset.univ (fun q => zfac (x q) (clk q)) (Finset.mem_univ q)]
  have : ∏ q' ∈ Finset.univ.erase q, zfac (x q') (Function.update clk q (clk q + α) q') =
      ∏ q' ∈ Finset.univ.erase q, zfac (x q') (clk q') := by
    apply Finset.prod_congr rfl
    intro y hy
    rw [Function.update_of_ne (Finset.ne_of_mem_erase hy)]
  rw [this, Function.update_self, zfac_add]
  ring

theorem normSq_frameFac (clk : Q → Rat) (x : Q → Fin 2) : Complex.normSq (frameFac clk x) = 1 := by
  unfold frameFac
  rw [map_prod]
  exact Finset.prod_eq_one (fun q _ => normSq_zfac _ _)

theorem frame_zero (ψ : State Q) : frame (fun _ => 0) ψ = ψ := by
  funext x
  simp [frame, frameFac, zfac_zero]

omit [DecidableEq Q] [Fintype Q] in
theorem rxy_zfac (θ φ α : Rat) (a b : Fin 2) :
    rxyMatrix θ φ a b * zfac b α = zfac a α * rxyMatrix θ (φ - α) a b := by
  have e1 : ∀ x y : ℂ, x * (-I) = y * (-I) → -I * x = -I * y := by intro x y h; rw [mul_comm, h, mul_comm]
  rcases fin2_cases a with rfl | rfl <;> rcases fin2_cases b with rfl | rfl
  · simp [rxyMatrix, zfac]; ring
  · simp only [rxyMatrix, zfac, Matrix.of_apply, Matrix.cons_val_zero, Matrix.cons_val_one,
      if_true, if_false, one_ne_zero, rad_sub]
    have : Complex.exp (-I * rad φ) * Complex.exp (I * rad α / 2) =
        Complex.exp (-I * rad α / 2) * Complex.exp (-I * ((rad φ - rad α : ℝ) : ℂ)) := by
      rw [← Complex.exp_add, ← Complex.exp_add]; congr 1; push_cast; ring
    linear_combination (-I * Complex.sin (rad θ / 2)) * this
  · simp only [rxyMatrix, zfac, Matrix.of_apply, Matrix.cons_val_zero, Matrix.cons_val_one,
      if_true, if_false, one_ne_zero, rad_sub]
    have : Complex.exp (I * rad φ) * Complex.exp (-I * rad α / 2) =
        Complex.exp (I * rad α / 2) * Complex.exp (I * ((rad φ - rad α : ℝ) : ℂ)) := by
      rw [← Complex.exp_add, ← Complex.exp_add]; congr 1; push_cast; ring
    linear_combination (-I * Complex.sin (rad θ / 2)) * this
  · simp [rxyMatrix, zfac]; ring

theorem rxy_frame (θ φ : Rat) (q : Q) (clk : Q → Rat) (ψ : State Q) :
    apply1 (rxyMatrix θ φ) q (frame clk ψ) = frame clk (apply1 (rxyMatrix θ (φ - clk q)) q ψ) := by
  funext x
  simp only [apply1, frame, Finset.mul_sum]
  apply Finset.sum_congr rfl
  intro b _
  have h1 := frameFac_update clk x q b
  have h2 := rxy_zfac θ φ (clk q) (x q) b
  have hne := zfac_ne (x q) (clk q)
  apply mul_right_cancel₀ hne
  linear_combination (rxyMatrix θ φ (x q) b * ψ (Function.update x q b)) * h1 +
    (frameFac clk x * ψ (Function.update x q b)) * h2

theorem rz_frame (α : Rat) (q : Q) (clk : Q → Rat) (ψ : State Q) :
    apply1 (rzMatrix α) q (frame clk ψ) = frame (Function.update clk q (clk q + α)) ψ := by
  funext x
  rw [apply1_rz]
  simp only [frame, frameFac_shift]
  ring

theorem cz_frame {c t : Q} (h : c ≠ t) (clk : Q → Rat) (ψ : State Q) :
    apply2 czMatrix c t (frame clk ψ) = frame clk (apply2 czMatrix c t ψ) := by
  funext x
  rw [apply2_cz h]
  simp only [frame]
  rw [apply2_cz h]
  ring

omit [Fintype Q] in
theorem cz_symm {c t : Q} (h : c ≠ t) (ψ : State Q) : apply2 czMatrix c t ψ = apply2 czMatrix t c ψ := by
  funext x
  rw [apply2_cz h, apply2_cz h.symm]
  congr 1
  unfold czSign
  simp only [and_comm]

end Verif.Gates
