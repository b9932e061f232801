/-
Concrete pulses that meet the hypotheses of the theorems about shapes.
-/
import Verif.Shapes.Props
import Verif.Shapes.Drag
import Verif.Shapes.Soft
import Verif.Shapes.NetZero
import Verif.Shapes.Interp
import Verif.Shapes.Sampling
import Verif.Shapes.Mixer

namespace Verif.Shapes

open Complex (I)

set_option linter.unusedSimpArgs false

/-- Three steps from 0 to 1 over 3 seconds: the value in the second step is one half. -/
theorem staircase_example : ∃ f : ℝ → ℝ, staircase [0, 1, 2] 0 1 3 (some 3) = .ok ([0, 1, 2].map f) ∧
    f 0 = 0 ∧ f 1 = 1 / 2 ∧ f 2 = 1 := by
  obtain ⟨f, h1, h2, -⟩ := staircase_shape 0 1 3 3 (by norm_num) (by norm_num) (by norm_num)
  refine ⟨f, h1 _, ?_, ?_, ?_⟩
  · rw [h2 0 (by norm_num) 0 (by norm_num) (by norm_num)]; norm_num
  · rw [h2 1 (by norm_num) 1 (by norm_num) (by norm_num)]; norm_num
  · rw [h2 2 (by norm_num) 2 (by norm_num) (by norm_num)]; norm_num

/-- A `drag` pulse of five samples is accepted, and its ends are opposite. -/
theorem drag_example : ∃ ys, drag [0, 1, 2, 3, 4] 1 1 4 (some 2) none 90 .average = .ok ys ∧ ys.length = 5 ∧
    ∃ a b, ys.head? = some a ∧ ys.getLast? = some b ∧ a + b = 0 := by
  have h := (drag_width 0 [1, 2, 3, 4] 1 1 4 90 .average).2.2 2 two_ne_zero
  have hs : (4 : ℝ) / (2 * 2) ≠ 0 := by norm_num
  obtain ⟨g, d, -, -, h2⟩ := drag_shape 1 1 4 (4 / (2 * 2)) 90 hs 0 [1, 2, 3, 4] .average
  rw [h]
  refine ⟨_, h2, ?_⟩
  obtain ⟨e1, -, -, e2⟩ := drag_ends hs h2
  exact ⟨e1, e2 rfl⟩

/-- A soft square pulse of eight samples has its full amplitude in the middle. -/
theorem softSquare_example (amp : ℂ) : ∃ ys, softSquare [0, 1, 2, 3, 4, 5, 6, 7] amp = .ok ys ∧ ys[3]? = some amp ∧
    ys[4]? = some amp := by
  obtain ⟨r, h1, -, -, h2, -⟩ := softSquare_shape [0, 1, 2, 3, 4, 5, 6, 7] amp (by simp)
  refine ⟨_, h1, ?_, ?_⟩
  · have := h2 3 (by simp) (by simp)
    simp [List.range_succ, this]
  · have := h2 4 (by simp) (by simp)
    simp [List.range_succ, this]

/-- A net zero pulse of two arms with two samples, one sample between and one to correct. -/
theorem netZero_example : ∃ ys, suddenNetZero [0, 1, 2, 3, 4, 5, 6] 1 (1 / 2) (1 / 3) 4 1 1 = .ok ys ∧
    ys.sum = 0 ∧ ys[0]? = some 1 ∧ ys[1]? = some (1 / 2) ∧ ys[2]? = some 0 ∧ ys[4]? = some (-(1 / 3) : ℝ) := by
  obtain ⟨ys, v, h1, -, h2, h3, h4, h5, -, h6, -⟩ := suddenNetZero_shape 0 1 [2, 3, 4, 5, 6] 1 (1 / 2) (1 / 3) 4 1 1 2 1 1
    (by norm_num) (by norm_num) (by norm_num) (by norm_num) (by norm_num) (by norm_num) (by norm_num) (by norm_num)
    (by norm_num) (by simp)
  refine ⟨ys, h1, h2, h3 0 (by norm_num), ?_, h5 2 (by norm_num) (by norm_num), ?_⟩
  · refine Eq.trans h4 ?_; norm_num
  · rw [h6 4 (by norm_num) (by norm_num)]; norm_num

/-- Interpolation at a time between two samples. -/
theorem interp_example : interp1d [0, 1, 3] [0, 2, 6] 2 = 4 := by
  have h := interp_between (xs := [0, 1, 3]) (ys := [0, 2, 6]) (by simp) rfl (i := 1) (by simp) (x := 2)
    (by simp) (by simp; norm_num)
  rw [h]; norm_num

/-- The mixer corrections of a waveform with an imbalance and a phase error. -/
theorem mixer_example : ∃ ys, mixerCorrections [1, I] 4 60 = .ok ys ∧ ys.map Complex.im = [0, 1 / 2] := by
  have hcos : Real.cos (60 / 180 * Real.pi) = 1 / 2 := by
    rw [show (60 : ℝ) / 180 * Real.pi = Real.pi / 3 by ring]; exact Real.cos_pi_div_three
  obtain ⟨ys, c, -, h1, -, h2, -⟩ := mixer_spec [1, I] (by simp) 4 60 (by norm_num) (by rw [hcos]; norm_num)
  refine ⟨ys, h1, ?_⟩
  rw [h2, hcos]
  have : Real.sqrt 4 = 2 := by
    rw [show (4 : ℝ) = 2 ^ 2 by norm_num]; exact Real.sqrt_sq (by norm_num)
  simp [this]

/-- A waveform of five samples is extended to eight for a granularity of four. -/
theorem resize_example : resizeWaveform [1, 1, 1, 1, 1] 4 = .ok [1, 1, 1, 1, 1, 0, 0, 0] := by
  simp [resizeWaveform, closestNumberCeil, Except.map, List.replicate_succ]

end Verif.Shapes
