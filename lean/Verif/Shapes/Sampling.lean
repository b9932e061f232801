/-
Sampling of pulses, resizing and shifting of waveforms, areas.
-/
import Verif.Shapes.Soft
import Mathlib.Algebra.Order.Floor.Ring

namespace Verif.Shapes

open Complex (I)

set_option linter.unusedSimpArgs false
set_option linter.unusedVariables false

theorem pyRound_int (n : ℤ) : pyRound (n : ℝ) = n := by
  simp only [pyRound, Int.floor_intCast, sub_self]
  norm_num

/-- Rounding goes to a nearest integer. -/
theorem pyRound_near (x : ℝ) : |(pyRound x : ℝ) - x| ≤ 1 / 2 := by
  have h1 := Int.floor_le x
  have h2 := Int.lt_floor_add_one x
  simp only [pyRound]
  split
  · rw [abs_le]; constructor <;> linarith
  · split
    · push_cast; rw [abs_le]; constructor <;> linarith
    · have : x - ⌊x⌋ = 1 / 2 := by linarith
      split
      · rw [abs_le]; constructor <;> linarith
      · push_cast; rw [abs_le]; constructor <;> linarith

/-- A pulse whose duration is `n` sampling intervals is sampled at the `n` times `0, 1/fs, ...,
(n-1)/fs`, by both functions; no sample is at or after the end. -/
theorem sample_times (n : Nat) (fs : ℝ) (hf : 0 < fs) : ∃ ts,
    qbloxTimes none (some (n / fs)) fs = .ok ts ∧ arangeTimes (n / fs) fs = .ok ts ∧ ts.length = n ∧
    (∀ k, k < n → ts[k]? = some (k / fs)) ∧ ∀ x ∈ ts, 0 ≤ x ∧ x < n / fs := by
  refine ⟨(List.range n).map fun k : Nat => (k : ℝ) / fs, ?_, ?_, by simp, ?_, ?_⟩
  · have e : (n : ℝ) / fs * fs = ((n : ℤ) : ℝ) := by push_cast; field_simp
    simp only [qbloxTimes, if_neg hf.ne', e, pyRound_int, reduceCtorEq, if_false]
    simp
  · have e : (0 + (n : ℝ) / fs - 0) / (1 / fs) = ((n : ℤ) : ℝ) := by push_cast; field_simp; ring
    simp only [arangeTimes, if_neg hf.ne', e, Int.ceil_intCast, Int.toNat_natCast, Except.ok.injEq]
    refine List.map_congr_left fun k _ => ?_
    ring
  · intro k hk
    simp [List.getElem?_range hk]
  · intro x hx
    obtain ⟨k, hk, rfl⟩ := List.mem_map.mp hx
    constructor
    · positivity
    · have : (k : ℝ) < n := by exact_mod_cast List.mem_range.mp hk
      exact div_lt_div_of_pos_right this hf

/-- `get_waveform` samples at all multiples of the sampling interval before the end of the pulse, also if
the duration is not a multiple of it. -/
theorem arange_times (d fs : ℝ) (hf : 0 < fs) : ∃ n : Nat,
    arangeTimes d fs = .ok ((List.range n).map fun k : Nat => (k : ℝ) / fs) ∧
    ∀ k : Nat, k < n ↔ (k : ℝ) / fs < d := by
  refine ⟨⌈d * fs⌉.toNat, ?_, ?_⟩
  · have e : (0 + d - 0) / (1 / fs) = d * fs := by field_simp; ring
    simp only [arangeTimes, if_neg hf.ne', e, Except.ok.injEq]
    refine List.map_congr_left fun k _ => ?_
    ring
  · intro k
    rw [div_lt_iff₀ hf]
    constructor
    · intro h
      have : (k : ℤ) < ⌈d * fs⌉ := by omega
      have := Int.lt_ceil.mp this
      exact_mod_cast this
    · intro h
      have : (k : ℤ) < ⌈d * fs⌉ := Int.lt_ceil.mpr (by exact_mod_cast h)
      omega

/-- `generate_waveform_data` has the number of samples nearest to duration times sampling rate; the
argument `duration` comes first unless it is zero. -/
theorem qblox_times (arg : Option ℝ) (d fs : ℝ) (hf : 0 < fs) : ∃ n : Nat, ∃ d' : ℝ,
    qbloxTimes arg (some d) fs = .ok ((List.range n).map fun k : Nat => (k : ℝ) / fs) ∧
    (arg = none ∨ arg = some 0 → d' = d) ∧ (∀ a, arg = some a → a ≠ 0 → d' = a) ∧
    (0 ≤ d' → |(n : ℝ) - d' * fs| ≤ 1 / 2) := by
  have key : ∀ d' : ℝ, 0 ≤ d' → |((pyRound (d' * fs)).toNat : ℝ) - d' * fs| ≤ 1 / 2 := by
    intro d' hd
    have h := pyRound_near (d' * fs)
    have h0 : 0 ≤ d' * fs := by positivity
    have h1 : 0 ≤ pyRound (d' * fs) := by
      have h1 : (0 : ℝ) - 1 / 2 ≤ pyRound (d' * fs) := by
        have := (abs_le.mp h).1; linarith
      by_contra hneg
      have h2 : pyRound (d' * fs) ≤ -1 := by omega
      have : ((pyRound (d' * fs) : ℤ) : ℝ) ≤ -1 := by exact_mod_cast h2
      linarith
    have h2 : (((pyRound (d' * fs)).toNat : ℕ) : ℝ) = ((pyRound (d' * fs) : ℤ) : ℝ) := by
      have : (((pyRound (d' * fs)).toNat : ℕ) : ℤ) = pyRound (d' * fs) := Int.toNat_of_nonneg h1
      exact_mod_cast congrArg (Int.cast (R := ℝ)) this
    rw [h2]; exact h
  cases arg with
  | none =>
    refine ⟨(pyRound (d * fs)).toNat, d, by simp [qbloxTimes, hf.ne'], fun _ => rfl, by simp, key d⟩
  | some a =>
    by_cases ha : a = 0
    · subst ha
      refine ⟨(pyRound (d * fs)).toNat, d, by simp [qbloxTimes, hf.ne'], fun _ => rfl, by simp, key d⟩
    · refine ⟨(pyRound (a * fs)).toNat, a, by simp [qbloxTimes, hf.ne', ha], by simp [ha], by simp, key a⟩

/-- The sampled pulse of `n` sampling intervals, for a shape that is a function of time. -/
theorem sampled_pointwise (s : Shape) (n : Nat) (fs : ℝ) (hf : 0 < fs) (f : ℝ → ℂ)
    (h : ∀ t, execWaveform s (n / fs) t = .ok (t.map f)) :
    generateWaveformData s (n / fs) none fs = .ok ((List.range n).map fun k : Nat => f (k / fs)) ∧
    getWaveform s (n / fs) fs = .ok ((List.range n).map fun k : Nat => f (k / fs)) := by
  obtain ⟨ts, h1, h2, hl, h3, -⟩ := sample_times n fs hf
  have e : ts.map f = (List.range n).map fun k : Nat => f (k / fs) := by
    apply List.ext_getElem?
    intro k
    simp only [List.getElem?_map]
    by_cases hk : k < n
    · rw [h3 k hk, List.getElem?_range hk]; rfl
    · rw [List.getElem?_eq_none (by omega), List.getElem?_eq_none (by simp; omega)]; rfl
  simp only [generateWaveformData, getWaveform, h1, h2, bind, Except.bind, h, e, and_self]

/-- A square pulse played by the hardware: `n` samples, all with its amplitude. -/
theorem sampled_square (amp : ℂ) (n : Nat) (fs : ℝ) (hf : 0 < fs) :
    generateWaveformData (.square amp) (n / fs) none fs = .ok (List.replicate n amp) := by
  have := (sampled_pointwise (.square amp) n fs hf (fun _ => amp) (fun t => by
    simp only [execWaveform, square_eq, List.map_const'])).1
  simpa [List.map_const'] using this

/-- A ramp played by the hardware: sample `k` of `n` is `offset + k/n * amp`. -/
theorem sampled_ramp (amp : ℝ) (offset : Option ℝ) (n : Nat) (hn : 0 < n) (fs : ℝ) (hf : 0 < fs) :
    generateWaveformData (.ramp amp offset) (n / fs) none fs =
      .ok ((List.range n).map fun k : Nat => (((offset.getD 0) + k / n * amp : ℝ) : ℂ)) := by
  have hn' : (n : ℝ) ≠ 0 := by exact_mod_cast hn.ne'
  obtain ⟨f, h1, -, -, -, h2⟩ := ramp_shape amp (offset.getD 0) (n / fs) (div_ne_zero hn' hf.ne')
  have := (sampled_pointwise (.ramp amp offset) n fs hf (fun x => (f x : ℂ)) (fun t => by
    simp only [execWaveform, h1, Except.map, List.map_map, Function.comp_def])).1
  rw [this]
  congr 1
  refine List.map_congr_left fun k _ => ?_
  have h3 := h2 (k / fs)
  have h4 : (k : ℝ) / fs / (n / fs) = k / n := by field_simp
  rw [h4] at h3
  congr 1
  linarith

/-- A rising staircase of `n` steps of `m` samples played by the hardware: sample `k` has level `k / m`. -/
theorem sampled_staircase (a b : ℝ) (hab : a ≤ b) (n m : Nat) (hn : 2 ≤ n) (hm : 0 < m) (fs : ℝ) (hf : 0 < fs) :
    generateWaveformData (.staircase a b n) ((n * m : Nat) / fs) none fs =
      .ok ((List.range (n * m)).map fun k : Nat => ((a + (k / m : Nat) * ((b - a) / (n - 1)) : ℝ) : ℂ)) := by
  have hn' : (0 : ℝ) < n := by exact_mod_cast (by omega : 0 < n)
  have hm' : (0 : ℝ) < m := by exact_mod_cast hm
  have hd : (0 : ℝ) < ((n * m : Nat) : ℝ) / fs := by push_cast; positivity
  obtain ⟨f, h1, h2, -, -⟩ := staircase_shape a b (((n * m : Nat) : ℝ) / fs) n hd hn hab
  have := (sampled_pointwise (.staircase a b n) (n * m) fs hf (fun x => (f x : ℂ)) (fun t => by
    simp only [execWaveform, h1, Except.map, List.map_map, Function.comp_def])).1
  rw [this]
  congr 1
  refine List.map_congr_left fun k hk => ?_
  have hk' := List.mem_range.mp hk
  have hq : k / m < n := Nat.div_lt_of_lt_mul (by rw [Nat.mul_comm]; exact hk')
  congr 1
  have e : (((n * m : Nat) : ℝ) / fs / n) = m / fs := by push_cast; field_simp
  apply h2 (k / m) hq
  · rw [e]
    have : ((k / m : Nat) : ℝ) * m ≤ k := by exact_mod_cast Nat.div_mul_le_self k m
    rw [← mul_div_assoc]
    exact div_le_div_of_nonneg_right this hf.le
  · rw [e]
    have : (k : ℝ) < ((k / m : Nat) + 1) * m := by
      have := Nat.lt_div_mul_add (a := k) hm
      have h' : k < (k / m + 1) * m := by rw [Nat.add_mul, one_mul]; exact this
      exact_mod_cast h'
    rw [← mul_div_assoc]
    exact div_lt_div_of_pos_right this hf

/-! ### Areas -/

/-- The area of a square pulse is amplitude times duration; that of any other pulse of `n` sampling
intervals is the sum of its samples times the sampling interval. -/
theorem area_spec (s : Shape) (n : Nat) (hn : 0 < n) (fs : ℝ) (hf : 0 < fs) :
    (∀ amp, s = .square amp → areaPulse s (n / fs) fs = .ok (amp * (n / fs))) ∧
    ∀ ys, getWaveform s (n / fs) fs = .ok ys → ys.length = n →
      areaPulse s (n / fs) fs = .ok (ys.sum * (1 / fs)) := by
  have hn' : (n : ℂ) ≠ 0 := by exact_mod_cast hn.ne'
  have hf' : (fs : ℂ) ≠ 0 := by exact_mod_cast hf.ne'
  constructor
  · rintro amp rfl
    simp only [areaPulse, not_not.mpr hf, if_false]
    push_cast
    rfl
  · intro ys h hl
    have hf0 : ¬ ¬ (0 < fs) := not_not.mpr hf
    have gen : (do meanTimes (← getWaveform s (n / fs) fs) (n / fs)) = (.ok (ys.sum * (1 / fs)) : Except Err ℂ) := by
      rw [h]
      simp only [bind, Except.bind, meanTimes, hl, hn.ne', if_false, Except.ok.injEq]
      push_cast
      field_simp
    cases s with
    | square amp =>
      have h2 := (sampled_pointwise (.square amp) n fs hf (fun _ => amp) (fun t => by
        simp only [execWaveform, square_eq, List.map_const'])).2
      rw [h2] at h
      simp only [Except.ok.injEq] at h
      subst h
      simp only [areaPulse, hf0, if_false, Except.ok.injEq]
      simp
      field_simp
    | _ => simpa only [areaPulse, hf0, if_false] using gen

/-- The area of several pulses is the sum of their areas. -/
theorem areas_sum (ps : List (Shape × ℝ)) (fs : ℝ) (as : List ℂ)
    (h : List.Forall₂ (fun p a => areaPulse p.1 p.2 fs = .ok a) ps as) :
    areaPulses ps fs = .ok as.sum := by
  have : ∀ acc : ℂ, ps.foldlM (fun a (p : Shape × ℝ) => do return a + (← areaPulse p.1 p.2 fs)) acc =
      (.ok (acc + as.sum) : Except Err ℂ) := by
    induction h with
    | nil => intro acc; simp [pure, Except.pure]
    | cons h1 _ ih =>
      intro acc
      simp only [List.foldlM_cons, h1, bind, Except.bind, pure, Except.pure] at ih ⊢
      rw [ih]
      simp [add_assoc]
  simpa [areaPulses] using this 0

/-! ### Granularity -/

/-- A resized waveform begins with the waveform, continues with zeros, and has the smallest positive number
of samples that is a multiple of the granularity and not smaller than before. -/
theorem resize_spec (w : List ℂ) (g : Nat) (hg : 0 < g) : ∃ w' k,
    resizeWaveform w g = .ok w' ∧ w' = w ++ List.replicate k 0 ∧ g ∣ w'.length ∧ 0 < w'.length ∧
    (∀ m, 0 < m → g ∣ m → w.length ≤ m → w'.length ≤ m) ∧ getWaveformSize w.length g = .ok w'.length := by
  by_cases h0 : w.length = 0
  · refine ⟨List.replicate g 0, g, by simp [resizeWaveform, h0], ?_, by simp, by simpa, ?_, ?_⟩
    · rw [List.length_eq_zero_iff.mp h0]; simp
    · intro m hm h1 _
      simp only [List.length_replicate]
      exact Nat.le_of_dvd hm h1
    · simp [getWaveformSize, h0, hg.ne']
  · by_cases h1 : w.length % g = 0
    · refine ⟨w, 0, by simp [resizeWaveform, h0, h1, hg.ne'], by simp, Nat.dvd_of_mod_eq_zero h1,
        by omega, fun m _ _ h => h, ?_⟩
      have : g ≤ w.length := Nat.le_of_dvd (by omega) (Nat.dvd_of_mod_eq_zero h1)
      simp [getWaveformSize, h1, hg.ne', this]
    · have hlt : w.length < g * (w.length / g + 1) := by
        rw [Nat.mul_add, Nat.mul_one]
        have := Nat.div_add_mod w.length g
        have := Nat.mod_lt w.length hg
        omega
      refine ⟨w ++ List.replicate (g * (w.length / g + 1) - w.length) 0, _, ?_, rfl, ?_, ?_, ?_, ?_⟩
      · simp [resizeWaveform, h0, h1, hg.ne', closestNumberCeil, Nat.pos_of_ne_zero h0, hg, Except.map]
      · refine ⟨w.length / g + 1, ?_⟩
        simp only [List.length_append, List.length_replicate]
        omega
      · simp; omega
      · intro m hm h2 h3
        obtain ⟨c, rfl⟩ := h2
        simp only [List.length_append, List.length_replicate]
        have : w.length / g + 1 ≤ c := by
          by_contra hc
          have h4 : c ≤ w.length / g := by omega
          have h5 : g * c ≤ g * (w.length / g) := Nat.mul_le_mul_left g h4
          have h6 := Nat.mul_div_le w.length g
          have h7 : g * c = w.length := by omega
          apply h1
          rw [← h7]; simp
        have := Nat.mul_le_mul_left g this
        omega
      · have e : g ≤ g * (w.length / g + 1) := Nat.le_mul_of_pos_right g (Nat.succ_pos _)
        simp only [getWaveformSize, hg.ne', if_false, h1, ne_eq, not_false_iff, if_true, closestNumberCeil,
          Nat.pos_of_ne_zero h0, hg, not_true, Except.map, Except.ok.injEq, gt_iff_lt, List.length_append,
          List.length_replicate]
        omega

/-- A shifted waveform that is started at the returned sequencer count plays the waveform from the sample
nearest to the start time: `count * resolution` plus the zeros in front is the rounded number of samples;
fewer than `resolution` zeros are added. -/
theorem shift_spec (w : List ℂ) (start fs : ℝ) (r : Nat) (hr : 0 < r) : ∃ (count : ℤ) (k : Nat),
    shiftWaveform w start fs r = .ok (count, List.replicate k 0 ++ w) ∧ k < r ∧
    |((count * r + k : ℤ) : ℝ) - start * fs| ≤ 1 / 2 := by
  have hr' : (0 : ℤ) < r := by exact_mod_cast hr
  have h1 := Int.emod_nonneg (pyRound (start * fs)) hr'.ne'
  have h2 := Int.emod_lt_of_pos (pyRound (start * fs)) hr'
  have h3 := Int.mul_ediv_add_emod (pyRound (start * fs)) r
  refine ⟨pyRound (start * fs) / r, (pyRound (start * fs) % r).toNat, ?_, by omega, ?_⟩
  · simp only [shiftWaveform, hr.ne', if_false, Except.ok.injEq, Prod.mk.injEq, true_and]
    split
    · rename_i h; simp [h]
    · rfl
  · have e : pyRound (start * fs) / (r : ℤ) * r + ((pyRound (start * fs) % (r : ℤ)).toNat : ℤ) =
        pyRound (start * fs) := by
      rw [Int.toNat_of_nonneg h1, mul_comm]; exact h3
    rw [e]
    exact pyRound_near _

/-- Modulation multiplies sample `k` by `exp(2 pi i f (t + t0))`. -/
theorem modulate_spec (t : List ℝ) (e : List ℂ) (f t0 : ℝ) (h : e.length = t.length) :
    (modulateWaveform t e f t0).length = t.length ∧
    ∀ (k : Nat) x z, t[k]? = some x → e[k]? = some z →
      (modulateWaveform t e f t0)[k]? =
        some (z * Complex.exp ((2 * Real.pi * f * (x + t0) : ℝ) * I)) := by
  constructor
  · simp [modulateWaveform, h]
  · intro k x z hx hz
    simp only [modulateWaveform, List.getElem?_zipWith, hx, hz]
    congr 3
    push_cast
    ring

end Verif.Shapes
