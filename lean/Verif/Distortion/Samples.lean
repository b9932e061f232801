/-
What the hardware plays for a corrected pulse, and what is lost.
-/
import Verif.Distortion.Props
import Mathlib.Tactic.LinearCombination

namespace Verif.Distortion

open Verif.Shapes (Err Shape)

set_option linter.unusedSimpArgs false
set_option linter.unusedVariables false

variable {A K X : Type}

theorem linspace_increasing (d : ℝ) (hd : 0 < d) (n : Nat) (hn : 2 ≤ n) : (linspace d n).Pairwise (· < ·) := by
  rw [List.pairwise_iff_getElem]
  intro i j hi hj hij
  rw [linspace_length] at hi hj
  have h1 := linspace_get d n i hi hn
  have h2 := linspace_get d n j hj hn
  rw [List.getElem?_eq_getElem (by rw [linspace_length]; exact hi)] at h1
  rw [List.getElem?_eq_getElem (by rw [linspace_length]; exact hj)] at h2
  rw [Option.some.inj h1, Option.some.inj h2]
  have : (2 : ℝ) ≤ n := by exact_mod_cast hn
  have hij' : (i : ℝ) < j := by exact_mod_cast hij
  have : (0 : ℝ) < n - 1 := by linarith
  exact mul_lt_mul_of_pos_right (div_lt_div_of_pos_right hij' this) hd

/-- **What is played.**  `n` samples `zs` spread over a pulse of `n` sample periods and played at the same sampling
rate: the first sample is right; sample `k` is the mixture of `zs[k]` and `zs[k-1]` with the weights `1 - k/n` and `k/n`,
so towards the end of the pulse it is nearly one sample late. -/
theorem played_samples (zs : List ℝ) (hn : 2 ≤ zs.length) (fs : ℝ) (hf : 0 < fs) : ∃ out,
    Shapes.generateWaveformData
      (.interpolated (zs.map fun x : ℝ => (x : ℂ)) (linspace (zs.length / fs) zs.length)) (zs.length / fs) none fs =
      .ok out ∧
    out.length = zs.length ∧
    (∀ z : ℝ, zs[0]? = some z → out[0]? = some (z : ℂ)) ∧
    ∀ (k : Nat) (y z : ℝ), zs[k]? = some y → zs[k + 1]? = some z →
      out[k + 1]? = some (((1 - (k + 1) / zs.length) * z + (k + 1) / zs.length * y : ℝ) : ℂ) := by
  have hn2 : (2 : ℝ) ≤ zs.length := by exact_mod_cast hn
  have hn1 : (0 : ℝ) < zs.length - 1 := by linarith
  have hn0 : (0 : ℝ) < zs.length := by linarith
  have hd : (0 : ℝ) < zs.length / fs := by positivity
  obtain ⟨f, hf1, hf2, hf3⟩ := Shapes.interpolated_shape (zs.map fun x : ℝ => (x : ℂ)) (linspace (zs.length / fs) zs.length)
    (linspace_increasing _ hd _ hn) (by simp [linspace_length]) (by rw [linspace_length]; omega)
  obtain ⟨ts, h1, h2, hl, h3, h4⟩ := Shapes.sample_times zs.length fs hf
  have hne : ts ≠ [] := by rintro rfl; simp at hl; omega
  have hget : ∀ k (hk : k < zs.length), (linspace (zs.length / fs) zs.length)[k]'(by rw [linspace_length]; exact hk) =
      k / (zs.length - 1) * (zs.length / fs) := by
    intro k hk
    have := linspace_get (zs.length / fs) zs.length k hk hn
    rw [List.getElem?_eq_getElem (by rw [linspace_length]; exact hk)] at this
    exact Option.some.inj this
  have hlast : zs.length - 1 < zs.length := by omega
  have hlastv : ((zs.length - 1 : Nat) : ℝ) = zs.length - 1 := by
    rw [Nat.cast_sub (by omega)]; simp
  have hok : Shapes.interpolated ts (zs.map fun x : ℝ => (x : ℂ)) (linspace (zs.length / fs) zs.length) = .ok (ts.map f) := by
    rw [hf3 ts hne, if_neg]
    simp only [linspace_length]
    rw [hget 0 (by omega), hget 1 (by omega), hget _ hlast, hlastv]
    have a1 := (h4 _ (List.head_mem hne)).1
    have a2 := (h4 _ (List.getLast_mem hne)).2
    have a3 : (0 : ℝ) ≤ 1 / (zs.length - 1) * (zs.length / fs) := by positivity
    rw [div_self hn1.ne']
    push_cast
    push Not
    constructor
    · simp only [zero_div, zero_mul]; linarith
    · simp only [zero_div, zero_mul]; linarith
  refine ⟨ts.map f, ?_, by simp [hl], ?_, ?_⟩
  · simp only [Shapes.generateWaveformData, h1, bind, Except.bind, Shapes.execWaveform, hok]
  · intro z hz
    have := h3 0 (by omega)
    simp only [List.getElem?_map, this, Option.map_some]
    have e := hf2 0 (by rw [linspace_length]; omega)
    rw [hget 0 (by omega)] at e
    simp only [Nat.cast_zero, zero_div, zero_mul] at e ⊢
    rw [e]
    simp only [List.getElem_map]
    rw [List.getElem?_eq_getElem (by omega)] at hz
    rw [Option.some.inj hz]
  · intro k y z hy hz
    have hk1 : k + 1 < zs.length := by
      rcases Nat.lt_or_ge (k + 1) zs.length with h | h
      · exact h
      · rw [List.getElem?_eq_none h] at hz; simp at hz
    have hk1r : (k : ℝ) + 1 < zs.length := by exact_mod_cast hk1
    have hk0 : (0 : ℝ) ≤ k := by positivity
    simp only [List.getElem?_map, h3 (k + 1) hk1, Option.map_some]
    have e := hf1 k (by rw [linspace_length]; omega) ((k + 1 : Nat) / fs) (by
      rw [hget k (by omega)]
      push_cast
      rw [div_mul_div_comm, div_le_div_iff₀ (by positivity) hf]
      nlinarith [mul_nonneg hf.le (sub_nonneg.mpr hk1r.le)]) (by
      rw [hget (k + 1) hk1]
      push_cast
      rw [div_mul_div_comm, div_le_div_iff₀ hf (by positivity)]
      nlinarith)
    rw [e, hget k (by omega), hget (k + 1) hk1]
    rw [List.getElem?_eq_getElem (by omega)] at hy hz
    simp only [List.getElem_map, Option.some.inj hy, Option.some.inj hz]
    have w : (((k + 1 : Nat) : ℝ) / fs - k / (zs.length - 1) * (zs.length / fs)) /
        (((k + 1 : Nat) : ℝ) / (zs.length - 1) * (zs.length / fs) - k / (zs.length - 1) * (zs.length / fs)) =
        1 - (k + 1) / zs.length := by
      push_cast
      field_simp
      ring
    rw [w]
    push_cast
    congr 1
    ring

/-- The corrected pulse as it is played: with a filter that keeps the number of samples, for a pulse of `n ≥ 2` sample
periods of the correction's sampling rate. -/
theorem corrected_played (p p' : Pulse X) (c : Software) (s : Shape) (n : Nat) (hn : 2 ≤ n) (hf : 0 < c.samplingRate)
    (hd : p.duration = n / c.samplingRate) (hs : p.shape = some s) (data : List ℂ) (ys : List ℝ)
    (hdata : Shapes.getWaveform s (n / c.samplingRate) c.samplingRate = .ok data) (hy : c.filter data = .ok ys)
    (hl : ys.length = n) (hc : correctPulse p c = .ok p') : ∃ zs s' out,
    List.Forall₂ (Spec.Limited c.clipping) ys zs ∧
    p'.shape = some s' ∧ Shapes.generateWaveformData s' p'.duration none c.samplingRate = .ok out ∧ out.length = n ∧
    (∀ z : ℝ, zs[0]? = some z → out[0]? = some (z : ℂ)) ∧
    ∀ (k : Nat) (y z : ℝ), zs[k]? = some y → zs[k + 1]? = some z →
      out[k + 1]? = some (((1 - (k + 1) / n) * z + (k + 1) / n * y : ℝ) : ℂ) := by
  have hspec := (correctPulse_spec p c).1 p' hc
  rw [correctPulse_eq, hs] at hc
  simp only [hd, hdata, hy] at hc
  have hlim := clipped_limited c ys
  have hzl : (clipped c ys).length = n := by rw [← hlim.length_eq, hl]
  have hdb : doubled (clipped c ys) = clipped c ys := by
    rw [doubled, if_neg]; omega
  rw [hdb] at hc
  have h2 : 2 ≤ (clipped c ys).length := by omega
  rw [linspace_last _ _ h2, linspace_head _ _ h2] at hc
  simp only [Except.ok.injEq, sub_zero] at hc
  obtain ⟨out, h3, h4, h5, h6⟩ := played_samples (clipped c ys) h2 c.samplingRate hf
  rw [hzl] at h3 h4 h6
  refine ⟨clipped c ys, _, out, hlim, by rw [← hc], ?_, h4, h5, h6⟩
  rw [← hc]
  simp only [hzl]
  exact h3

/-- A corrected pulse whose samples are all the same is played without change. -/
theorem constant_played (x : ℝ) (n : Nat) (hn : 2 ≤ n) (fs : ℝ) (hf : 0 < fs) :
    Shapes.generateWaveformData (.interpolated ((List.replicate n x).map fun x : ℝ => (x : ℂ)) (linspace (n / fs) n))
      (n / fs) none fs = .ok (List.replicate n (x : ℂ)) := by
  obtain ⟨out, h1, h2, h3, h4⟩ := played_samples (List.replicate n x) (by simpa) fs hf
  simp only [List.length_replicate] at h1 h2 h4
  rw [h1]
  congr 1
  apply List.ext_getElem?
  intro k
  have hr : ∀ j, j < n → (List.replicate n x)[j]? = some x := by
    intro j hj; rw [List.getElem?_replicate, if_pos hj]
  rcases Nat.lt_or_ge k n with hk | hk
  · cases k with
    | zero =>
      rw [h3 x (hr 0 hk), List.getElem?_replicate, if_pos hk]
    | succ k =>
      rw [h4 k x x (hr k (by omega)) (hr _ hk)]
      rw [List.getElem?_replicate, if_pos hk]
      congr 2
      ring
  · rw [List.getElem?_eq_none (by omega), List.getElem?_eq_none (by simpa using hk)]

/-- All samples that are played are within the clipping values, not only the corrected ones. -/
theorem clipping_holds (p p' : Pulse X) (c : Software) (s : Shape) (n : Nat) (hn : 2 ≤ n) (hf : 0 < c.samplingRate)
    (hd : p.duration = n / c.samplingRate) (hs : p.shape = some s) (data : List ℂ) (ys : List ℝ)
    (hdata : Shapes.getWaveform s (n / c.samplingRate) c.samplingRate = .ok data) (hy : c.filter data = .ok ys)
    (hl : ys.length = n) (hc : correctPulse p c = .ok p') (lo hi : ℝ) (hlh : lo ≤ hi)
    (hclip : c.clipping = some (lo, hi)) : ∃ s' out,
    p'.shape = some s' ∧ Shapes.generateWaveformData s' p'.duration none c.samplingRate = .ok out ∧
    ∀ w ∈ out, ∃ r : ℝ, w = r ∧ lo ≤ r ∧ r ≤ hi := by
  obtain ⟨zs, s', out, h1, h2, h3, h4, h5, h6⟩ := corrected_played p p' c s n hn hf hd hs data ys hdata hy hl hc
  refine ⟨s', out, h2, h3, ?_⟩
  have hb : ∀ (k : Nat) z, zs[k]? = some z → lo ≤ z ∧ z ≤ hi := by
    have gen : ∀ (ys zs : List ℝ), List.Forall₂ (Spec.Limited c.clipping) ys zs → ∀ z ∈ zs, lo ≤ z ∧ z ≤ hi := by
      intro ys zs h
      induction h with
      | nil => simp
      | cons hh _ ih =>
        rename_i l1 l2 l3 l4 l5
        intro z hz
        rcases List.mem_cons.mp hz with rfl | hz
        · rw [hclip] at hh
          simp only [Spec.Limited] at hh
          refine ⟨?_, hh.2.2.2⟩
          rcases lt_or_ge l1 lo with h' | h'
          · rw [hh.2.2.1 h' hlh]
          · rcases lt_or_ge hi l1 with h'' | h''
            · rw [hh.2.1 h'']; exact hlh
            · rw [hh.1 h' h'']; exact h'
        · exact ih z hz
    intro k z hz
    exact gen _ _ h1 z (List.mem_of_getElem? hz)
  have hzl : zs.length = n := by rw [← h1.length_eq, hl]
  intro w hw
  obtain ⟨k, hk, rfl⟩ := List.getElem_of_mem hw
  rw [h4] at hk
  have hn0 : (0 : ℝ) < n := by exact_mod_cast (by omega : 0 < n)
  cases k with
  | zero =>
    have e := h5 zs[0] (List.getElem?_eq_getElem (by omega))
    rw [List.getElem?_eq_getElem (by omega)] at e
    rw [Option.some.inj e]
    exact ⟨_, rfl, hb 0 _ (List.getElem?_eq_getElem (by omega))⟩
  | succ k =>
    have e1 : zs[k]? = some zs[k] := List.getElem?_eq_getElem (by omega)
    have e2 : zs[k + 1]? = some zs[k + 1] := List.getElem?_eq_getElem (by omega)
    have e := h6 k _ _ e1 e2
    rw [List.getElem?_eq_getElem (by omega)] at e
    rw [Option.some.inj e]
    have b1 := hb k _ e1
    have b2 := hb (k + 1) _ e2
    have hk' : (k : ℝ) + 1 ≤ n := by exact_mod_cast hk.le
    have w1 : (0 : ℝ) ≤ (k + 1) / n := by positivity
    have w2 : (0 : ℝ) ≤ 1 - (k + 1) / n := by
      rw [sub_nonneg, div_le_one hn0]; exact hk'
    refine ⟨_, rfl, ?_, ?_⟩
    · nlinarith [mul_le_mul_of_nonneg_left b2.1 w2, mul_le_mul_of_nonneg_left b1.1 w1]
    · nlinarith [mul_le_mul_of_nonneg_left b2.2 w2, mul_le_mul_of_nonneg_left b1.2 w1]

end Verif.Distortion
