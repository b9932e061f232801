/-
Interpolation between given samples.
-/
import Verif.Shapes.Props

namespace Verif.Shapes

open Complex (I)

set_option linter.unusedSimpArgs false
set_option linter.unusedVariables false

theorem getD_get (l : List ℝ) (d : ℝ) {i : Nat} (h : i < l.length) : l.getD i d = l[i] := by
  rw [List.getD_eq_getElem?_getD, List.getElem?_eq_getElem h]; rfl

theorem searchsorted_eq (xs : List ℝ) (hxs : xs.Pairwise (· < ·)) (x : ℝ) (i : Nat) (hi : i ≤ xs.length)
    (hlo : ∀ j (hj : j < xs.length), j < i → xs[j] < x) (hhi : ∀ (h : i < xs.length), x ≤ xs[i]) :
    searchsorted xs x = i := by
  classical
  simp only [searchsorted]
  induction xs generalizing i with
  | nil => simp at hi; simp [hi]
  | cons a xs ih =>
    cases i with
    | zero =>
      have := hhi (by simp)
      simp only [List.getElem_cons_zero] at this
      simp [not_lt.mpr this]
    | succ i =>
      have h0 := hlo 0 (by simp) (by omega)
      simp only [List.getElem_cons_zero] at h0
      have := ih (List.Pairwise.of_cons hxs) i (by simpa using hi)
        (fun j hj hji => hlo (j + 1) (Nat.succ_lt_succ hj) (by omega))
        (fun h => hhi (Nat.succ_lt_succ h))
      simp only [List.takeWhile_cons, h0, decide_true, List.length_cons]
      simpa using this

theorem pairwise_get {xs : List ℝ} (hxs : xs.Pairwise (· < ·)) {i j : Nat} (hij : i < j) (hj : j < xs.length) :
    xs[i] < xs[j] := List.pairwise_iff_getElem.mp hxs i j (by omega) hj hij

/-- Between two neighbouring sample times the interpolated value is on the straight line between their
samples; in particular it is the sample at a sample time. -/
theorem interp_between {xs ys : List ℝ} (hxs : xs.Pairwise (· < ·)) (hl : ys.length = xs.length) {i : Nat}
    (hi : i + 1 < xs.length) {x : ℝ} (h1 : xs[i] ≤ x) (h2 : x ≤ xs[i + 1]) :
    interp1d xs ys x = ys[i] + (x - xs[i]) / (xs[i + 1] - xs[i]) * (ys[i + 1] - ys[i]) := by
  have hpos : xs[i] < xs[i + 1] := pairwise_get hxs (by omega) hi
  rcases lt_or_eq_of_le h1 with h | h
  · have hs : searchsorted xs x = i + 1 := by
      apply searchsorted_eq xs hxs x (i + 1) (by omega)
      · intro j hj hji
        rcases Nat.lt_or_ge j i with h' | h'
        · exact lt_trans (pairwise_get hxs h' (by omega)) h
        · obtain rfl : j = i := by omega
          exact h
      · intro _; exact h2
    have e : max 1 (min (i + 1) (xs.length - 1)) = i + 1 := by omega
    simp only [interp1d, hs, e, Nat.add_sub_cancel]
    rw [getD_get _ _ (by omega), getD_get _ _ (by omega),
      getD_get _ _ (by omega), getD_get _ _ (by omega)]
    have : xs[i + 1] - xs[i] ≠ 0 := sub_ne_zero.mpr hpos.ne'
    field_simp
    ring
  · subst h
    have hs : searchsorted xs xs[i] = i := by
      apply searchsorted_eq xs hxs _ i (by omega)
      · intro j hj hji; exact pairwise_get hxs hji (by omega)
      · intro _; exact le_refl _
    simp only [sub_self, zero_div, zero_mul, add_zero]
    cases i with
    | zero =>
      have e : max 1 (min 0 (xs.length - 1)) = 1 := by omega
      simp only [interp1d, hs, e, Nat.sub_self]
      rw [getD_get xs _ (by omega : 0 < xs.length), getD_get ys _ (by omega : 0 < ys.length)]
      simp
    | succ k =>
      have e : max 1 (min (k + 1) (xs.length - 1)) = k + 1 := by omega
      simp only [interp1d, hs, e, Nat.add_sub_cancel]
      rw [getD_get _ _ (by omega), getD_get _ _ (by omega),
        getD_get _ _ (by omega), getD_get _ _ (by omega)]
      have : xs[k + 1] - xs[k] ≠ 0 := sub_ne_zero.mpr (pairwise_get hxs (by omega) (by omega)).ne'
      field_simp
      ring

/-- Before the first sample time the first line is continued. -/
theorem interp_before {xs ys : List ℝ} (hxs : xs.Pairwise (· < ·)) (hl : ys.length = xs.length)
    (h2 : 1 < xs.length) {x : ℝ} (hx : x ≤ xs[0]) :
    interp1d xs ys x = ys[0] + (x - xs[0]) / (xs[1] - xs[0]) * (ys[1] - ys[0]) := by
  have hpos : xs[0] < xs[1] := pairwise_get hxs (by omega) h2
  have hs : searchsorted xs x = 0 :=
    searchsorted_eq xs hxs x 0 (by omega) (fun j _ h => absurd h (by omega)) (fun _ => hx)
  have e : max 1 (min 0 (xs.length - 1)) = 1 := by omega
  simp only [interp1d, hs, e, Nat.sub_self]
  rw [getD_get _ _ (by omega), getD_get _ _ (by omega),
    getD_get _ _ (by omega), getD_get _ _ (by omega)]
  have : xs[1] - xs[0] ≠ 0 := sub_ne_zero.mpr hpos.ne'
  field_simp
  ring

/-- After the last sample time the last line is continued. -/
theorem interp_after {xs ys : List ℝ} (hxs : xs.Pairwise (· < ·)) (hl : ys.length = xs.length) {n : Nat}
    (h2 : xs.length = n + 2) {x : ℝ} (hx : xs[n + 1] < x) :
    interp1d xs ys x = ys[n] + (x - xs[n]) / (xs[n + 1] - xs[n]) * (ys[n + 1] - ys[n]) := by
  have hpos : xs[n] < xs[n + 1] := pairwise_get hxs (by omega) (by omega)
  have hs : searchsorted xs x = n + 2 := by
    apply searchsorted_eq xs hxs x (n + 2) (by omega)
    · intro j hj hji
      rcases Nat.lt_or_ge j (n + 1) with h' | h'
      · exact lt_trans (pairwise_get hxs h' (by omega)) hx
      · obtain rfl : j = n + 1 := by omega
        exact hx
    · intro h; omega
  have e : max 1 (min (n + 2) (xs.length - 1)) = n + 1 := by omega
  simp only [interp1d, hs, e, Nat.add_sub_cancel]
  rw [getD_get _ _ (by omega), getD_get _ _ (by omega),
    getD_get _ _ (by omega), getD_get _ _ (by omega)]
  have : xs[n + 1] - xs[n] ≠ 0 := sub_ne_zero.mpr hpos.ne'
  field_simp
  ring

/-- The waveform through given complex samples: at each time the straight line between the samples
around it; an error if the times are more than the first sample interval away from the samples. -/
theorem interpolated_shape (ss : List ℂ) (ts : List ℝ) (hts : ts.Pairwise (· < ·)) (hl : ss.length = ts.length)
    (h2 : 1 < ts.length) : ∃ f : ℝ → ℂ,
    (∀ i (hi : i + 1 < ts.length), ∀ x, ts[i] ≤ x → x ≤ ts[i + 1] →
      f x = ss[i] + (((x - ts[i]) / (ts[i + 1] - ts[i]) : ℝ) : ℂ) * (ss[i + 1] - ss[i])) ∧
    (∀ i (hi : i < ts.length), f ts[i] = ss[i]) ∧
    ∀ t (ht : t ≠ []), interpolated t ss ts =
      if t.head ht < ts[0] - (ts[1] - ts[0]) ∨ ts[ts.length - 1] + (ts[1] - ts[0]) < t.getLast ht
      then .error .valueError else .ok (t.map f) := by
  have key : ∀ i (hi : i + 1 < ts.length), ∀ x, ts[i] ≤ x → x ≤ ts[i + 1] →
      (interp1d ts (ss.map Complex.re) x : ℂ) + 1 * I * (interp1d ts (ss.map Complex.im) x : ℂ) =
      ss[i] + (((x - ts[i]) / (ts[i + 1] - ts[i]) : ℝ) : ℂ) * (ss[i + 1] - ss[i]) := by
    intro i hi x h1 h3
    rw [interp_between hts (by simp [hl]) hi h1 h3, interp_between hts (by simp [hl]) hi h1 h3]
    simp only [List.getElem_map]
    push_cast
    conv_rhs => rw [← Complex.re_add_im ss[i], ← Complex.re_add_im ss[i + 1]]
    ring
  refine ⟨fun x => (interp1d ts (ss.map Complex.re) x : ℂ) + 1 * I * (interp1d ts (ss.map Complex.im) x : ℂ),
    key, ?_, ?_⟩
  · intro i hi
    rcases Nat.lt_or_ge (i + 1) ts.length with h | h
    · have := key i h ts[i] (le_refl _) (pairwise_get hts (by omega) h).le
      simp only [sub_self, zero_div, Complex.ofReal_zero, zero_mul, add_zero] at this
      exact this
    · obtain ⟨k, rfl⟩ : ∃ k, i = k + 1 := ⟨i - 1, by omega⟩
      have := key k hi ts[k + 1] (pairwise_get hts (by omega) hi).le (le_refl _)
      have h0 : ts[k + 1] - ts[k] ≠ 0 := sub_ne_zero.mpr (pairwise_get hts (by omega) hi).ne'
      rw [div_self h0] at this
      beta_reduce
      rw [this]
      push_cast
      ring
  · intro t ht
    match ts, h2 with
    | s0 :: s1 :: rest, _ =>
      simp only [interpolated, List.head?_eq_some_head ht, List.getLast?_eq_some_getLast ht,
        List.getLast?_eq_some_getLast (List.cons_ne_nil s0 (s1 :: rest)), Option.getD_some,
        List.getElem_cons_zero, List.getElem_cons_succ, List.getLast_eq_getElem]
      first | done | rfl

end Verif.Shapes
