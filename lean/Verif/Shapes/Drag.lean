/-
Shapes of pulses: rotation, drag, skewed Hermite.
-/
import Verif.Shapes.Props

namespace Verif.Shapes

open Complex (I)

set_option linter.unusedSimpArgs false
set_option linter.unusedVariables false

/-- Rotating a wave multiplies it by `exp(i phase)` with the phase in degrees. -/
theorem rotate_shape (w : List ℂ) (phase : ℝ) :
    rotateWave w phase = w.map fun z => Complex.exp ((phase / 180 * Real.pi : ℝ) * I) * z := by
  simp only [rotateWave]
  refine List.map_congr_left fun z _ => ?_
  rw [Complex.exp_mul_I, ← Complex.ofReal_cos, ← Complex.ofReal_sin]
  have : phase / 180 * Real.pi = deg2rad phase := by simp only [deg2rad]; ring
  rw [this]
  ring

/-- A rotation by the sum of two angles is one rotation after the other. -/
theorem rotate_add (w : List ℂ) (p q : ℝ) : rotateWave (rotateWave w p) q = rotateWave w (p + q) := by
  simp only [rotate_shape, List.map_map]
  refine List.map_congr_left fun z _ => ?_
  simp only [Function.comp]
  rw [← mul_assoc, ← Complex.exp_add]
  congr 2
  push_cast
  ring

/-- A rotation keeps magnitudes. -/
theorem rotate_norm (w : List ℂ) (p : ℝ) : (rotateWave w p).map (‖·‖) = w.map (‖·‖) := by
  simp only [rotate_shape, List.map_map]
  refine List.map_congr_left fun z _ => ?_
  simp only [Function.comp, norm_mul, Complex.norm_exp_ofReal_mul_I, one_mul]

namespace Spec

/-- A bell curve: largest at its middle, with value `amp` there, symmetric, and falling off as a Gaussian
of width `sigma`. -/
noncomputable def gauss (amp mu sigma x : ℝ) : ℝ := amp * Real.exp (-((x - mu) / sigma) ^ 2 / 2)

/-- What is subtracted from a pulse. -/
noncomputable def offset (f : ℝ → ℂ) (first last : ℝ) : Subtract → ℂ
  | .none => 0
  | .first => f first
  | .last => f last
  | .average => (f first + f last) / 2

end Spec

/-- The bell curve has its maximum in the middle, is symmetric and positive. -/
theorem gauss_spec (amp mu sigma : ℝ) (h : 0 < amp) (hs : sigma ≠ 0) :
    Spec.gauss amp mu sigma mu = amp ∧ (∀ x, x ≠ mu → Spec.gauss amp mu sigma x < amp) ∧
    (∀ x, 0 < Spec.gauss amp mu sigma x) ∧
    (∀ x, Spec.gauss amp mu sigma (mu + x) = Spec.gauss amp mu sigma (mu - x)) ∧
    Spec.gauss amp mu sigma (mu + sigma) = amp * Real.exp (-1 / 2) := by
  refine ⟨by simp [Spec.gauss], ?_, ?_, ?_, ?_⟩
  · intro x hx
    have : 0 < ((x - mu) / sigma) ^ 2 := by
      have : (x - mu) / sigma ≠ 0 := div_ne_zero (sub_ne_zero.mpr hx) hs
      positivity
    have h1 : Real.exp (-((x - mu) / sigma) ^ 2 / 2) < 1 := by
      rw [Real.exp_lt_one_iff]; linarith
    simp only [Spec.gauss]
    nlinarith
  · intro x; simp only [Spec.gauss]; positivity
  · intro x; simp only [Spec.gauss]
    congr 2
    have h1 : (mu + x - mu) = x := by ring
    have h2 : (mu - x - mu) = -x := by ring
    rw [h1, h2, neg_div sigma, neg_sq]
  · simp only [Spec.gauss]
    have h1 : (mu + sigma - mu) / sigma = 1 := by field_simp; ring
    rw [h1]; norm_num

theorem gauss_hasDerivAt (amp mu sigma x : ℝ) (hs : sigma ≠ 0) :
    HasDerivAt (Spec.gauss amp mu sigma) (-(x - mu) / sigma ^ 2 * Spec.gauss amp mu sigma x) x := by
  have h0 : HasDerivAt (fun y : ℝ => (y - mu) / sigma) (1 / sigma) x :=
    ((hasDerivAt_id x).sub_const mu).div_const sigma
  have h1 : HasDerivAt (fun y : ℝ => -((y - mu) / sigma) ^ 2 / 2)
      (-((2 : ℕ) * ((x - mu) / sigma) ^ (2 - 1) * (1 / sigma)) / 2) x :=
    ((h0.pow 2).neg).div_const 2
  have h2 := (h1.exp).const_mul amp
  refine h2.congr_deriv ?_
  simp only [Spec.gauss]
  push_cast
  field_simp

theorem subtractOffset_spec (l : List ℝ) (s : Subtract) (x : ℝ) (xs : List ℝ) (h : l = x :: xs) :
    ∃ o : ℝ, subtractOffset l s = l.map (· - o) ∧
      o = match s with
        | .none => 0
        | .first => x
        | .last => l.getLast (by simp [h])
        | .average => (x + l.getLast (by simp [h])) / 2 := by
  subst h
  cases s <;> simp only [subtractOffset]
  · exact ⟨_, rfl, by simp [List.getLast?_eq_some_getLast]⟩
  · exact ⟨_, rfl, by simp⟩
  · exact ⟨_, rfl, by simp [List.getLast?_eq_some_getLast]⟩
  · exact ⟨0, by simp, rfl⟩

theorem drag_eq (t0 : ℝ) (ts : List ℝ) (gAmp dAmp duration s phase : ℝ) (hs : s ≠ 0) (sub : Subtract) :
    drag (t0 :: ts) gAmp dAmp duration none (some s) phase sub =
      .ok (rotateWave (List.zipWith (fun g d : ℝ => (g : ℂ) + 1 * I * (d : ℂ))
        (subtractOffset ((t0 :: ts).map fun x => gAmp * Real.exp (-(1 / 2 * (x - (t0 + duration / 2)) ^ 2 / s ^ 2))) sub)
        (subtractOffset (List.zipWith (fun x g => -dAmp * (x - (t0 + duration / 2)) / s * g) (t0 :: ts)
          ((t0 :: ts).map fun x => gAmp * Real.exp (-(1 / 2 * (x - (t0 + duration / 2)) ^ 2 / s ^ 2)))) sub)) phase) := by
  simp only [drag, List.head?_cons, hs, if_false]

theorem zipWith_map_self {A B C : Type} (f : A → B → C) (g : A → B) (l : List A) :
    List.zipWith f l (l.map g) = l.map fun x => f x (g x) := by
  induction l with
  | nil => rfl
  | cons a l ih => simp [ih]

theorem zipWith_map_map {A B C D : Type} (f : B → C → D) (g : A → B) (h : A → C) (l : List A) :
    List.zipWith f (l.map g) (l.map h) = l.map fun x => f (g x) (h x) := by
  induction l with
  | nil => rfl
  | cons a l ih => simp [ih]

/-- A drag pulse: real part a bell curve of width `sigma` around the middle of the pulse, imaginary part
its derivative times `dAmp * sigma`, minus a constant that makes the first, the last, or the sum of the
first and the last sample zero, and all of it turned by the phase.  With `nr_sigma` instead of `sigma` the
width is the duration over `2 * nr_sigma`; both or none are errors. -/
theorem drag_shape (gAmp dAmp duration sigma phase : ℝ) (hs : sigma ≠ 0) (t0 : ℝ) (ts : List ℝ)
    (sub : Subtract) : ∃ g d : ℝ → ℝ,
    g = Spec.gauss gAmp (t0 + duration / 2) sigma ∧
    (∀ x, ∃ g', HasDerivAt g g' x ∧ d x = dAmp * sigma * g') ∧
    let f : ℝ → ℂ := fun x => g x + I * d x
    let o := Spec.offset f t0 ((t0 :: ts).getLast (List.cons_ne_nil _ _)) sub
    drag (t0 :: ts) gAmp dAmp duration none (some sigma) phase sub =
      .ok ((t0 :: ts).map fun x => Complex.exp ((phase / 180 * Real.pi : ℝ) * I) * (f x - o)) := by
  refine ⟨_, fun x => -dAmp * (x - (t0 + duration / 2)) / sigma * Spec.gauss gAmp (t0 + duration / 2) sigma x,
    rfl, ?_, ?_⟩
  · intro x
    refine ⟨_, gauss_hasDerivAt _ _ _ x hs, ?_⟩
    field_simp
  · have hg : ∀ x : ℝ, gAmp * Real.exp (-(1 / 2 * (x - (t0 + duration / 2)) ^ 2 / sigma ^ 2)) =
        Spec.gauss gAmp (t0 + duration / 2) sigma x := by
      intro x
      simp only [Spec.gauss, div_pow]
      congr 2
      ring
    intro f o
    rw [drag_eq _ _ _ _ _ _ _ hs]
    simp only [hg, zipWith_map_self, rotate_shape]
    generalize hgg : Spec.gauss gAmp (t0 + duration / 2) sigma = G
    obtain ⟨o1, e1, h1⟩ := subtractOffset_spec ((t0 :: ts).map G) sub (G t0) (ts.map G) rfl
    obtain ⟨o2, e2, h2⟩ := subtractOffset_spec ((t0 :: ts).map
      (fun x => -dAmp * (x - (t0 + duration / 2)) / sigma * G x)) sub _ _ rfl
    rw [e1, e2]
    simp only [List.map_map, zipWith_map_map, Except.ok.injEq]
    refine List.map_congr_left fun x _ => ?_
    simp only [Function.comp]
    congr 1
    have ho : o = (o1 : ℂ) + I * (o2 : ℂ) := by
      simp only [o, f, h1, h2, hgg]
      cases sub <;> simp only [Spec.offset, List.getLast_map] <;> push_cast <;> ring
    simp only [ho, f, hgg]
    push_cast
    ring

/-- The first sample is zero with `first`, the last with `last`, their sum with `average`. -/
theorem drag_ends {t0 : ℝ} {ts : List ℝ} {gAmp dAmp duration sigma phase : ℝ} (hs : sigma ≠ 0)
    {sub : Subtract} {ys : List ℂ} (h : drag (t0 :: ts) gAmp dAmp duration none (some sigma) phase sub = .ok ys) :
    ys.length = (t0 :: ts).length ∧
    (sub = .first → ys.head? = some 0) ∧ (sub = .last → ys.getLast? = some 0) ∧
    (sub = .average → ∃ a b, ys.head? = some a ∧ ys.getLast? = some b ∧ a + b = 0) := by
  obtain ⟨g, d, -, -, h1⟩ := drag_shape gAmp dAmp duration sigma phase hs t0 ts sub
  have h2 := h1.symm.trans h
  simp only [Except.ok.injEq] at h2
  subst h2
  refine ⟨by simp, ?_, ?_, ?_⟩
  · rintro rfl; simp [Spec.offset]
  · rintro rfl
    rw [List.getLast?_map, List.getLast?_eq_some_getLast (by simp)]
    simp [Spec.offset]
  · rintro rfl
    rw [List.getLast?_map, List.getLast?_eq_some_getLast (by simp)]
    refine ⟨_, _, rfl, rfl, ?_⟩
    simp only [Spec.offset]
    ring

/-- The width: `sigma`, or the duration over `2 * nr_sigma`; not both and not none. -/
theorem drag_width (t0 : ℝ) (ts : List ℝ) (gAmp dAmp duration phase : ℝ) (sub : Subtract) :
    (∀ n s, drag (t0 :: ts) gAmp dAmp duration (some n) (some s) phase sub = .error .valueError) ∧
    drag (t0 :: ts) gAmp dAmp duration none none phase sub = .error .typeError ∧
    (∀ n, n ≠ 0 → drag (t0 :: ts) gAmp dAmp duration (some n) none phase sub =
      drag (t0 :: ts) gAmp dAmp duration none (some (duration / (2 * n))) phase sub) := by
  refine ⟨fun n s => by simp [drag], by simp [drag], fun n hn => by simp [drag, hn]⟩

/-- Twice the amplitude gives twice the samples: the rotation angle of a pulse is proportional to its
amplitude. -/
theorem drag_linear (t0 : ℝ) (ts : List ℝ) (c gAmp dAmp duration sigma phase : ℝ) (hs : sigma ≠ 0)
    (sub : Subtract) {ys : List ℂ} (h : drag (t0 :: ts) gAmp dAmp duration none (some sigma) phase sub = .ok ys) :
    drag (t0 :: ts) (c * gAmp) dAmp duration none (some sigma) phase sub = .ok (ys.map ((c : ℂ) * ·)) := by
  obtain ⟨g, d, rfl, hd, h1⟩ := drag_shape gAmp dAmp duration sigma phase hs t0 ts sub
  obtain ⟨g2, d2, rfl, hd2, h2⟩ := drag_shape (c * gAmp) dAmp duration sigma phase hs t0 ts sub
  have h3 := h1.symm.trans h
  simp only [Except.ok.injEq] at h3
  rw [h2, ← h3]
  have hg : ∀ x, Spec.gauss (c * gAmp) (t0 + duration / 2) sigma x =
      c * Spec.gauss gAmp (t0 + duration / 2) sigma x := by
    intro x; simp only [Spec.gauss]; ring
  have hdd : ∀ x, d2 x = c * d x := by
    intro x
    obtain ⟨a, ha, ea⟩ := hd x
    obtain ⟨b, hb, eb⟩ := hd2 x
    have hb' := (ha.const_mul c).congr_of_eventuallyEq (Filter.Eventually.of_forall hg)
    have : b = c * a := hb.unique hb'
    rw [ea, eb, this]; ring
  have ho : ∀ (f : ℝ → ℂ) a b, Spec.offset (fun x => (c : ℂ) * f x) a b sub = c * Spec.offset f a b sub := by
    intro f a b
    cases sub <;> simp only [Spec.offset] <;> ring
  have hf : (fun x => (Spec.gauss (c * gAmp) (t0 + duration / 2) sigma x : ℂ) + I * (d2 x : ℂ)) =
      fun x => (c : ℂ) * ((Spec.gauss gAmp (t0 + duration / 2) sigma x : ℂ) + I * (d x : ℂ)) := by
    funext x
    rw [hg, hdd]; push_cast; ring
  simp only [List.map_map, Except.ok.injEq]
  refine List.map_congr_left fun x _ => ?_
  simp only [Function.comp]
  rw [hf, ho]
  have hx := congrFun hf x
  try simp only [Function.comp]
  rw [hx]
  ring

/-- The phase of a pulse turns all of its samples. -/
theorem drag_phase (t0 : ℝ) (ts : List ℝ) (gAmp dAmp duration sigma phase : ℝ) (hs : sigma ≠ 0)
    (sub : Subtract) {ys : List ℂ} (h : drag (t0 :: ts) gAmp dAmp duration none (some sigma) 0 sub = .ok ys) :
    drag (t0 :: ts) gAmp dAmp duration none (some sigma) phase sub =
      .ok (ys.map (Complex.exp ((phase / 180 * Real.pi : ℝ) * I) * ·)) := by
  rw [drag_eq _ _ _ _ _ _ _ hs] at h ⊢
  simp only [Except.ok.injEq] at h
  rw [← h]
  simp only [rotate_shape, List.map_map, Except.ok.injEq]
  refine List.map_congr_left fun x _ => ?_
  simp

/-- A skewed Hermite pulse: its real part is `amplitude` at the center and symmetric about it, and its
imaginary part is the derivative of the real part times `-skewness / (2 pi)`; all of it is turned by the
phase. -/
theorem hermite_shape (duration amplitude skewness phase ratio : ℝ) (hd : duration ≠ 0) (hr : ratio ≠ 0)
    (pi2 : Bool) (center : Option ℝ) (t0 : ℝ) : ∃ i q : ℝ → ℝ,
    let c := t0 + center.getD (duration / 2)
    i c = amplitude ∧ q c = 0 ∧ (∀ x, i (c + x) = i (c - x)) ∧
    (∀ x, ∃ i', HasDerivAt i i' x ∧ q x = -skewness / (2 * Real.pi) * i') ∧
    ∀ ts, skewedHermite (t0 :: ts) duration amplitude skewness phase pi2 center ratio =
      .ok ((t0 :: ts).map fun x => Complex.exp ((phase / 180 * Real.pi : ℝ) * I) * (i x + I * q x)) := by
  have hT : duration / ratio ≠ 0 := div_ne_zero hd hr
  generalize hf : (if pi2 then 667 / 1000 else 956 / 1000 : ℝ) = f
  generalize hc : center.getD (duration / 2) = c0
  refine ⟨fun x => amplitude * ((1 - f * ((x - (c0 + t0)) / (duration / ratio)) ^ 2) *
      Real.exp (-(((x - (c0 + t0)) / (duration / ratio)) ^ 2))),
    fun x => amplitude * (skewness / Real.pi) * ((x - (c0 + t0)) / (duration / ratio) / (duration / ratio)) *
      (f + 1 - f * ((x - (c0 + t0)) / (duration / ratio)) ^ 2) *
      Real.exp (-(((x - (c0 + t0)) / (duration / ratio)) ^ 2)), ?_, ?_, ?_, ?_, ?_⟩
  · simp [add_comm]
  · simp [add_comm]
  · intro x
    have h1 : t0 + c0 + x - (c0 + t0) = x := by ring
    have h2 : t0 + c0 - x - (c0 + t0) = -x := by ring
    simp only [h1, h2, neg_div, neg_sq]
  · intro x
    generalize hT' : duration / ratio = T at *
    have h0 : HasDerivAt (fun y : ℝ => (y - (c0 + t0)) / T) (1 / T) x :=
      ((hasDerivAt_id x).sub_const _).div_const T
    have h1 := h0.pow 2
    have h2 := (((h1.const_mul f).const_sub 1).mul h1.neg.exp).const_mul amplitude
    refine ⟨_, h2, ?_⟩
    have hp : Real.pi ≠ 0 := Real.pi_ne_zero
    push_cast
    simp only [Pi.pow_apply, Pi.neg_apply]
    field_simp
    ring
  · intro ts
    simp only [skewedHermite, hr, hT, hc, hf, if_false, List.head?_cons, rotate_shape, List.map_map,
      Except.ok.injEq]
    refine List.map_congr_left fun x _ => ?_
    simp only [Function.comp]
    ring

end Verif.Shapes
