/-
Shapes of pulses: sudden net zero, interpolation.
-/
import Verif.Shapes.Props
import Mathlib.Algebra.Order.BigOperators.Group.List
import Mathlib.Tactic.IntervalCases

namespace Verif.Shapes

open Complex (I)

set_option linter.unusedSimpArgs false
set_option linter.unusedVariables false

theorem setSlice_get (l : List ℝ) (a b : Nat) (v : ℝ) (i : Nat) :
    (setSlice l a b v)[i]? = (l[i]?).map fun x => if a ≤ i ∧ i < b then v else x := by
  simp only [setSlice, List.getElem?_map, List.getElem?_zipIdx]
  cases l[i]? <;> simp

theorem setSlice_length (l : List ℝ) (a b : Nat) (v : ℝ) : (setSlice l a b v).length = l.length := by
  simp [setSlice]

theorem setItem_ok (l : List ℝ) (i : Nat) (v : ℝ) (h : i < l.length) :
    setItem l (i : Int) v = .ok (l.set i v) := by
  simp only [setItem]
  rw [if_neg (by omega : ¬ ((i : Int) < 0)), if_pos ⟨by omega, by omega⟩]
  simp

theorem setSlice_eq (l : List ℝ) (a b : Nat) (v : ℝ) (hab : a ≤ b) (hb : b ≤ l.length) :
    setSlice l a b v = l.take a ++ (List.replicate (b - a) v ++ l.drop b) := by
  apply List.ext_getElem?
  intro i
  rw [setSlice_get]
  rcases Nat.lt_or_ge i a with h | h
  · rw [List.getElem?_append_left (by simp; omega), List.getElem?_take_of_lt h]
    have : ¬ (a ≤ i ∧ i < b) := by omega
    simp [this]
  · rw [List.getElem?_append_right (by simp; omega)]
    simp only [List.length_take, Nat.min_eq_left (by omega : a ≤ l.length)]
    rcases Nat.lt_or_ge i b with h2 | h2
    · rw [List.getElem?_append_left (by simp; omega), List.getElem?_replicate, if_pos (by omega)]
      rw [List.getElem?_eq_getElem (by omega)]
      simp [h, h2]
    · rw [List.getElem?_append_right (by simp; omega), List.getElem?_drop]
      simp only [List.length_replicate]
      have : b + (i - a - (b - a)) = i := by omega
      rw [this]
      cases l[i]? <;> simp
      intro h3 h4; omega

/-- Filling a part of a list that was zero adds to the sum. -/
theorem setSlice_sum (l : List ℝ) (a b : Nat) (v : ℝ) (hab : a ≤ b) (hb : b ≤ l.length)
    (h0 : ∀ i, a ≤ i → i < b → l[i]? = some 0) :
    (setSlice l a b v).sum = l.sum + (b - a : Nat) * v := by
  have h1 : l = l.take a ++ (List.replicate (b - a) 0 ++ l.drop b) := by
    rw [← setSlice_eq l a b 0 hab hb]
    apply List.ext_getElem?
    intro i
    rw [setSlice_get]
    by_cases h : a ≤ i ∧ i < b
    · rw [h0 i h.1 h.2]; simp [h]
    · cases l[i]? <;> simp [h]
  rw [setSlice_eq l a b v hab hb]
  conv_rhs => rw [h1]
  simp
  ring

theorem toInt_of_nonneg {x : ℝ} (h : 0 ≤ x) : toInt x = ⌊x⌋ := by simp [toInt, h]

/-- A sudden net zero pulse whose parts fit: with `s`, `m`, `c` the numbers of whole sample intervals in
half of `tPulse`, in `tPhi` and in `tCorr`, where `s` and `c` are at least one, it has amplitude `ampA` for
`s` samples, zero for `m` samples, `-ampA * scale` for `s` samples, a constant for `c` samples and is zero
afterwards, the last sample of the first part and the first sample of the second part being multiplied by
`ampB`; and its samples sum up to zero. -/
theorem suddenNetZero_shape (t0 t1 : ℝ) (ts : List ℝ) (ampA ampB scale tPulse tPhi tCorr : ℝ) (s m c : Nat)
    (hr : 0 < t1 - t0) (h1 : 0 ≤ tPulse) (h2 : 0 ≤ tPhi) (h3 : 0 ≤ tCorr)
    (hs : (s : ℤ) = ⌊tPulse / 2 / (t1 - t0)⌋) (hm : (m : ℤ) = ⌊tPhi / (t1 - t0)⌋)
    (hc : (c : ℤ) = ⌊tCorr / (t1 - t0)⌋) (s1 : 1 ≤ s) (c1 : 1 ≤ c)
    (hfit : 2 * s + m + c ≤ (t0 :: t1 :: ts).length) :
    ∃ ys v, suddenNetZero (t0 :: t1 :: ts) ampA ampB scale tPulse tPhi tCorr = .ok ys ∧
      ys.length = (t0 :: t1 :: ts).length ∧ ys.sum = 0 ∧
      (∀ i, i + 1 < s → ys[i]? = some ampA) ∧
      ys[s - 1]? = some (ampA * ampB) ∧
      (∀ i, s ≤ i → i < s + m → ys[i]? = some 0) ∧
      ys[s + m]? = some (-ampA * scale * ampB) ∧
      (∀ i, s + m < i → i < 2 * s + m → ys[i]? = some (-ampA * scale)) ∧
      (∀ i, 2 * s + m ≤ i → i < 2 * s + m + c → ys[i]? = some v) ∧
      (∀ i, 2 * s + m + c ≤ i → i < (t0 :: t1 :: ts).length → ys[i]? = some 0) := by
  have e1 : (toInt (tPulse / 2 / (t1 - t0))).toNat = s := by
    rw [toInt_of_nonneg (by positivity), ← hs]; simp
  have e2 : (toInt (tPhi / (t1 - t0))).toNat = m := by
    rw [toInt_of_nonneg (by positivity), ← hm]; simp
  have e3 : (toInt (tCorr / (t1 - t0))).toNat = c := by
    rw [toInt_of_nonneg (by positivity), ← hc]; simp
  generalize hn : (t0 :: t1 :: ts).length = n at *
  let w0 := setSlice (List.replicate n (0 : ℝ)) 0 s ampA
  let w1 := w0.set (s - 1) (ampA * ampB)
  let w2 := setSlice w1 (s + m) (2 * s + m) (-ampA * scale)
  let w3 := w2.set (s + m) (-ampA * scale * ampB)
  have l0 : w0.length = n := by simp [w0, setSlice_length]
  have l1 : w1.length = n := by simp [w1, l0]
  have l2 : w2.length = n := by simp [w2, setSlice_length, l1]
  have l3 : w3.length = n := by simp [w3, l2]
  have i1 : setItem w0 ((s : Int) - 1) (ampA * ampB) = .ok w1 := by
    have : ((s : Int) - 1) = ((s - 1 : Nat) : Int) := by omega
    rw [this, setItem_ok _ _ _ (by omega)]
  have i2 : setItem w2 ((s : Int) + m) (-ampA * scale * ampB) = .ok w3 := by
    have : ((s : Int) + m) = ((s + m : Nat) : Int) := by omega
    rw [this, setItem_ok _ _ _ (by omega)]
  -- the items before the correction
  have g0 : ∀ i, i < n → w0[i]? = some (if i < s then ampA else 0) := by
    intro i hi
    simp only [w0, setSlice_get, List.getElem?_replicate, if_pos hi, Option.map_some]
    simp
  have g1 : ∀ i, i < n → w1[i]? = some (if i = s - 1 then ampA * ampB else if i < s then ampA else 0) := by
    intro i hi
    simp only [w1, List.getElem?_set, l0]
    by_cases h : s - 1 = i
    · subst h; simp [hi]
    · have h' : ¬ i = s - 1 := fun e => h e.symm
      rw [if_neg h, g0 i hi, if_neg h']
  have g2 : ∀ i, i < n → w2[i]? = some (if s + m ≤ i ∧ i < 2 * s + m then -ampA * scale else
      if i = s - 1 then ampA * ampB else if i < s then ampA else 0) := by
    intro i hi
    simp only [w2, setSlice_get, g1 i hi, Option.map_some]
  have g3 : ∀ i, i < n → w3[i]? = some (if i = s + m then -ampA * scale * ampB else
      if s + m ≤ i ∧ i < 2 * s + m then -ampA * scale else
      if i = s - 1 then ampA * ampB else if i < s then ampA else 0) := by
    intro i hi
    simp only [w3, List.getElem?_set, l2]
    by_cases h : s + m = i
    · subst h; simp [hi]
    · have h' : ¬ i = s + m := fun e => h e.symm
      rw [if_neg h, g2 i hi, if_neg h']
  let ys := setSlice w3 (2 * s + m) (2 * s + m + c) (-w3.sum / c)
  have g4 : ∀ i, i < n → ys[i]? = some (if 2 * s + m ≤ i ∧ i < 2 * s + m + c then -w3.sum / c else
      if i = s + m then -ampA * scale * ampB else
      if s + m ≤ i ∧ i < 2 * s + m then -ampA * scale else
      if i = s - 1 then ampA * ampB else if i < s then ampA else 0) := by
    intro i hi
    simp only [ys, setSlice_get, g3 i hi, Option.map_some]
  refine ⟨ys, -w3.sum / c, ?_, ?_, ?_, ?_, ?_, ?_, ?_, ?_, ?_, ?_⟩
  · simp only [suddenNetZero, hr.ne', if_false, e1, e2, e3, hn]
    rw [if_neg (by omega)]
    change (do
      let w ← setItem w0 ((s : Int) - 1) (ampA * ampB)
      let w ← setItem (setSlice w (s + m) (2 * s + m) (-ampA * scale)) ((s : Int) + m) (-ampA * scale * ampB)
      if c = 0 then Except.ok w else .ok (setSlice w (2 * s + m) (2 * s + m + c) (-w.sum / c))) = _
    rw [i1]
    change (do
      let w ← setItem w2 ((s : Int) + m) (-ampA * scale * ampB)
      if c = 0 then Except.ok w else .ok (setSlice w (2 * s + m) (2 * s + m + c) (-w.sum / c))) = _
    rw [i2]
    change (if c = 0 then Except.ok w3 else .ok (setSlice w3 (2 * s + m) (2 * s + m + c) (-w3.sum / c))) = _
    rw [if_neg (by omega)]
  · simp [ys, setSlice_length, l3]
  · simp only [ys]
    rw [setSlice_sum _ _ _ _ (by omega) (by omega)]
    · have : 2 * s + m + c - (2 * s + m) = c := by omega
      rw [this]
      have hc0 : (c : ℝ) ≠ 0 := by exact_mod_cast (by omega : c ≠ 0)
      field_simp
      ring
    · intro i hi1 hi2
      rw [g3 i (by omega), if_neg (by omega), if_neg (by omega), if_neg (by omega), if_neg (by omega)]
  · intro i hi
    rw [g4 i (by omega), if_neg (by omega), if_neg (by omega), if_neg (by omega), if_neg (by omega),
      if_pos (by omega)]
  · rw [g4 _ (by omega), if_neg (by omega), if_neg (by omega), if_neg (by omega), if_pos rfl]
  · intro i hi1 hi2
    rw [g4 i (by omega), if_neg (by omega), if_neg (by omega), if_neg (by omega), if_neg (by omega),
      if_neg (by omega)]
  · rw [g4 _ (by omega), if_neg (by omega), if_pos rfl]
  · intro i hi1 hi2
    rw [g4 i (by omega), if_neg (by omega), if_neg (by omega), if_pos (by omega)]
  · intro i hi1 hi2
    rw [g4 i (by omega), if_pos (by omega)]
  · intro i hi1 hi2
    rw [g4 i (by omega), if_neg (by omega), if_neg (by omega), if_neg (by omega), if_neg (by omega),
      if_neg (by omega)]

/-- Parts that do not fit are an error. -/
theorem suddenNetZero_rejects (t0 t1 : ℝ) (ts : List ℝ) (ampA ampB scale tPulse tPhi tCorr : ℝ) (s m c : Nat)
    (hr : 0 < t1 - t0) (h1 : 0 ≤ tPulse) (h2 : 0 ≤ tPhi) (h3 : 0 ≤ tCorr)
    (hs : (s : ℤ) = ⌊tPulse / 2 / (t1 - t0)⌋) (hm : (m : ℤ) = ⌊tPhi / (t1 - t0)⌋)
    (hc : (c : ℤ) = ⌊tCorr / (t1 - t0)⌋) (hfit : (t0 :: t1 :: ts).length < 2 * s + m + c) :
    suddenNetZero (t0 :: t1 :: ts) ampA ampB scale tPulse tPhi tCorr = .error .valueError := by
  have e1 : (toInt (tPulse / 2 / (t1 - t0))).toNat = s := by
    rw [toInt_of_nonneg (by positivity), ← hs]; simp
  have e2 : (toInt (tPhi / (t1 - t0))).toNat = m := by
    rw [toInt_of_nonneg (by positivity), ← hm]; simp
  have e3 : (toInt (tCorr / (t1 - t0))).toNat = c := by
    rw [toInt_of_nonneg (by positivity), ← hc]; simp
  simp only [suddenNetZero, hr.ne', if_false, e1, e2, e3]
  rw [if_pos (by omega)]

/-- If half of the pulse is shorter than a sample, the samples do not sum up to zero: the two corrections by
`ampB` go to the last sample and to the first one of the correction, which is overwritten. -/
theorem net_zero_short_not_zero : ∃ ys, suddenNetZero [0, 1, 2, 3] 1 1 1 1 0 2 = .ok ys ∧ ys.sum = 1 := by
  have e1 : (toInt ((1 : ℝ) / 2 / (1 - 0))).toNat = 0 := by
    rw [toInt_of_nonneg (by norm_num)]
    have : ⌊(1 : ℝ) / 2 / (1 - 0)⌋ = 0 := by rw [Int.floor_eq_iff]; norm_num
    rw [this]; rfl
  have e2 : (toInt ((0 : ℝ) / (1 - 0))).toNat = 0 := by simp [toInt]
  have e3 : (toInt ((2 : ℝ) / (1 - 0))).toNat = 2 := by
    rw [toInt_of_nonneg (by norm_num)]
    have : ⌊(2 : ℝ) / (1 - 0)⌋ = 2 := by rw [Int.floor_eq_iff]; norm_num
    rw [this]; rfl
  refine ⟨[0, 0, 0, 1], ?_, by norm_num⟩
  simp only [suddenNetZero, e1, e2, e3]
  norm_num
  simp [setSlice, setItem, List.replicate, List.zipIdx, bind, Except.bind]

/-- Without time for the correction the samples do not sum up to zero. -/
theorem net_zero_uncorrected : ∃ ys, suddenNetZero [0, 1, 2, 3] 1 1 (1/2) 4 0 0 = .ok ys ∧ ys.sum = 1 := by
  have e1 : (toInt ((4 : ℝ) / 2 / (1 - 0))).toNat = 2 := by
    rw [toInt_of_nonneg (by norm_num)]
    have : ⌊(4 : ℝ) / 2 / (1 - 0)⌋ = 2 := by rw [Int.floor_eq_iff]; norm_num
    rw [this]; rfl
  have e2 : (toInt ((0 : ℝ) / (1 - 0))).toNat = 0 := by simp [toInt]
  refine ⟨[1, 1, -(1/2), -(1/2)], ?_, by norm_num⟩
  simp only [suddenNetZero, e1, e2]
  norm_num
  simp [setSlice, setItem, List.replicate, List.zipIdx, bind, Except.bind]

end Verif.Shapes
