/-
Lemmas about times on Zurich Instruments devices.
-/
import Verif.Zi.TimeSpec
import Verif.Numeric.Props
import Mathlib.Tactic.Linarith
import Mathlib.Tactic.NormNum
import Mathlib.Tactic.FieldSimp
import Mathlib.Tactic.Ring
import Mathlib.Tactic.IntervalCases

set_option linter.unusedVariables false
set_option linter.unusedSimpArgs false

namespace Verif.Zi

open Verif.Numeric (pyRound pyRound_close pyRound_unique pyRound_int)
open Spec

theorem rate_pos (d : Dev) : 0 < rate d := by cases d <;> norm_num [rate]

theorem rate_eq (d : Dev) : rate d = samplesPerSecond d := by cases d <;> rfl

theorem clockRate_mul (d : Dev) (t : Rat) : t * clockRate d = t * rate d / 8 := by
  unfold clockRate; ring

/-- The sample is what is left of the time after the clock cycles. -/
theorem sample_eq (d : Dev) (t : Rat) (c : Int) : (t - c / clockRate d) * rate d = t * rate d - 8 * c := by
  have h := rate_pos d
  unfold clockRate
  field_simp

/-- `clockSample` in terms of the number of samples. -/
theorem clockSample_eq (d : Dev) (t : Rat) : clockSample d t =
    if isClose (t * rate d - 8 * ⌊round3 (t * rate d / 8)⌋) (pyRound (t * rate d - 8 * ⌊round3 (t * rate d / 8)⌋))
      then .ok (⌊round3 (t * rate d / 8)⌋, t * rate d - 8 * ⌊round3 (t * rate d / 8)⌋) else .error .valueError := by
  unfold clockSample
  simp only [sample_eq, clockRate_mul]

theorem round3_close (x : Rat) : |x - round3 x| ≤ 1 / 2000 := by
  have h := pyRound_close (x * 1000)
  unfold round3
  rw [abs_le] at h ⊢
  constructor <;> linarith [h.1, h.2]

/-- The clock cycle of a time near sample `n`. -/
theorem floor_near {y e : Rat} {n : Int} (h : y = n + e) (he : |e| ≤ 1 / 5000) : ⌊round3 (y / 8)⌋ = n / 8 := by
  rw [abs_le] at he
  have hn : n = 8 * (n / 8) + n % 8 := (Int.mul_ediv_add_emod n 8).symm
  have hlt : n % 8 < 8 := Int.emod_lt_of_pos n (by norm_num)
  have hge : 0 ≤ n % 8 := Int.emod_nonneg n (by norm_num)
  have hq : (n : Rat) = 8 * ((n / 8 : Int) : Rat) + ((n % 8 : Int) : Rat) := by exact_mod_cast hn
  rcases Nat.eq_zero_or_pos (n % 8).toNat with h0 | h0
  · have h0' : n % 8 = 0 := by omega
    have hr : pyRound (y / 8 * 1000) = 1000 * (n / 8) := by
      apply pyRound_unique
      rw [h, hq, h0']
      push_cast
      rw [abs_lt]
      constructor <;> linarith [he.1, he.2]
    unfold round3
    rw [hr, Int.floor_eq_iff]
    push_cast
    constructor <;> linarith
  · have h1 : 1 ≤ n % 8 := by omega
    have h7 : n % 8 ≤ 7 := by omega
    have h1' : (1 : Rat) ≤ ((n % 8 : Int) : Rat) := by exact_mod_cast h1
    have h7' : ((n % 8 : Int) : Rat) ≤ 7 := by exact_mod_cast h7
    have hc := round3_close (y / 8)
    rw [abs_le] at hc
    rw [Int.floor_eq_iff]
    constructor
    · linarith [hc.1, hc.2, he.1, he.2]
    · linarith [hc.1, hc.2, he.1, he.2]

/-- What `clockSample` accepts, and what it returns then: the clock cycle and the sample of the nearest
sample, which is at most a few ten-thousandths of a sample away. -/
theorem clockSample_near {d : Dev} {t : Rat} {n : Int}
    (h : |t * rate d - n| ≤ 1 / 10000 + 1 / 100000 * ((n % 8 : Int) : Rat)) :
    clockSample d t = .ok (n / 8, t * rate d - 8 * (n / 8 : Int)) ∧
      pyRound (t * rate d - 8 * (n / 8 : Int)) = n % 8 := by
  have hlt : n % 8 < 8 := Int.emod_lt_of_pos n (by norm_num)
  have hge : 0 ≤ n % 8 := Int.emod_nonneg n (by norm_num)
  have h7' : ((n % 8 : Int) : Rat) ≤ 7 := by exact_mod_cast (by omega : n % 8 ≤ 7)
  have h0' : (0 : Rat) ≤ ((n % 8 : Int) : Rat) := by exact_mod_cast hge
  have hq : (n : Rat) = 8 * ((n / 8 : Int) : Rat) + ((n % 8 : Int) : Rat) := by
    exact_mod_cast (Int.mul_ediv_add_emod n 8).symm
  have hf := floor_near (y := t * rate d) (e := t * rate d - n) (n := n) (by ring) (by linarith)
  have hb := abs_le.mp h
  have hr : pyRound (t * rate d - 8 * (n / 8 : Int)) = n % 8 := by
    apply pyRound_unique
    rw [abs_lt]
    constructor <;> linarith [hb.1, hb.2]
  refine ⟨?_, hr⟩
  rw [clockSample_eq, hf, hr, if_pos]
  unfold isClose
  rw [decide_eq_true_eq, abs_of_nonneg h0']
  have e : t * rate d - 8 * ((n / 8 : Int) : Rat) - ((n % 8 : Int) : Rat) = t * rate d - n := by rw [hq]; ring
  rw [e]
  exact h

theorem clockSample_ok {d : Dev} {t : Rat} {p : Int × Rat} (h : clockSample d t = .ok p) :
    ∃ n : Int, |t * rate d - n| ≤ 1 / 10000 + 1 / 100000 * ((n % 8 : Int) : Rat) ∧ p.1 = n / 8 ∧
      p.2 = t * rate d - 8 * (n / 8 : Int) ∧ pyRound p.2 = n % 8 := by
  rw [clockSample_eq] at h
  generalize hy : t * rate d = y at *
  split at h
  · rename_i hc
    simp only [Except.ok.injEq] at h
    generalize hq : ⌊round3 (y / 8)⌋ = q at *
    have h3 := abs_le.mp (round3_close (y / 8))
    have hfl := Int.floor_eq_iff.mp hq
    generalize hr : pyRound (y - 8 * q) = r at *
    unfold isClose at hc
    rw [decide_eq_true_eq] at hc
    have hb := pyRound_close (y - 8 * q)
    rw [hr] at hb
    have hb' := abs_le.mp hb
    -- the sample is between 0 and 7
    have hr0 : 0 ≤ r := by
      have : (-1 : Rat) < r := by linarith [h3.1, h3.2, hfl.1, hfl.2, hb'.1, hb'.2]
      have : (-1 : Int) < r := by exact_mod_cast this
      omega
    have hr8 : r ≤ 8 := by
      have : (r : Rat) < 9 := by linarith [h3.1, h3.2, hfl.1, hfl.2, hb'.1, hb'.2]
      have : r < 9 := by exact_mod_cast this
      omega
    have hr0' : (0 : Rat) ≤ r := by exact_mod_cast hr0
    rw [abs_of_nonneg hr0'] at hc
    have hc' := abs_le.mp hc
    have hr7 : r ≤ 7 := by
      by_contra hn
      have h8 : r = 8 := by omega
      rw [h8] at hc'
      push_cast at hc'
      -- 1000 (y / 8) is nearer to 1000 (q + 1) than a half
      have hx : pyRound (y / 8 * 1000) = 1000 * (q + 1) := by
        apply pyRound_unique
        push_cast
        rw [abs_lt]
        constructor <;> linarith [hc'.1, hc'.2]
      have hfl2 := hfl.2
      unfold round3 at hfl2
      rw [hx] at hfl2
      push_cast at hfl2
      linarith
    refine ⟨8 * q + r, ?_, ?_, ?_, ?_⟩
    · have hm : (8 * q + r) % 8 = r := by omega
      rw [hm]
      have e : y - ((8 * q + r : Int) : Rat) = y - 8 * q - r := by push_cast; ring
      rw [e]
      exact hc
    · rw [← h]; simp only; omega
    · have : (8 * q + r) / 8 = q := by omega
      rw [this, ← h]
    · have : (8 * q + r) % 8 = r := by omega
      rw [this, ← h]
      exact hr
  · exact absurd h (by simp)

/-- On a sample, the result is exact. -/
theorem clockSample_exact {d : Dev} {t : Rat} {n : Int} (h : At d t n) :
    clockSample d t = .ok (n / 8, ((n % 8 : Int) : Rat)) := by
  unfold At at h
  rw [← rate_eq] at h
  have hge : 0 ≤ n % 8 := Int.emod_nonneg n (by norm_num)
  have h0' : (0 : Rat) ≤ ((n % 8 : Int) : Rat) := by exact_mod_cast hge
  have h1 := (clockSample_near (d := d) (t := t) (n := n) (by rw [h, sub_self, abs_zero]; linarith)).1
  rw [h1, h]
  have hq : (n : Rat) = 8 * ((n / 8 : Int) : Rat) + ((n % 8 : Int) : Rat) := by
    exact_mod_cast (Int.mul_ediv_add_emod n 8).symm
  have e : (n : Rat) - 8 * ((n / 8 : Int) : Rat) = ((n % 8 : Int) : Rat) := by linarith
  rw [e]

/-! ### The correction -/

theorem correction_ok (s : Int) : ∃ n, correction s = .ok n ∧ n % 3 = 0 ∧ n ≤ 21 ∧ (s + n) % 8 = 0 ∧
    ∀ m : Nat, m % 3 = 0 → (s + m) % 8 = 0 → n ≤ m := by
  have h0 : 0 ≤ -s % 8 := Int.emod_nonneg _ (by norm_num)
  have h8 : -s % 8 < 8 := Int.emod_lt_of_pos _ (by norm_num)
  have hm : ∀ r : Int, -s % 8 = r → ∀ i, ((List.range 10).find? fun i => decide (((3 * i : Nat) : Int) % 8 = r)) =
      some i → correction s = .ok (3 * i) := by
    intro r hr i hi
    unfold correction
    rw [hr, hi]
  obtain ⟨r, hr⟩ : ∃ r, -s % 8 = r := ⟨_, rfl⟩
  have hh := hm r hr
  rw [hr] at h0 h8
  interval_cases r
  · exact ⟨3 * 0, hh 0 (by decide), by omega, by omega, by omega, by intro m; omega⟩
  · exact ⟨3 * 3, hh 3 (by decide), by omega, by omega, by omega, by intro m; omega⟩
  · exact ⟨3 * 6, hh 6 (by decide), by omega, by omega, by omega, by intro m; omega⟩
  · exact ⟨3 * 1, hh 1 (by decide), by omega, by omega, by omega, by intro m; omega⟩
  · exact ⟨3 * 4, hh 4 (by decide), by omega, by omega, by omega, by intro m; omega⟩
  · exact ⟨3 * 7, hh 7 (by decide), by omega, by omega, by omega, by intro m; omega⟩
  · exact ⟨3 * 2, hh 2 (by decide), by omega, by omega, by omega, by intro m; omega⟩
  · exact ⟨3 * 5, hh 5 (by decide), by omega, by omega, by omega, by intro m; omega⟩

end Verif.Zi
