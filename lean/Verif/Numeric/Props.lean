/-
C26 (grid times), C28 (NCO arguments), C34 (amplitudes), C36 (frequencies), C37 (fine delays).
-/
import Verif.Numeric.Model
import Mathlib.Tactic.Linarith
import Mathlib.Tactic.FieldSimp
import Mathlib.Tactic.Ring
import Mathlib.Tactic.NormNum

set_option linter.unusedSimpArgs false
set_option linter.unusedVariables false

namespace Verif.Numeric

/-! ### Rounding -/

/-- `round` is within one half. -/
theorem pyRound_close (x : Rat) : |x - pyRound x| ≤ 1 / 2 := by
  have h1 := Int.floor_le x
  have h2 := Int.lt_floor_add_one x
  unfold pyRound
  split
  · rw [abs_le]; constructor <;> push_cast <;> linarith
  split
  · rw [abs_le]; constructor <;> push_cast <;> linarith
  split
  · rw [abs_le]; constructor <;> push_cast <;> linarith
  · rw [abs_le]; constructor <;> push_cast <;> linarith

/-- The integer nearer than one half is the rounded value. -/
theorem pyRound_unique {x : Rat} {n : Int} (h : |x - n| < 1 / 2) : pyRound x = n := by
  have h1 := pyRound_close x
  rw [abs_le] at h1
  rw [abs_lt] at h
  have h2 : ((pyRound x - n : Int) : Rat) < 1 := by push_cast; linarith [h1.1, h1.2, h.1, h.2]
  have h3 : (-1 : Rat) < ((pyRound x - n : Int) : Rat) := by
    push_cast; linarith [h1.1, h1.2, h.1, h.2]
  have h4 : pyRound x - n < 1 := by exact_mod_cast h2
  have h5 : -1 < pyRound x - n := by exact_mod_cast h3
  omega

theorem pyRound_int (n : Int) : pyRound (n : Rat) = n :=
  pyRound_unique (by simp)

/-- `round` is monotone. -/
theorem pyRound_mono {x y : Rat} (h : x ≤ y) : pyRound x ≤ pyRound y := by
  have hf : ⌊x⌋ ≤ ⌊y⌋ := Int.floor_le_floor h
  have hx : pyRound x ≤ ⌊x⌋ + 1 := by unfold pyRound; split_ifs <;> omega
  have hy : ⌊y⌋ ≤ pyRound y := by unfold pyRound; split_ifs <;> omega
  rcases lt_or_eq_of_le hf with hlt | heq
  · omega
  · unfold pyRound
    rw [heq]
    have : x - (⌊y⌋ : Rat) ≤ y - ⌊y⌋ := by linarith
    split_ifs <;> first | omega | (exfalso; linarith)

/-! ### C26 -/

/-- **C26.**  A time is accepted exactly when some multiple of the grid lies within 0.0011 ns of
it, and then that multiple is the result. -/
theorem grid_time_iff (time : Rat) (grid n : Int) :
    toGridTime time grid = .ok n ↔
      (∃ k : Int, n = k * grid) ∧ |time * 1000000000 - n| ≤ 11 / 10000 := by
  have hg : gridTolerance = 11 / 10000 := rfl
  rw [← hg]
  have hsmall : ∀ m : Int, |time * 1000000000 - m| ≤ gridTolerance →
      pyRound (time * 1000000000) = m := by
    intro m hm
    exact pyRound_unique (lt_of_le_of_lt hm (by rw [hg]; norm_num))
  unfold toGridTime
  constructor
  · intro h
    simp only at h
    split at h
    · cases h
    · rename_i hc
      simp only [not_or, not_not] at hc
      cases h
      refine ⟨?_, hc.1⟩
      obtain ⟨k, hk⟩ := Int.dvd_of_emod_eq_zero hc.2
      exact ⟨k, by rw [hk]; ring⟩
  · rintro ⟨⟨k, hk⟩, hd⟩
    have := hsmall n hd
    simp only
    rw [this, if_neg]
    simp only [not_or, not_not]
    exact ⟨hd, by rw [hk]; exact Int.mul_emod_left _ _⟩

/-- **C26, rejection.**  Any other time is a `ValueError`. -/
theorem grid_time_rejected (time : Rat) (grid : Int)
    (h : ∀ k : Int, 11 / 10000 < |time * 1000000000 - (k * grid : Int)|) :
    toGridTime time grid = .error .valueError := by
  cases hr : toGridTime time grid with
  | error e => cases e; rfl
  | ok n =>
    obtain ⟨⟨k, rfl⟩, hd⟩ := (grid_time_iff time grid n).mp hr
    exact absurd hd (not_le.mpr (h k))

/-- **C26, monotone**: later times never get an earlier grid time. -/
theorem grid_time_mono {s t : Rat} {grid m n : Int} (h : s ≤ t) (hs : toGridTime s grid = .ok m)
    (ht : toGridTime t grid = .ok n) : m ≤ n := by
  have key : ∀ (u : Rat) (k : Int), toGridTime u grid = .ok k →
      k = pyRound (u * 1000000000) := by
    intro u k hu
    unfold toGridTime at hu
    simp only at hu
    split at hu
    · cases hu
    · cases hu; rfl
  rw [key s m hs, key t n ht]
  exact pyRound_mono (by linarith)

/-- **C26**: `is_multiple_of_grid_time` says whether the conversion succeeds. -/
theorem is_multiple_iff (time : Rat) (grid : Int) :
    isMultipleOfGridTime time grid = true ↔ ∃ n, toGridTime time grid = .ok n := by
  unfold isMultipleOfGridTime
  cases toGridTime time grid with
  | ok n => simp
  | error e => simp

/-- Finding: acceptance is not closed under addition; two times accepted as 4 ns each add up to a
time that is rejected. -/
theorem grid_time_not_additive : ∃ t : Rat, toGridTime t 4 = .ok 4 ∧
    toGridTime (t + t) 4 = .error .valueError := by
  refine ⟨4001 / 1000000000000, (grid_time_iff _ _ _).mpr ⟨⟨1, rfl⟩, by norm_num⟩, ?_⟩
  apply grid_time_rejected
  intro k
  rcases le_or_gt k 2 with h | h
  · have hk : (k : Rat) ≤ 2 := by exact_mod_cast h
    rw [lt_abs]; left; push_cast; norm_num; linarith
  · have hk : (3 : Rat) ≤ k := by exact_mod_cast h
    rw [lt_abs]; right; push_cast; norm_num; linarith

/-- Non-vacuity: 20.0005 ns on a 4 ns grid is 20 ns; 20.5 ns and 22 ns are rejected. -/
example : toGridTime (200005 / 10000000000000) 4 = .ok 20 ∧
    toGridTime (205 / 10000000000) 4 = .error .valueError ∧
    toGridTime (22 / 1000000000) 4 = .error .valueError := by
  decide +kernel

/-! ### C28 -/

/-- `pyMod` with positive modulus. -/
theorem pyMod_range (x : Rat) {m : Rat} (hm : 0 < m) :
    0 ≤ pyMod x m ∧ pyMod x m < m ∧ ∃ k : Int, x = pyMod x m + k * m := by
  have h1 := Int.floor_le (x / m)
  have h2 := Int.lt_floor_add_one (x / m)
  rw [le_div_iff₀ hm] at h1
  rw [div_lt_iff₀ hm] at h2
  unfold pyMod
  refine ⟨by linarith, by linarith, ⌊x / m⌋, by ring⟩

/-- **C28, phase.**  The argument lies in `[0, 10^9]` and denotes the requested phase, up to whole
turns, within half a step (a step is `360 / 10^9` degrees). -/
theorem nco_phase (deg : Rat) :
    0 ≤ ncoPhase deg ∧ ncoPhase deg ≤ 1000000000 ∧
    ∃ k : Int, |(deg - k * 360) - ncoPhase deg * (360 / 1000000000)| ≤
      (360 / 1000000000) / 2 := by
  obtain ⟨h0, h1, k, hk⟩ := pyMod_range deg (m := 360) (by norm_num)
  have hc := pyRound_close (pyMod deg 360 * (1000000000 / 360))
  refine ⟨?_, ?_, k, ?_⟩
  · have := pyRound_mono (x := ((0 : Int) : Rat)) (y := pyMod deg 360 * (1000000000 / 360))
      (by push_cast; linarith)
    rw [pyRound_int] at this
    exact this
  · have := pyRound_mono (y := ((1000000000 : Int) : Rat))
      (x := pyMod deg 360 * (1000000000 / 360)) (by push_cast; linarith)
    rw [pyRound_int] at this
    exact this
  · unfold ncoPhase
    have : deg - k * 360 = pyMod deg 360 := by linarith
    rw [this, abs_le] at *
    obtain ⟨h2, h3⟩ := hc
    constructor <;> linarith

/-- **C28, phase, turns do not matter.** -/
theorem nco_phase_periodic (deg : Rat) (k : Int) : ncoPhase (deg + k * 360) = ncoPhase deg := by
  have : pyMod (deg + k * 360) 360 = pyMod deg 360 := by
    unfold pyMod
    rw [add_div, mul_div_cancel_right₀ _ (by norm_num), Int.floor_add_intCast]
    push_cast
    ring
  unfold ncoPhase
  rw [this]

/-- Finding: a phase just below a full turn gives the argument `10^9` instead of 0, although the
two denote the same phase. -/
theorem nco_phase_full_turn : ncoPhase (3599999999 / 10000000) = 1000000000 ∧ ncoPhase 360 = 0 := by
  decide +kernel

/-- **C28, frequency.**  An accepted frequency is within half a step (1/8 Hz) of what the argument
denotes, and the argument is within the hardware range; a frequency is rejected only if it is not
within half a step of that range. -/
theorem nco_freq (hz : Rat) :
    (∀ n, ncoFreq hz = .ok n → |hz - n / 4| ≤ 1 / 8 ∧ -2000000000 ≤ n ∧ n ≤ 2000000000) ∧
    (|hz| ≤ 500000000 → ∃ n, ncoFreq hz = .ok n) ∧
    (500000000 + 1 / 8 < |hz| → ncoFreq hz = .error .valueError) := by
  have hc := pyRound_close (hz * 4)
  rw [abs_le] at hc
  refine ⟨?_, ?_, ?_⟩
  · intro n h
    unfold ncoFreq at h
    simp only at h
    split at h
    · cases h
    · rename_i hr
      cases h
      refine ⟨?_, by omega, by omega⟩
      rw [abs_le]
      constructor <;> linarith
  · intro h
    rw [abs_le] at h
    unfold ncoFreq
    simp only
    rw [if_neg]
    · exact ⟨_, rfl⟩
    · have h1 := pyRound_mono (x := ((-2000000000 : Int) : Rat)) (y := hz * 4)
        (by push_cast; linarith)
      have h2 := pyRound_mono (y := ((2000000000 : Int) : Rat)) (x := hz * 4)
        (by push_cast; linarith)
      rw [pyRound_int] at h1 h2
      omega
  · intro h
    unfold ncoFreq
    simp only
    rw [if_pos]
    rcases lt_abs.mp h with h | h
    · right
      have : (2000000000 : Rat) < ((pyRound (hz * 4) : Int) : Rat) := by linarith
      exact_mod_cast this
    · left
      have : ((pyRound (hz * 4) : Int) : Rat) < ((-2000000000 : Int) : Rat) := by
        push_cast; linarith
      exact_mod_cast this

/-- Non-vacuity. -/
example : ncoFreq 123456789 = .ok 493827156 ∧ ncoFreq (-500000000) = .ok (-2000000000) ∧
    ncoFreq 500000001 = .error .valueError ∧ ncoPhase (-90) = 750000000 := by decide +kernel

/-! ### C34 -/

/-- **C34.**  With 16-bit immediates, a value is accepted exactly when it is in `[-1, 1]`; the
result is a signed 16-bit integer within half a step of the value, except that values above
`1 - 1/65536` are clipped to the largest integer (error at most one step). -/
theorem amplitude_range (val : Rat) :
    (|val| ≤ 1 ↔ ∃ n, expandAwg val 65536 = .ok n) ∧
    ∀ n, expandAwg val 65536 = .ok n → -32768 ≤ n ∧ n ≤ 32767 ∧ |val * 32768 - n| ≤ 1 ∧
      (val ≤ 1 - 1 / 65536 → |val * 32768 - n| ≤ 1 / 2) := by
  have hv : expandAwg val 65536 = if |val| > 1 then .error .valueError
      else .ok (max (-32768) (min (pyRound (val * 32768)) 32767)) := by
    unfold expandAwg
    norm_num
  have hc := pyRound_close (val * 32768)
  rw [hv]
  constructor
  · constructor
    · intro h
      rw [if_neg (not_lt.mpr h)]
      exact ⟨_, rfl⟩
    · rintro ⟨n, h⟩
      split at h
      · cases h
      · rename_i h'
        exact not_lt.mp h'
  · intro n h
    split at h
    · cases h
    · rename_i h'
      have hle := abs_le.mp (not_lt.mp h')
      cases h
      have h1 := pyRound_mono (x := ((-32768 : Int) : Rat)) (y := val * 32768)
        (by push_cast; linarith)
      have h2 := pyRound_mono (y := ((32768 : Int) : Rat)) (x := val * 32768)
        (by push_cast; linarith)
      rw [pyRound_int] at h1 h2
      rw [abs_le] at hc
      refine ⟨by omega, by omega, ?_, ?_⟩
      · rcases Int.lt_or_eq_of_le h2 with hlt | heq
        · rw [show max (-32768) (min (pyRound (val * 32768)) 32767) = pyRound (val * 32768) by
            omega, abs_le]
          constructor <;> linarith
        · rw [heq] at hc ⊢
          rw [show max (-32768 : Int) (min 32768 32767) = 32767 by decide, abs_le]
          push_cast at hc ⊢
          constructor <;> linarith
      · intro hv
        rcases Int.lt_or_eq_of_le h2 with hlt | heq
        · rw [show max (-32768) (min (pyRound (val * 32768)) 32767) = pyRound (val * 32768) by
            omega, abs_le]
          exact ⟨by linarith, by linarith⟩
        · rw [heq] at hc ⊢
          rw [show max (-32768 : Int) (min 32768 32767) = 32767 by decide, abs_le]
          push_cast at hc ⊢
          constructor <;> linarith

/-- **C34, monotone** for every immediate size. -/
theorem amplitude_mono {v w : Rat} {size m n : Int} (hs : 0 ≤ size) (h : v ≤ w)
    (hv : expandAwg v size = .ok m) (hw : expandAwg w size = .ok n) : m ≤ n := by
  unfold expandAwg at hv hw
  split at hv
  · cases hv
  split at hw
  · cases hw
  cases hv
  cases hw
  have hnn : (0 : Rat) ≤ ((size / 2 : Int) : Rat) := by
    have : 0 ≤ size / 2 := Int.ediv_nonneg hs (by decide)
    exact_mod_cast this
  have := pyRound_mono (mul_le_mul_of_nonneg_right h hnn)
  omega

example : expandAwg 1 65536 = .ok 32767 ∧ expandAwg (-1) 65536 = .ok (-32768) ∧
    expandAwg (1 / 2) 65536 = .ok 16384 ∧ expandAwg (11 / 10) 65536 = .error .valueError := by
  decide +kernel

/-! ### C37 -/

/-- **C37.**  An accepted fine delay is an 11-bit integer within half a step (1/256 ns) of the
delay; every delay from 0 to 2047/128 ns is accepted, and nothing more than half a step outside. -/
theorem fine_delay (d : Rat) :
    (∀ n, fineDelay d = .ok n → 0 ≤ n ∧ n ≤ 2047 ∧ |d * 1000000000 - n / 128| ≤ 1 / 256) ∧
    (0 ≤ d → d * 1000000000 ≤ 2047 / 128 → ∃ n, fineDelay d = .ok n) ∧
    (d * 1000000000 < -1 / 256 ∨ 2047 / 128 + 1 / 256 < d * 1000000000 →
      fineDelay d = .error .valueError) := by
  have hc := pyRound_close (d * 128000000000)
  rw [abs_le] at hc
  have hmax : ∀ n : Int, ((n : Rat) ≤ 2047 / 128 * 128 ↔ n ≤ 2047) := by
    intro n
    constructor
    · intro h
      have : (n : Rat) ≤ ((2047 : Int) : Rat) := by push_cast; linarith
      exact_mod_cast this
    · intro h
      have : (n : Rat) ≤ ((2047 : Int) : Rat) := by exact_mod_cast h
      push_cast at this; linarith
  refine ⟨?_, ?_, ?_⟩
  · intro n h
    unfold fineDelay at h
    simp only [hmax] at h
    split at h
    · cases h
    · rename_i h'
      rw [not_not] at h'
      cases h
      refine ⟨h'.1, h'.2, ?_⟩
      rw [abs_le]
      constructor <;> linarith
  · intro h0 h1
    have a := pyRound_mono (x := ((0 : Int) : Rat)) (y := d * 128000000000) (by push_cast; linarith)
    have b := pyRound_mono (y := ((2047 : Int) : Rat)) (x := d * 128000000000)
      (by push_cast; linarith)
    rw [pyRound_int] at a b
    unfold fineDelay
    simp only [hmax]
    rw [if_neg (by rw [not_not]; exact ⟨a, b⟩)]
    exact ⟨_, rfl⟩
  · intro h
    unfold fineDelay
    simp only [hmax]
    rw [if_pos]
    rintro ⟨a, b⟩
    have a' : (0 : Rat) ≤ ((pyRound (d * 128000000000) : Int) : Rat) := by exact_mod_cast a
    have b' : ((pyRound (d * 128000000000) : Int) : Rat) ≤ ((2047 : Int) : Rat) := by
      exact_mod_cast b
    push_cast at b'
    rcases h with h | h <;> linarith

/-! ### C36 -/

/-- The clock frequency the module has to produce: as given, or mirrored by the downconverter. -/
def effectiveClock (clock : Rat) (dc : Option Rat) : Rat :=
  match dc with
  | none => clock
  | some d => d - clock

theorem complete_mixed (c : Rat) (lo fi : Option Rat) : completeFreqs c lo fi true =
    match lo, fi with
    | none, none => .error .valueError
    | some l, some i => if isClose (l + i) c then .ok ⟨c, l, i⟩ else .error .valueError
    | none, some i => .ok ⟨c, c - i, i⟩
    | some l, none => .ok ⟨c, l, c - l⟩ := rfl

theorem complete_unmixed (c : Rat) (lo fi : Option Rat) : completeFreqs c lo fi false =
    match fi with
    | none => .error .valueError
    | some i => .ok ⟨c, c, i⟩ := rfl

/-- A missing or admissible downconverter. -/
def dcOk (clock : Rat) (dc : Option Rat) : Prop :=
  match dc with
  | none => True
  | some d => 0 ≤ d ∧ clock ≤ d

/-- **C36.**  With mixing, exactly the admissible settings are accepted: a frequency given by the
user is kept, and the oscillators add up to the clock -- exactly, or up to a relative 1e-9 when
both were given. -/
theorem freqs_mixed (clock : Rat) (lo fi dc : Option Rat) (f : Freqs) :
    determineFreqs clock lo fi dc true = .ok f ↔
      dcOk clock dc ∧ f.clock = effectiveClock clock dc ∧
      (∀ l, lo = some l → f.lo = l) ∧ (∀ i, fi = some i → f.fi = i) ∧
      (lo.isSome ∨ fi.isSome) ∧
      (lo = none ∨ fi = none → f.lo + f.fi = f.clock) ∧
      (lo.isSome ∧ fi.isSome →
        |f.lo + f.fi - f.clock| ≤ 1 / 1000000000 * max |f.lo + f.fi| |f.clock|) := by
  have hdc : ∀ c, downconvert dc clock = .ok c ↔ dcOk clock dc ∧ c = effectiveClock clock dc := by
    intro c
    unfold downconvert dcOk effectiveClock
    cases dc with
    | none => simp [eq_comm]
    | some d =>
      simp only
      split_ifs with h1 h2
      · constructor
        · intro h; cases h
        · rintro ⟨⟨h, _⟩, _⟩; linarith
      · constructor
        · intro h; cases h
        · rintro ⟨⟨_, h⟩, _⟩; linarith
      · constructor
        · intro h; cases h; exact ⟨⟨not_lt.mp h1, not_lt.mp h2⟩, rfl⟩
        · rintro ⟨_, rfl⟩; rfl
  obtain ⟨fc, fl, ff⟩ := f
  unfold determineFreqs
  cases hd : downconvert dc clock with
  | error e =>
    simp only [Except.bind]
    constructor
    · intro h; cases h
    · rintro ⟨h, _⟩
      have := (hdc (effectiveClock clock dc)).mpr ⟨h, rfl⟩
      rw [hd] at this
      cases this
  | ok c =>
    obtain ⟨h1, h2⟩ := (hdc c).mp hd
    rw [← h2]
    clear hd h2 hdc
    obtain ⟨e, he⟩ : ∃ e, e = c := ⟨_, rfl⟩
    rw [← he]
    clear he
    have hb : (Except.ok e : Except Err Rat).bind (fun c => completeFreqs c lo fi true) =
      completeFreqs e lo fi true := rfl
    rw [hb]
    rw [complete_mixed]
    simp only [h1, true_and]
    cases lo with
    | none =>
      cases fi with
      | none => simp
      | some i =>
        simp only [Except.ok.injEq, Freqs.mk.injEq]
        constructor
        · rintro ⟨rfl, rfl, rfl⟩; simp
        · rintro ⟨h1, _, h2, _, h3, _⟩
          have h2 := h2 i rfl
          have h3 := h3 (by simp)
          refine ⟨h1.symm, ?_, h2.symm⟩
          rw [← h1, ← h2, ← h3]; ring
    | some l =>
      cases fi with
      | none =>
        simp only [Except.ok.injEq, Freqs.mk.injEq]
        constructor
        · rintro ⟨rfl, rfl, rfl⟩; simp
        · rintro ⟨h1, h2, _, _, h3, _⟩
          have h2 := h2 l rfl
          have h3 := h3 (by simp)
          refine ⟨h1.symm, h2.symm, ?_⟩
          rw [← h1, ← h2, ← h3]; ring
      | some i =>
        simp only [isClose, decide_eq_true_eq]
        constructor
        · intro h
          split at h
          · rename_i hc
            cases h
            simp only [Option.some.injEq]
            refine ⟨trivial, fun _ h => h, fun _ h => h, by simp, by simp, fun _ => hc⟩
          · cases h
        · rintro ⟨h1, h2, h3, _, _, h4⟩
          have h2 := h2 l rfl
          have h3 := h3 i rfl
          have h4 := h4 (by simp)
          rw [h1, h2, h3] at h4
          rw [if_pos h4, h1, h2, h3]

/-- **C36, without mixing** the local oscillator is the clock itself, whatever the user gave, and
the intermediate frequency must be given. -/
theorem freqs_unmixed (clock : Rat) (lo fi dc : Option Rat) (f : Freqs)
    (h : determineFreqs clock lo fi dc false = .ok f) :
    f.clock = effectiveClock clock dc ∧ f.lo = f.clock ∧ fi = some f.fi := by
  unfold determineFreqs at h
  cases hd : downconvert dc clock with
  | error e => rw [hd] at h; cases h
  | ok c =>
    rw [hd] at h
    have hb : (Except.ok c : Except Err Rat).bind (fun c => completeFreqs c lo fi false) =
      completeFreqs c lo fi false := rfl
    rw [hb] at h
    rw [complete_unmixed] at h
    have hc : c = effectiveClock clock dc := by
      unfold downconvert at hd
      unfold effectiveClock
      cases dc with
      | none => cases hd; rfl
      | some d =>
        simp only at hd ⊢
        split_ifs at hd
        cases hd
        rfl
    cases fi with
    | none => cases h
    | some i => cases h; exact ⟨hc, rfl, rfl⟩

example : determineFreqs 5000000000 none (some 100000000) none true =
      .ok ⟨5000000000, 4900000000, 100000000⟩ ∧
    determineFreqs 5000000000 (some 1) (some 1) none true = .error .valueError ∧
    determineFreqs 5000000000 (some 2000000000) none (some 8000000000) true =
      .ok ⟨3000000000, 2000000000, 1000000000⟩ := by
  decide +kernel

end Verif.Numeric
