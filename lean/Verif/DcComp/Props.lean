/-
C79: compensation pulses and decomposed long pulses.
-/
import Verif.DcComp.Spec
import Mathlib.Tactic.Ring
import Mathlib.Tactic.Linarith
import Mathlib.Tactic.FieldSimp
import Mathlib.Tactic.NormNum
import Mathlib.Algebra.Order.Floor.Ring

set_option linter.unusedSimpArgs false
set_option linter.unusedVariables false

namespace Verif.DcComp

open Spec

theorem onPort_iff (port : String) (i : Info) :
    (i.port == some port && i.clock == baseband) = decide (OnPort port i) := by
  unfold OnPort baseband
  by_cases h1 : i.port = some port <;> by_cases h2 : i.clock = "cl0.baseband" <;> simp [h1, h2]

theorem extract_eq (ops : List Op) (port : String) :
    extract ops port = (played ops).filter (fun i => decide (OnPort port i)) := by
  unfold extract played
  rw [List.filter_flatMap]
  simp only [onPort_iff]

theorem areaPulse_ok {rate : Rat} (hr : 0 < rate) {i : Info} (h : HasArea rate i) :
    ∃ n, areaPulse rate i = .ok (some (area rate i), n) := by
  unfold areaPulse area
  unfold HasArea at h
  rw [if_neg (by simpa using hr)]
  cases hw : i.wf with
  | square a => exact ⟨false, rfl⟩
  | none => rw [hw] at h; exact h.elim
  | sampled f => rw [hw] at h; exact ⟨true, by simp only [if_neg h]⟩

theorem areaPulses_ok {rate : Rat} (hr : 0 < rate) : ∀ (is : List Info) (x : Rat) (n : Bool),
    (∀ i ∈ is, HasArea rate i) →
    ∃ m, areaPulses rate is (some x, n) = .ok (some (x + (is.map (area rate)).sum), m)
  | [], x, n, _ => ⟨n, by simp [areaPulses]⟩
  | i :: is, x, n, h => by
    obtain ⟨m, hm⟩ := areaPulse_ok hr (h i (by simp))
    rw [areaPulses, hm]
    obtain ⟨m', hm'⟩ := areaPulses_ok hr is (x + area rate i) (n || m) (fun j hj => h j (by simp [hj]))
    refine ⟨m', ?_⟩
    simp only [addArea]
    rw [hm', List.map_cons, List.sum_cons, add_assoc]

theorem total_area {rate : Rat} (hr : 0 < rate) (ops : List Op) (port : String)
    (h : ∀ i ∈ played ops, OnPort port i → HasArea rate i) :
    ∃ m, areaPulses rate (extract ops port) (some 0, false) =
      .ok (some (total rate port (played ops)), m) := by
  obtain ⟨m, hm⟩ := areaPulses_ok hr (extract ops port) 0 false (by
    intro i hi
    rw [extract_eq, List.mem_filter] at hi
    exact h i hi.1 (by simpa using hi.2))
  refine ⟨m, ?_⟩
  rw [hm, zero_add, extract_eq]
  rfl

/-- The pulse, once the area is known. -/
theorem total_cons_onPort (rate : Rat) (port : String) (is : List Info) (amp dur t0 : Rat) :
    total rate port (is ++ [asInfo amp dur t0 port]) = total rate port is + amp * dur := by
  unfold total
  rw [List.filter_append, List.map_append, List.sum_append]
  have : (decide (OnPort port (asInfo amp dur t0 port))) = true := by simp [OnPort, asInfo]
  rw [List.filter_cons, if_pos this]
  simp [area, asInfo]

/-- **C79, duration given.** The pulse has this duration, is a baseband square pulse on the port, and with it the
total area on the port is zero. -/
theorem given_duration {ops : List Op} {rate d t0 : Rat} {port : String} {ref : Option Nat}
    (hne : ops ≠ []) (hr : 0 < rate) (hd : 0 < d)
    (h : ∀ i ∈ played ops, OnPort port i → HasArea rate i) :
    ∃ amp, create ops rate port t0 none ref (some d) =
        .ok ⟨.fin amp, .fin d, port, "cl0.baseband", none, t0⟩ ∧
      total rate port (played ops ++ [asInfo amp d t0 port]) = 0 := by
  obtain ⟨m, hm⟩ := total_area hr ops port h
  refine ⟨-(total rate port (played ops)) / d, ?_, ?_⟩
  · unfold create
    rw [if_neg (by simpa using hne), hm]
    simp [hd, ampFor, baseband]
  · rw [total_cons_onPort, div_mul_cancel₀ _ (ne_of_gt hd)]
    ring

/-- **C79, amplitude given.** Unless it is zero, the pulse has this amplitude up to the sign, its duration is not
negative and the shortest one with which, played with that amplitude, the total area on the port is zero. -/
theorem given_amplitude {ops : List Op} {rate m t0 : Rat} {port : String} {ref : Option Nat}
    (hne : ops ≠ []) (hr : 0 < rate) (hm : m ≠ 0)
    (h : ∀ i ∈ played ops, OnPort port i → HasArea rate i) :
    ∃ amp d, create ops rate port t0 (some m) ref none =
        .ok ⟨.fin amp, .fin d, port, "cl0.baseband", none, t0⟩ ∧ |amp| = |m| ∧ 0 ≤ d ∧
      total rate port (played ops ++ [asInfo amp d t0 port]) = 0 ∧
      (0 < total rate port (played ops) → amp < 0) ∧ (total rate port (played ops) < 0 → 0 < amp) ∧
      (∀ amp' d', |amp'| = |m| → 0 ≤ d' →
        total rate port (played ops ++ [asInfo amp' d' t0 port]) = 0 → d' = d) := by
  obtain ⟨n, hn⟩ := total_area hr ops port h
  set a := total rate port (played ops) with ha
  have hpos : 0 < |m| := abs_pos.mpr hm
  set s : Rat := if a > 0 then -|m| else |m| with hs
  have hs0 : s ≠ 0 := by rw [hs]; split <;> [exact neg_ne_zero.mpr (ne_of_gt hpos); exact ne_of_gt hpos]
  have habs : |s| = |m| := by rw [hs]; split <;> simp
  refine ⟨s, |a / s|, ?_, habs, abs_nonneg _, ?_, ?_, ?_, ?_⟩
  · unfold create
    rw [if_neg (by simpa using hne), hn]
    simp only [signed, ← hs, durFor, if_neg hs0, baseband]
  · rw [total_cons_onPort, ← ha, abs_div, habs]
    by_cases hp : a > 0
    · rw [hs, if_pos hp, abs_of_pos hp]; field_simp; ring
    · rw [hs, if_neg hp, abs_of_nonpos (not_lt.mp hp)]; field_simp; ring
  · intro hp; rw [hs, if_pos hp]; linarith
  · intro hp; rw [hs, if_neg (by linarith)]; exact hpos
  · intro amp' d' h1 h2 h3
    rw [total_cons_onPort, ← ha] at h3
    have : |a| = |m| * d' := by
      have : a = -(amp' * d') := by linarith
      rw [this, abs_neg, abs_mul, h1, abs_of_nonneg h2]
    rw [abs_div, habs, this]
    field_simp

/-- **C79, what is refused.** An empty list; an amplitude and a duration, or neither; a duration that is not
positive; a sampling rate that is not, if there is anything on the port. -/
theorem refused (ops : List Op) (rate t0 : Rat) (port : String) (ref : Option Nat) (amp dur : Option Rat) :
    create [] rate port t0 amp ref dur = .error .valueError ∧
    (0 < rate → (∀ i ∈ played ops, OnPort port i → HasArea rate i) → amp.isSome = dur.isSome →
      create ops rate port t0 amp ref dur = .error .valueError) ∧
    (0 < rate → (∀ i ∈ played ops, OnPort port i → HasArea rate i) → ∀ d, d ≤ 0 →
      create ops rate port t0 none ref (some d) = .error .valueError) ∧
    (rate ≤ 0 → (∃ i ∈ played ops, OnPort port i) →
      create ops rate port t0 amp ref dur = .error .valueError) := by
  refine ⟨by simp [create], ?_, ?_, ?_⟩
  · intro hr h hs
    by_cases hne : ops.length = 0
    · simp [create, hne]
    obtain ⟨m, hm⟩ := total_area hr ops port h
    unfold create
    rw [if_neg hne, hm]
    cases amp <;> cases dur <;> simp_all
  · intro hr h d hd
    by_cases hne : ops.length = 0
    · simp [create, hne]
    obtain ⟨m, hm⟩ := total_area hr ops port h
    unfold create
    rw [if_neg hne, hm]
    simp only
    rw [if_pos (by simpa using hd)]
  · rintro hr ⟨i, hi, hp⟩
    have hne : ops.length ≠ 0 := by
      intro h0
      rw [List.length_eq_zero_iff] at h0
      rw [h0] at hi
      simp [played] at hi
    unfold create
    rw [if_neg hne]
    have hx : extract ops port ≠ [] := by
      rw [extract_eq]
      intro h0
      have : i ∈ (played ops).filter (fun i => decide (OnPort port i)) :=
        List.mem_filter.mpr ⟨hi, by simpa using hp⟩
      rw [h0] at this
      simp at this
    cases he : extract ops port with
    | nil => exact absurd he hx
    | cons j js =>
      rw [areaPulses]
      unfold areaPulse
      rw [if_pos (by simpa using hr)]

/-- **C79, what is returned.** Whatever is returned is a baseband pulse on the port, at the given `t0`, with one of
amplitude and duration as given (the amplitude up to its sign). -/
theorem returned {ops : List Op} {rate t0 : Rat} {port : String} {ref : Option Nat} {amp dur : Option Rat}
    {s : Square} (h : create ops rate port t0 amp ref dur = .ok s) :
    s.port = port ∧ s.clock = "cl0.baseband" ∧ s.t0 = t0 ∧ ops ≠ [] ∧
    ((∃ d, 0 < d ∧ amp = none ∧ dur = some d ∧ s.dur = .fin d) ∨
     (∃ m x, amp = some m ∧ dur = none ∧ s.amp = .fin x ∧ |x| = |m|)) := by
  unfold create at h
  split at h
  · cases h
  rename_i hne
  have hne' : ops ≠ [] := by rintro rfl; simp at hne
  split at h
  · cases h
  rename_i a ha
  cases amp with
  | none =>
    cases dur with
    | none => cases h
    | some d =>
      simp only at h
      split at h
      · cases h
      · rename_i hd
        cases h
        exact ⟨rfl, rfl, rfl, hne', .inl ⟨d, by simpa using hd, rfl, rfl, rfl⟩⟩
  | some m =>
    cases dur with
    | some d => cases h
    | none =>
      simp only at h
      split at h
      · cases h
      · cases h
        refine ⟨rfl, rfl, rfl, hne', .inr ⟨m, _, rfl, rfl, rfl, ?_⟩⟩
        unfold signed
        split
        · split <;> simp
        · simp

/-- What is not on the port, or modulated, does not matter. -/
theorem others_ignored (ops ops' : List Op) (rate t0 : Rat) (port : String) (ref : Option Nat)
    (amp dur : Option Rat) (hne : ops ≠ []) (hne' : ops' ≠ [])
    (h : (played ops).filter (fun i => decide (OnPort port i)) =
      (played ops').filter (fun i => decide (OnPort port i))) :
    create ops rate port t0 amp ref dur = create ops' rate port t0 amp ref dur := by
  unfold create
  rw [if_neg (by simpa using hne), if_neg (by simpa using hne'), extract_eq, extract_eq, h]

/-! ### Deviations -/

/-- The `reference_magnitude` that the user gives is dropped: the pulse never has one. -/
theorem reference_dropped {ops : List Op} {rate t0 : Rat} {port : String} {ref ref' : Option Nat}
    {amp dur : Option Rat} :
    create ops rate port t0 amp ref dur = create ops rate port t0 amp ref' dur ∧
    ∀ s, create ops rate port t0 amp ref dur = .ok s → s.ref = none := by
  refine ⟨rfl, ?_⟩
  intro s h
  unfold create at h
  split at h
  · cases h
  split at h
  · cases h
  cases amp <;> cases dur <;> simp only at h
  · cases h
  · split at h <;> cases h; rfl
  · split at h <;> cases h; rfl
  · cases h

/-- Pulses in the body of a loop or conditional are not seen: two lists of operations that differ in these only
give the same pulse. -/
theorem bodies_ignored (ops ops' : List Op) (rate t0 : Rat) (port : String) (ref : Option Nat)
    (amp dur : Option Rat) (h : ops.map Op.infos = ops'.map Op.infos) :
    create ops rate port t0 amp ref dur = create ops' rate port t0 amp ref dur := by
  have hl : ops.length = ops'.length := by simpa using congrArg List.length h
  have he : extract ops port = extract ops' port := by
    have : ∀ l : List Op, extract l port =
        (l.map Op.infos).flatMap (List.filter (fun i => i.port == some port && i.clock == baseband)) := by
      intro l; unfold extract; rw [List.flatMap_map]
    rw [this, this, h]
  unfold create
  rw [hl, he]

/-- An offset or another operation without a waveform on the port is an `AttributeError`. -/
theorem offset_refused {ops : List Op} {rate t0 : Rat} (hr : 0 < rate) {port : String} {ref : Option Nat}
    {amp dur : Option Rat} {i : Info} (hi : i ∈ played ops) (hp : OnPort port i) (hw : i.wf = .none) :
    create ops rate port t0 amp ref dur = .error .attributeError := by
  have key : ∀ (l : List Info) (a : Area), i ∈ l → areaPulses rate l a = .error .attributeError := by
    intro l
    induction l with
    | nil => intro a h; simp at h
    | cons j l ih =>
      intro a h
      rw [areaPulses]
      by_cases hj : j.wf = .none
      · unfold areaPulse
        rw [if_neg (by simpa using hr), hj]
      · have hjl : i ∈ l := by
          rcases List.mem_cons.mp h with rfl | h
          · exact absurd hw hj
          · exact h
        have : ∃ b, areaPulse rate j = .ok b := by
          unfold areaPulse
          rw [if_neg (by simpa using hr)]
          cases hk : j.wf with
          | none => exact absurd hk hj
          | square a => exact ⟨_, rfl⟩
          | sampled f => simp only; split <;> exact ⟨_, rfl⟩
        obtain ⟨b, hb⟩ := this
        rw [hb]
        exact ih _ hjl
  have hne : ops.length ≠ 0 := by
    intro h0
    rw [List.length_eq_zero_iff] at h0
    rw [h0] at hi
    simp [played] at hi
  unfold create
  rw [if_neg hne, key _ _ (by rw [extract_eq]; exact List.mem_filter.mpr ⟨hi, by simpa using hp⟩)]

/-- An amplitude of zero: an exception if all waveforms are squares, otherwise a pulse of infinite duration, or one
whose duration is no number. -/
theorem zero_amplitude (dur r : Rat) (hd : 0 < dur) (ref : Option Nat) :
    create [⟨[⟨some "p", "cl0.baseband", 0, dur, .square r, none⟩], [], 0⟩] 1 "p" 0 (some 0) ref none =
      .error .zeroDivision ∧
    create [⟨[⟨some "p", "cl0.baseband", 0, dur, .sampled (fun _ => [1, 1]), none⟩], [], 0⟩] 1 "p" 0 (some 0)
      ref none = .ok ⟨.fin 0, .inf, "p", "cl0.baseband", none, 0⟩ ∧
    create [⟨[⟨some "p", "cl0.baseband", 0, dur, .sampled (fun _ => [1, -1]), none⟩], [], 0⟩] 1 "p" 0 (some 0)
      ref none = .ok ⟨.fin 0, .nan, "p", "cl0.baseband", none, 0⟩ := by
  refine ⟨?_, ?_, ?_⟩
  · simp [create, extract, areaPulses, areaPulse, addArea, durFor, signed, baseband]
  · have hd' : dur ≠ 0 := ne_of_gt hd
    have h2 : (1 + 1 : Rat) / 2 * dur ≠ 0 := by
      norm_num; exact hd'
    simp [create, extract, areaPulses, areaPulse, addArea, durFor, signed, baseband, h2, hd']
  · simp [create, extract, areaPulses, areaPulse, addArea, durFor, signed, baseband]

/-- A waveform without samples (a duration of zero) gives a pulse whose amplitude, or whose duration, is no number;
a given amplitude is taken to be positive. -/
theorem no_samples (ref : Option Nat) (d : Rat) (hd : 0 < d) (m : Rat) :
    create [⟨[⟨some "p", "cl0.baseband", 0, 0, .sampled (fun _ => []), none⟩], [], 0⟩] 1 "p" 0 none ref
      (some d) = .ok ⟨.nan, .fin d, "p", "cl0.baseband", none, 0⟩ ∧
    create [⟨[⟨some "p", "cl0.baseband", 0, 0, .sampled (fun _ => []), none⟩], [], 0⟩] 1 "p" 0 (some m) ref
      none = .ok ⟨.fin |m|, .nan, "p", "cl0.baseband", none, 0⟩ := by
  constructor
  · simp [create, extract, areaPulses, areaPulse, addArea, ampFor, baseband, hd]
  · by_cases hm : m = 0 <;>
      simp [create, extract, areaPulses, areaPulse, addArea, signed, durFor, baseband, hm]

/-! ### Long pulses -/

theorem quot_spec {x y : Rat} (hy : 0 < y) : (quot x y : Rat) * y ≤ x ∧ x < (quot x y + 1) * y := by
  unfold quot
  constructor
  · have := Int.floor_le (x / y)
    rwa [le_div_iff₀ hy] at this
  · have := Int.lt_floor_add_one (x / y)
    rwa [div_lt_iff₀ hy] at this

theorem rem_bounds {x y : Rat} (hy : 0 < y) : 0 ≤ rem x y ∧ rem x y < y := by
  obtain ⟨h1, h2⟩ := quot_spec (x := x) hy
  unfold rem
  constructor <;> linarith

theorem quot_nonneg {x y : Rat} (hx : 0 ≤ x) (hy : 0 < y) : 0 ≤ quot x y :=
  Int.floor_nonneg.mpr (div_nonneg hx hy.le)

/-- **C79, long pulses.** When a pulse is decomposed: into pieces of the maximal duration, but for the last, which
may be shorter unless `single_duration` is given; none is empty, the durations add up to that of the pulse, or with
`single_duration` to the least multiple of the maximal duration that is at least that. -/
theorem decomposed {duration max : Rat} {single : Bool} {l : List Rat}
    (h : decompose duration max single = .ok l) :
    0 < max ∧ max ≤ duration ∧ duration ≤ 604800 ∧ (∀ d ∈ l, 0 < d ∧ d ≤ max) ∧ (∀ d ∈ l.dropLast, d = max) ∧
    (single = false → l.sum = duration) ∧
    (single = true → (∀ d ∈ l, d = max) ∧ duration ≤ l.sum ∧ l.sum < duration + max) ∧
    duration / max ≤ l.length ∧ (l.length : Rat) < duration / max + 1 := by
  unfold decompose at h
  split at h
  · cases h
  rename_i h1
  split at h
  · cases h
  rename_i h2
  split at h
  · cases h
  rename_i h3
  simp only [not_not] at h1 h2
  have hmax : 0 < max := lt_of_le_of_ne h2.1 (Ne.symm h3)
  obtain ⟨r0, r1⟩ := rem_bounds (x := duration) hmax
  have hq := quot_nonneg h1.1 hmax
  have hn : (((quot duration max).toNat : Nat) : Rat) = (quot duration max : Rat) := by
    have : (((quot duration max).toNat : Nat) : Int) = quot duration max := Int.toNat_of_nonneg hq
    exact_mod_cast this
  have hdur : duration = (quot duration max : Rat) * max + rem duration max := by unfold rem; ring
  have hdiv : duration / max = (quot duration max : Rat) + rem duration max / max := by
    rw [div_eq_iff h3, add_mul, div_mul_cancel₀ _ h3]; exact hdur
  have hwk : duration ≤ 604800 := by have := h1.2; unfold week at this; linarith
  have r1' : rem duration max / max < 1 := by rw [div_lt_one hmax]; exact r1
  simp only [Except.ok.injEq] at h
  refine ⟨hmax, h2.2, hwk, ?_⟩
  split at h
  · rename_i hl
    have rpos : 0 < rem duration max := lt_of_le_of_ne r0 (Ne.symm hl)
    have r0' : 0 < rem duration max / max := div_pos rpos hmax
    subst h
    refine ⟨?_, ?_, ?_, ?_, ?_, ?_⟩
    · intro d hd
      rcases List.mem_append.mp hd with hd | hd
      · rw [List.eq_of_mem_replicate hd]; exact ⟨hmax, le_refl _⟩
      · rw [List.mem_singleton.mp hd]
        cases single
        · exact ⟨rpos, r1.le⟩
        · exact ⟨hmax, le_refl _⟩
    · intro d hd
      rw [List.dropLast_concat] at hd
      exact List.eq_of_mem_replicate hd
    · rintro rfl
      simp only [List.sum_append, List.sum_replicate, nsmul_eq_mul, hn]
      simp only [Bool.false_eq_true, if_false, List.sum_cons, List.sum_nil, add_zero]
      exact hdur.symm
    · rintro rfl
      refine ⟨?_, ?_, ?_⟩
      · intro d hd
        rcases List.mem_append.mp hd with hd | hd
        · exact List.eq_of_mem_replicate hd
        · simpa using List.mem_singleton.mp hd
      · simp only [List.sum_append, List.sum_replicate, nsmul_eq_mul, hn]
        simp only [if_true, List.sum_cons, List.sum_nil, add_zero]
        linarith
      · simp only [List.sum_append, List.sum_replicate, nsmul_eq_mul, hn]
        simp only [if_true, List.sum_cons, List.sum_nil, add_zero]
        linarith
    · simp only [List.length_append, List.length_replicate, List.length_singleton]
      push_cast
      rw [hn, hdiv]; linarith
    · simp only [List.length_append, List.length_replicate, List.length_singleton]
      push_cast
      rw [hn, hdiv]; linarith
  · rename_i hl
    have hl0 : rem duration max = 0 := by simpa using hl
    subst h
    have hsum : (List.replicate (quot duration max).toNat max).sum = duration := by
      simp only [List.sum_replicate, nsmul_eq_mul, hn]
      linarith
    refine ⟨?_, ?_, fun _ => hsum, fun _ => ⟨?_, ?_, ?_⟩, ?_, ?_⟩
    · intro d hd; rw [List.eq_of_mem_replicate hd]; exact ⟨hmax, le_refl _⟩
    · intro d hd; exact List.eq_of_mem_replicate (List.dropLast_subset _ hd)
    · intro d hd; exact List.eq_of_mem_replicate hd
    · rw [hsum]
    · rw [hsum]; linarith
    · rw [List.length_replicate, hn, hdiv, hl0]; simp
    · rw [List.length_replicate, hn, hdiv, hl0]; simp

theorem sum_nonneg : ∀ (l : List Rat), (∀ d ∈ l, 0 ≤ d) → 0 ≤ l.sum
  | [], _ => le_refl _
  | d :: l, h => by
    rw [List.sum_cons]
    exact add_nonneg (h d (by simp)) (sum_nonneg l (fun x hx => h x (by simp [hx])))

theorem signal_eq (amp : Rat) : ∀ (l : List Rat), (∀ d ∈ l, 0 ≤ d) → ∀ t,
    signal amp l t = if 0 ≤ t ∧ t < l.sum then amp else 0
  | [], _, t => by
    rw [signal, List.sum_nil, if_neg (by rintro ⟨h1, h2⟩; linarith)]
  | d :: l, h, t => by
    have hd := h d (by simp)
    have hs : 0 ≤ l.sum := sum_nonneg l (fun x hx => h x (by simp [hx]))
    rw [signal, signal_eq amp l (fun x hx => h x (by simp [hx])), List.sum_cons]
    by_cases h1 : t < 0
    · rw [if_pos h1, if_neg (by rintro ⟨h2, _⟩; linarith)]
    · by_cases h2 : t < d
      · rw [if_neg h1, if_pos h2, if_pos ⟨by linarith, by linarith⟩]
      · rw [if_neg h1, if_neg h2]
        by_cases h3 : t - d < l.sum
        · rw [if_pos ⟨by linarith, h3⟩, if_pos ⟨by linarith, by linarith⟩]
        · rw [if_neg (fun h => h3 h.2), if_neg (fun h => h3 (by linarith [h.2]))]

/-- **C79, long pulses.** Played one after the other the pieces are the long pulse: at every time the amplitude is
the same. -/
theorem decomposed_signal {duration max : Rat} {l : List Rat} (h : decompose duration max false = .ok l)
    (amp t : Rat) : signal amp l t = if 0 ≤ t ∧ t < duration then amp else 0 := by
  obtain ⟨_, _, _, h1, _, h2, _⟩ := decomposed h
  rw [signal_eq amp l (fun d hd => (h1 d hd).1.le), h2 rfl]

/-- A pulse is decomposed if its duration is at most a week and at least the maximal duration of a piece, which must
be positive. -/
theorem decomposes_iff (duration max : Rat) (single : Bool) : (∃ l, decompose duration max single = .ok l) ↔
    0 < max ∧ max ≤ duration ∧ duration ≤ 604800 := by
  constructor
  · rintro ⟨l, h⟩
    obtain ⟨h1, h2, h3, _⟩ := decomposed h
    exact ⟨h1, h2, h3⟩
  · rintro ⟨h1, h2, h3⟩
    unfold decompose
    rw [if_neg (by rw [not_not]; refine ⟨by linarith, ?_⟩; unfold week; linarith),
      if_neg (by rw [not_not]; exact ⟨h1.le, h2⟩), if_neg (ne_of_gt h1)]
    exact ⟨_, rfl⟩

/-- A pulse that is shorter than the maximal duration is refused, although nothing would have to be decomposed. -/
theorem short_refused {duration max : Rat} {single : Bool} (h0 : 0 ≤ duration) (h1 : duration ≤ 604800)
    (h : duration < max) : decompose duration max single = .error .valueError := by
  unfold decompose
  rw [if_neg (by rw [not_not]; refine ⟨h0, ?_⟩; unfold week; linarith), if_pos (by rintro ⟨_, h2⟩; linarith)]

/-! ### Cases -/

/-- A ramp of two samples, a square on the port, one on another port, one with a clock, and a loop. -/
def exOps : List Op :=
  [⟨[⟨some "q0:fl", "cl0.baseband", 0, 20, .sampled (fun _ => [0, 1]), none⟩], [], 0⟩,
   ⟨[⟨some "q0:fl", "cl0.baseband", 0, 40, .square (1 / 2), none⟩,
     ⟨some "q1:fl", "cl0.baseband", 0, 40, .square 7, none⟩], [], 0⟩,
   ⟨[⟨some "q0:fl", "q0.01", 0, 40, .square 3, none⟩], [], 0⟩,
   ⟨[], [⟨some "q0:fl", "cl0.baseband", 0, 40, .square 1, none⟩], 10⟩]

/-- The hypotheses of `given_duration` and `given_amplitude` are met. -/
theorem exOps_area : exOps ≠ [] ∧ ∀ i ∈ played exOps, OnPort "q0:fl" i → HasArea 1 i := by
  refine ⟨by simp [exOps], ?_⟩
  intro i hi _
  simp only [played, exOps, List.flatMap_cons, List.flatMap_nil, List.append_nil, List.cons_append,
    List.nil_append, List.mem_cons, List.not_mem_nil, or_false] at hi
  rcases hi with rfl | rfl | rfl | rfl <;> simp [HasArea]

theorem exOps_created :
    create exOps 1 "q0:fl" 0 none none (some 10) = .ok ⟨.fin (-3), .fin 10, "q0:fl", "cl0.baseband", none, 0⟩ ∧
    create exOps 1 "q0:fl" 0 (some 1) none none = .ok ⟨.fin (-1), .fin 30, "q0:fl", "cl0.baseband", none, 0⟩ := by
  constructor
  · simp [create, exOps, extract, areaPulses, areaPulse, addArea, ampFor, baseband]; norm_num
  · simp [create, exOps, extract, areaPulses, areaPulse, addArea, durFor, signed, baseband]; norm_num

theorem exDecomposed : decompose 200 16 false = .ok (List.replicate 12 16 ++ [8]) ∧
    decompose 200 16 true = .ok (List.replicate 13 16) ∧ decompose 200 50 false = .ok [50, 50, 50, 50] ∧
    decompose 10 0 false = .error .zeroDivision := by
  decide +kernel

end Verif.DcComp
