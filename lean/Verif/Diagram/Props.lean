/-
What pulse diagrams show.
-/
import Verif.Diagram.Curve
import Verif.Table.Props
import Mathlib.Tactic.NormNum

namespace Verif.Diagram

open Spec
open Verif.Table (Op Items Row Info Lists plays_unique)
open Verif.Table.Spec

set_option linter.unusedSimpArgs false
set_option linter.unusedVariables false

/-! ### Pulses -/

/-- The points of a pulse of `n` samples that starts at `a`. -/
def pulsePoints (rate a : Rat) (f : Rat → C) (n : Nat) : Points :=
  (a - 1 / 100 / rate, (0, 0)) ::
    ((List.range n).map (fun (k : Nat) => (a + (k : Rat) / rate, f ((k : Rat) / rate))) ++
      [(a + ((n - 1 : Nat) : Rat) / rate + 99 / 100 / rate, f (((n - 1 : Nat) : Rat) / rate + 99 / 100 / rate)),
        (a + ((n - 1 : Nat) : Rat) / rate + 99 / 100 / rate + 1 / 100 / rate, (0, 0))])

theorem curve_eq (rate a : Rat) (n : Nat) (f : Rat → C) : curve rate a n f = pulsePoints rate a f n := by
  unfold curve pulsePoints
  simp [Function.comp_def, add_sub_cancel_left, add_assoc]

theorem pulsePoints_inc {rate a : Rat} (f : Rat → C) {n : Nat} (hr : 0 < rate) (hn : 0 < n) : Inc (pulsePoints rate a f n) := by
  have hd : ∀ x : Rat, 0 < x → 0 < x / rate := fun x hx => div_pos hx hr
  have h1 := hd (1 / 100) (by norm_num)
  have h2 := hd (99 / 100) (by norm_num)
  have hm : ∀ i j : Nat, i < j → (i : Rat) / rate < (j : Rat) / rate := fun i j hij =>
    (div_lt_div_iff_of_pos_right hr).mpr (by exact_mod_cast hij)
  have hle : ∀ i j : Nat, i ≤ j → (i : Rat) / rate ≤ (j : Rat) / rate := fun i j hij =>
    (div_le_div_iff_of_pos_right hr).mpr (by exact_mod_cast hij)
  have h0 : ∀ i : Nat, (0 : Rat) ≤ (i : Rat) / rate := fun i => by
    have := hle 0 i (Nat.zero_le _)
    simpa using this
  unfold Inc pulsePoints
  rw [List.pairwise_cons, List.pairwise_append]
  refine ⟨?_, ?_, ?_, ?_⟩
  · intro p hp
    rcases List.mem_append.mp hp with hp | hp
    · obtain ⟨k, _, rfl⟩ := List.mem_map.mp hp
      have := h0 k
      simp only
      linarith
    · have := h0 (n - 1)
      simp only [List.mem_cons, List.not_mem_nil, or_false] at hp
      rcases hp with rfl | rfl <;> simp only <;> linarith
  · rw [List.pairwise_map]
    refine List.pairwise_lt_range.imp fun {i j} hij => ?_
    have := hm i j hij
    simp only
    linarith
  · simp only [List.pairwise_cons, List.mem_cons, List.not_mem_nil, or_false, forall_eq, false_implies, implies_true,
      List.Pairwise.nil, and_true]
    linarith
  · intro p hp q hq
    obtain ⟨k, hk, rfl⟩ := List.mem_map.mp hp
    have := hle k (n - 1) (by have := List.mem_range.mp hk; omega)
    simp only [List.mem_cons, List.not_mem_nil, or_false] at hq
    rcases hq with rfl | rfl <;> simp only <;> linarith

theorem ends_pulsePoints (rate a : Rat) (f : Rat → C) {n : Nat} (hn : 0 < n) : ends (pulsePoints rate a f n) =
    [(a - 1 / 100 / rate, (0, 0)), (a, f 0),
      (a + ((n - 1 : Nat) : Rat) / rate + 99 / 100 / rate, f (((n - 1 : Nat) : Rat) / rate + 99 / 100 / rate)),
      (a + ((n - 1 : Nat) : Rat) / rate + 99 / 100 / rate + 1 / 100 / rate, (0, 0))] := by
  obtain ⟨m, rfl⟩ : ∃ m, n = m + 1 := ⟨n - 1, by omega⟩
  unfold ends pulsePoints
  rw [List.range_succ_eq_map]
  simp only [List.map_cons, List.cons_append, List.take_succ_cons, List.take_zero, List.length_cons, List.length_append,
    List.length_map, List.length_range, List.length_nil, List.map_map]
  have : m + (0 + 1 + 1) + 1 + 1 - 2 = m + 2 := by omega
  rw [this, List.drop_succ_cons, List.drop_succ_cons, List.drop_append_of_le_length (by simp)]
  rw [List.drop_of_length_le (by simp)]
  simp

/-- The number of samples of a whole pulse. -/
theorem ceil_samples {rate a d : Rat} (hr : 0 < rate) {n : Nat} (hd : d * rate = n) (hn : 0 < n) :
    ⌈(a + d - 1 / 2 / rate - a) * rate⌉.toNat = n := by
  have h : (a + d - 1 / 2 / rate - a) * rate = n - 1 / 2 := by
    have : rate ≠ 0 := ne_of_gt hr
    field_simp
    rw [← hd]
    ring
  have h2 : ⌈(n : Rat) - 1 / 2⌉ = n := by
    rw [Int.ceil_eq_iff]
    push_cast
    constructor <;> linarith
  rw [h, h2]
  simp

/-- A pulse that is not cut by the limits. -/
theorem samplePulse_whole {rate start duration : Rat} {lo hi : Option Rat} (linear : Bool) (f : Rat → C) {n : Nat} (hr : 0 < rate)
    (hd : duration * rate = n) (hn : 0 < n) (hlo : ∀ x, lo = some x → x ≤ start) (hhi : ∀ x, hi = some x → start + duration ≤ x) :
    samplePulse rate lo hi start duration linear f =
      some (if linear then ends (pulsePoints rate start f n) else pulsePoints rate start f n) := by
  have hdur : 0 < duration := by
    by_contra hc
    have : duration * rate ≤ 0 := mul_nonpos_of_nonpos_of_nonneg (not_lt.mp hc) (le_of_lt hr)
    rw [hd] at this
    have : (0 : Rat) < n := by exact_mod_cast hn
    linarith
  have hA : left lo start = start := by
    unfold left
    cases lo with
    | none => rfl
    | some x => exact max_eq_right (hlo x rfl)
  have hB : right hi (start + duration) = start + duration := by
    unfold right
    cases hi with
    | none => rfl
    | some x => exact min_eq_right (hhi x rfl)
  have hC : ((lo.any fun x => decide (start + duration < x)) || (hi.any fun x => decide (x < start))) = false := by
    rw [Bool.or_eq_false_iff]
    constructor
    · cases lo with
      | none => rfl
      | some x => have := hlo x rfl; simp; linarith
    · cases hi with
      | none => rfl
      | some x => have := hhi x rfl; simp; linarith
  unfold samplePulse
  simp only [hA, hB, hC, ceil_samples hr hd hn, curve_eq, Bool.false_eq_true, if_false, Nat.pos_iff_ne_zero.mp hn]

theorem stop_eq {rate start duration : Rat} {n : Nat} (hr : 0 < rate) (hd : duration * rate = n) (hn : 0 < n) :
    start + ((n - 1 : Nat) : Rat) / rate + 99 / 100 / rate + 1 / 100 / rate = start + duration := by
  have h1 : ((n - 1 : Nat) : Rat) = n - 1 := by
    rw [Nat.cast_sub hn]; simp
  have h2 : duration = n / rate := by rw [← hd]; field_simp
  rw [h1, h2]
  field_simp
  ring

/-- **A whole pulse is drawn with its values at its samples, and 0 before and after it.**  (No limit of the diagram is
within the pulse or after its start; the waveform function is one that is drawn with all of its samples.) -/
theorem pulse_value_partial {rate start duration : Rat} {lo hi : Option Rat} {f : Rat → C} {n : Nat} (hr : 0 < rate)
    (hd : duration * rate = n) (hn : 0 < n) (hlo : ∀ x, lo = some x → x ≤ start) (hhi : ∀ x, hi = some x → start + duration ≤ x) :
    ∃ pts, samplePulse rate lo hi start duration false f = some pts ∧
      (∀ k : Nat, k < n → value pts (start + (k : Rat) / rate) = f ((k : Rat) / rate)) ∧
      (∀ x, x < start - 1 / 100 / rate ∨ start + duration < x → value pts x = (0, 0)) ∧
      value pts (start + duration) = (0, 0) := by
  have hs := samplePulse_whole false f hr hd hn hlo hhi
  simp only [Bool.false_eq_true, if_false] at hs
  have hstop := stop_eq (start := start) hr hd hn
  have hinc := pulsePoints_inc (a := start) f hr hn
  refine ⟨_, hs, ?_, ?_, ?_⟩
  · intro k hk
    refine value_at hinc ?_
    unfold pulsePoints
    refine List.mem_cons_of_mem _ (List.mem_append_left _ (List.mem_map.mpr ⟨k, List.mem_range.mpr hk, rfl⟩))
  · intro x hx
    have hall : ∀ p ∈ pulsePoints rate start f n, start - 1 / 100 / rate ≤ p.1 ∧ p.1 ≤ start + duration := by
      intro p hp
      constructor
      · unfold pulsePoints at hp hinc
        rcases List.mem_cons.mp hp with rfl | hp
        · exact le_rfl
        · exact le_of_lt (hinc.head p hp)
      · rw [← hstop]
        have hl : pulsePoints rate start f n = ((start - 1 / 100 / rate, (0, 0)) ::
            ((List.range n).map (fun (k : Nat) => (start + (k : Rat) / rate, f ((k : Rat) / rate))) ++
            [(start + ((n - 1 : Nat) : Rat) / rate + 99 / 100 / rate, f (((n - 1 : Nat) : Rat) / rate + 99 / 100 / rate))])) ++
            [(start + ((n - 1 : Nat) : Rat) / rate + 99 / 100 / rate + 1 / 100 / rate, (0, 0))] := by
          simp [pulsePoints]
        rw [hl] at hp hinc
        rcases List.mem_append.mp hp with hp | hp
        · exact le_of_lt ((List.pairwise_append.mp hinc).2.2 p hp _ (List.mem_singleton.mpr rfl))
        · simp only [List.mem_singleton] at hp
          rw [hp]
    rcases hx with hx | hx
    · exact value_before fun p hp => by have := hall p hp; linarith
    · exact value_after fun p hp => by have := hall p hp; linarith
  · refine value_at hinc ?_
    rw [← hstop]
    simp [pulsePoints]

/-- **Pulses drawn with four points only** (`square` and `ramp`): the curve is the waveform, which is a straight line, at
all times up to 0.01 samples before the end. -/
theorem linear_value_partial {rate start duration : Rat} {lo hi : Option Rat} {u v : C} {n : Nat} (hr : 0 < rate)
    (hd : duration * rate = n) (hn : 0 < n) (hlo : ∀ x, lo = some x → x ≤ start) (hhi : ∀ x, hi = some x → start + duration ≤ x) :
    ∃ pts, samplePulse rate lo hi start duration true (fun t => (u.1 + v.1 * t, u.2 + v.2 * t)) = some pts ∧
      (∀ x, start ≤ x → x ≤ start + duration - 1 / 100 / rate →
        value pts x = (u.1 + v.1 * (x - start), u.2 + v.2 * (x - start))) ∧
      (∀ x, x < start - 1 / 100 / rate ∨ start + duration < x → value pts x = (0, 0)) := by
  have hs := samplePulse_whole true (fun t => (u.1 + v.1 * t, u.2 + v.2 * t)) hr hd hn hlo hhi
  simp only [if_true] at hs
  have hstop := stop_eq (start := start) hr hd hn
  have hε : 0 < 1 / 100 / rate := div_pos (by norm_num) hr
  generalize hL : ((n - 1 : Nat) : Rat) / rate + 99 / 100 / rate = L at *
  have hL' : start + ((n - 1 : Nat) : Rat) / rate + 99 / 100 / rate = start + L := by rw [← hL]; ring
  have hLpos : 0 < L := by
    rw [← hL]
    have h1 : 0 < 99 / 100 / rate := div_pos (by norm_num) hr
    have h2 : 0 ≤ ((n - 1 : Nat) : Rat) / rate := div_nonneg (by positivity) (le_of_lt hr)
    linarith
  rw [hL'] at hstop
  rw [ends_pulsePoints _ _ _ hn, hL', hL] at hs
  have hinc : Inc [(start - 1 / 100 / rate, ((0 : Rat), (0 : Rat))), (start, (u.1 + v.1 * 0, u.2 + v.2 * 0)),
      (start + L, (u.1 + v.1 * L, u.2 + v.2 * L)), (start + L + 1 / 100 / rate, (0, 0))] := by
    unfold Inc
    simp only [List.pairwise_cons, List.mem_cons, List.not_mem_nil, or_false, forall_eq_or_imp, forall_eq, false_implies,
      implies_true, List.Pairwise.nil, and_true]
    refine ⟨⟨?_, ?_, ?_⟩, ⟨?_, ?_⟩, ?_⟩ <;> linarith
  refine ⟨_, hs, ?_, ?_⟩
  · intro x h1 h2
    have h3 : x ≤ start + L := by linarith
    rcases lt_or_eq_of_le h3 with h3 | rfl
    · refine (value_between (l1 := [(start - 1 / 100 / rate, ((0 : Rat), (0 : Rat)))]) hinc h1 h3).trans ?_
      have : L ≠ 0 := ne_of_gt hLpos
      have e : start + L - start = L := by ring
      rw [e]
      ext
      · simp only; field_simp; ring
      · simp only; field_simp; ring
    · have := value_at hinc (t := start + L) (v := (u.1 + v.1 * L, u.2 + v.2 * L)) (by simp)
      rw [this]
      simp
  · intro x hx
    rcases hx with hx | hx
    · refine value_before ?_
      simp only [List.mem_cons, List.not_mem_nil, or_false, forall_eq_or_imp, forall_eq]
      refine ⟨?_, ?_, ?_, ?_⟩ <;> linarith
    · refine value_after ?_
      simp only [List.mem_cons, List.not_mem_nil, or_false, forall_eq_or_imp, forall_eq]
      refine ⟨?_, ?_, ?_, ?_⟩ <;> linarith

/-- Where the diagram cuts a pulse: the curve has the values of the waveform as if the pulse started at the limit. -/
theorem cut_points {rate start duration : Rat} {lo hi : Option Rat} {f : Rat → C} {pts : Points}
    (h : samplePulse rate lo hi start duration false f = some pts) :
    ∃ n, 0 < n ∧ pts = pulsePoints rate (left lo start) f n := by
  unfold samplePulse at h
  split at h
  · simp at h
  · simp only at h
    split at h
    · simp at h
    · rename_i hn
      simp only [Bool.false_eq_true, if_false, Option.some.injEq, curve_eq] at h
      exact ⟨_, Nat.pos_of_ne_zero hn, h.symm⟩

/-! ### Voltage offsets -/

theorem window_all {l : Points} (h : l ≠ []) : window none none l = .ok l := by
  cases l with
  | nil => exact absurd rfl h
  | cons p l =>
    have h1 : (p :: l).findIdx? (fun q => (none : Option Rat).all fun x => decide (x < q.1)) = some 0 := by
      simp [List.findIdx?_cons]
    have h2 : (p :: l).findIdx? (fun q => (none : Option Rat).any fun x => decide (x < q.1)) = none := by
      rw [List.findIdx?_eq_none_iff]
      simp
    unfold window
    rw [h1, h2]
    simp

theorem offsetTail_last (ε : Rat) (p : Rat × C) (rest : Points) :
    (p :: offsetTail ε p.2 rest).getLast? = (p :: rest).getLast? := by
  induction rest generalizing p with
  | nil => rfl
  | cons q rest ih =>
    have := ih q
    simp only [offsetTail, List.getLast?_cons_cons] at this ⊢
    exact this

/-- Points of the offsets. -/
theorem offsetTail_inc {ε : Rat} (hε : 0 < ε) (p : Rat × C) (rest : Points)
    (h : (p :: rest).Pairwise fun a b => a.1 + ε < b.1) : Inc (p :: offsetTail ε p.2 rest) := by
  induction rest generalizing p with
  | nil => simp [offsetTail, Inc]
  | cons q rest ih =>
    obtain ⟨t, w⟩ := q
    rw [List.pairwise_cons] at h
    have h1 := ih (t, w) h.2
    have h2 : p.1 + ε < t := h.1 (t, w) (by simp)
    simp only at h1
    simp only [offsetTail]
    unfold Inc at h1 ⊢
    rw [List.pairwise_cons, List.pairwise_cons]
    have h3 := (List.pairwise_cons.mp h1).1
    refine ⟨?_, ?_, h1⟩
    · intro x hx
      rcases List.mem_cons.mp hx with rfl | hx
      · simp only; linarith
      · rcases List.mem_cons.mp hx with rfl | hx
        · simp only; linarith
        · have := h3 x hx; simp only at this; linarith
    · intro x hx
      rcases List.mem_cons.mp hx with rfl | hx
      · simp only; linarith
      · have := h3 x hx; simp only at this ⊢; linarith

/-- Neighbouring offsets become neighbouring points. -/
theorem offsetTail_split (ε : Rat) (p : Rat × C) (rest : Points) (i : Nat) {t t' : Rat} {v v' : C}
    (h1 : (p :: rest)[i]? = some (t, v)) (h2 : (p :: rest)[i + 1]? = some (t', v')) :
    ∃ l1 l2, p :: offsetTail ε p.2 rest = l1 ++ (t, v) :: (t' - ε, v) :: l2 := by
  induction rest generalizing p i with
  | nil => simp at h2
  | cons q rest ih =>
    obtain ⟨s, w⟩ := q
    cases i with
    | zero =>
      simp only [List.getElem?_cons_zero, Option.some.injEq, List.getElem?_cons_succ] at h1 h2
      subst h1
      cases h2
      exact ⟨[], _, by simp only [offsetTail]; rfl⟩
    | succ i =>
      simp only [List.getElem?_cons_succ] at h1 h2
      obtain ⟨l1, l2, h3⟩ := ih (s, w) i h1 (by simpa using h2)
      simp only at h3
      exact ⟨p :: (s - ε, p.2) :: l1, l2, by simp only [offsetTail, h3, List.cons_append]⟩

theorem offsetTail_times (ε : Rat) (hε : 0 < ε) (v : C) (rest : Points) (stop : Rat) (h : ∀ o ∈ rest, o.1 < stop) :
    ∀ x ∈ offsetTail ε v rest, x.1 < stop := by
  induction rest generalizing v with
  | nil => simp [offsetTail]
  | cons q rest ih =>
    obtain ⟨t, w⟩ := q
    have h1 := h (t, w) (by simp)
    simp only at h1
    intro x hx
    simp only [offsetTail, List.mem_cons] at hx
    rcases hx with rfl | rfl | hx
    · simp only; linarith
    · exact h1
    · exact ih w (fun o ho => h o (by simp [ho])) x hx

/-- **The curve of the offsets of a port and clock is the offset in force**, if the offsets are listed in the order of time
and the diagram has no limits. -/
theorem offsets_value_partial {ε stop : Rat} (hε : 0 < ε) {offsets : Points} (hne : offsets ≠ []) (hl : Listed ε stop offsets) :
    ∃ pts, sampleOffsets ε none none stop offsets = .ok pts ∧ (∀ x v, InForce ε stop offsets x v → value pts x = v) ∧
      ∀ x, (∀ o ∈ offsets, x < o.1 - ε) → value pts x = (0, 0) := by
  match offsets, hne with
  | (t, v) :: rest, _ =>
    obtain ⟨hl1, hl2⟩ := hl
    have hinc := offsetTail_inc hε (t, v) rest hl1
    have hlast := offsetTail_last ε (t, v) rest
    simp only at hinc hlast
    have htimes : ∀ x ∈ (t, v) :: offsetTail ε v rest, x.1 < stop := by
      intro x hx
      rcases List.mem_cons.mp hx with rfl | hx
      · exact hl2 (t, v) (by simp)
      · exact offsetTail_times ε hε v rest stop (fun o ho => hl2 o (by simp [ho])) x hx
    obtain ⟨q, hq⟩ : ∃ q, ((t, v) :: rest).getLast? = some q := by
      rw [List.getLast?_eq_some_getLast (by simp)]
      exact ⟨_, rfl⟩
    obtain ⟨s, w⟩ := q
    rw [hq] at hlast
    have hclosed : closeAt stop ((t, v) :: offsetTail ε v rest) ≠ [] := by
      unfold closeAt
      rw [hlast]
      simp only
      split <;> simp
    have hcinc : Inc (closeAt stop ((t, v) :: offsetTail ε v rest)) := by
      unfold closeAt
      rw [hlast]
      simp only
      split
      · unfold Inc
        rw [List.pairwise_append]
        exact ⟨hinc, by simp, fun a ha b hb => by rw [List.mem_singleton.mp hb]; exact htimes a ha⟩
      · exact hinc
    have hpre : ∃ l, closeAt stop ((t, v) :: offsetTail ε v rest) = ((t, v) :: offsetTail ε v rest) ++ l := by
      unfold closeAt
      rw [hlast]
      simp only
      split
      · exact ⟨_, rfl⟩
      · exact ⟨[], by simp⟩
    refine ⟨_, by rw [sampleOffsets, window_all hclosed], ?_, ?_⟩
    · rintro x u ⟨i, t1, h1, h2, h3⟩
      rcases h3 with ⟨t2, v2, h3, h4⟩ | ⟨h3, h4⟩
      · obtain ⟨l1, l2, h5⟩ := offsetTail_split ε (t, v) rest i h1 h3
        obtain ⟨l, hl⟩ := hpre
        simp only at h5
        rw [hl, h5] at hcinc ⊢
        simp only [List.append_assoc, List.cons_append] at hcinc ⊢
        exact value_flat hcinc h2 h4
      · have hi : i + 1 = ((t, v) :: rest).length := by
          have h6 := List.getElem?_eq_none_iff.mp h3
          have h7 := (List.getElem?_eq_some_iff.mp h1).1
          omega
        have h8 : ((t, v) :: rest).getLast? = some (t1, u) := by
          rw [List.getLast?_eq_getElem?, ← hi]
          simpa using h1
        rw [hq] at h8
        cases h8
        -- the last value
        by_cases hw : w = (0, 0)
        · subst hw
          have hc : closeAt stop ((t, v) :: offsetTail ε v rest) = (t, v) :: offsetTail ε v rest := by
            unfold closeAt
            rw [hlast]
            simp
          rw [hc]
          rcases lt_or_eq_of_le h2 with h2 | rfl
          · refine value_after fun p hp => ?_
            obtain ⟨ys, hys⟩ := List.getLast?_eq_some_iff.mp hlast
            rw [hys] at hp hinc
            rcases List.mem_append.mp hp with hp | hp
            · have := (List.pairwise_append.mp hinc).2.2 p hp (s, (0, 0)) (by simp)
              simp only at this
              linarith
            · rw [List.mem_singleton.mp hp]
              exact h2
          · exact value_at hinc (List.mem_of_getLast? hlast)
        · have hc : closeAt stop ((t, v) :: offsetTail ε v rest) = ((t, v) :: offsetTail ε v rest) ++ [(stop, w)] := by
            unfold closeAt
            rw [hlast]
            simp [hw]
          obtain ⟨ys, hys⟩ := List.getLast?_eq_some_iff.mp hlast
          rw [hc, hys] at hcinc ⊢
          simp only [List.append_assoc, List.cons_append, List.nil_append] at hcinc ⊢
          exact value_flat hcinc h2 (le_of_lt h4)
    · intro x hx
      refine value_before fun p hp => ?_
      have h0 := hx (t, v) (by simp)
      simp only at h0
      have h1 : x < t := by linarith
      obtain ⟨l, hl⟩ := hpre
      rw [hl] at hp hcinc
      simp only [List.cons_append] at hp hcinc
      rcases List.mem_cons.mp hp with rfl | hp
      · exact h1
      · have := hcinc.head p hp
        simp only at this
        linarith

/-! ### What is drawn -/

/-- What is played and shown. -/
def Drawn (acqs : Bool) (ports : Option (List String)) (op : Op Piece) (o : Rat) (id : Option String) (p : List Step)
    (r : Row Piece) : Prop :=
  Plays op o id p r ∧ Ends acqs p ∧ Shown ports r.data.port

theorem shown_iff (ports : Option (List String)) (port : Option String) :
    (ports.all fun l => port.any fun p => decide (p ∈ l)) = true ↔ Shown ports port := by
  unfold Shown
  cases ports with
  | none => simp
  | some l =>
    cases port with
    | none => simp
    | some p => simp

theorem ends_cons (acqs : Bool) (s : Step) (p : List Step) (hs : ∀ k, s ≠ if acqs then Step.acq k else Step.pulse k) :
    Ends acqs (s :: p) ↔ Ends acqs p := by
  unfold Ends
  constructor
  · rintro ⟨q, k, h⟩
    cases q with
    | nil =>
      simp only [List.nil_append, List.cons.injEq] at h
      exact absurd h.1 (hs k)
    | cons x q =>
      simp only [List.cons_append, List.cons.injEq] at h
      exact ⟨q, k, h.2⟩
  · rintro ⟨q, k, rfl⟩
    exact ⟨s :: q, k, rfl⟩

theorem ends_single (acqs : Bool) (s : Step) : Ends acqs [s] ↔ ∃ k, s = if acqs then Step.acq k else Step.pulse k := by
  unfold Ends
  constructor
  · rintro ⟨q, k, h⟩
    cases q with
    | nil => exact ⟨k, by simpa using h⟩
    | cons x q => simp at h
  · rintro ⟨k, rfl⟩
    exact ⟨[], k, rfl⟩

/-- The rows of a list of entries, from number `k`. -/
theorem infoRows_lists (ports : Option (List String)) (name : String) (id : Option String) (o : Rat) (mk : Nat → Step)
    (hmk : ∀ a b, mk a = mk b → a = b) (l : List (Info Piece)) (k : Nat) :
    ∃ paths, (∀ p ∈ paths, ∃ j, p = [mk (k + j)]) ∧
      Lists (fun p r => ∃ j i, l[j]? = some i ∧ p = [mk (k + j)] ∧ Shown ports i.data.port ∧
        r = ⟨name, k + j, id, o + i.t0, i.duration, i.acq, i.data⟩) paths (infoRows ports name id o k l) := by
  induction l generalizing k with
  | nil => exact ⟨[], by simp, .nil, by simp, .nil⟩
  | cons i l ih =>
    obtain ⟨paths, h1, h2⟩ := ih (k + 1)
    have hstep : ∀ p r, (∃ j i, l[j]? = some i ∧ p = [mk (k + 1 + j)] ∧ Shown ports i.data.port ∧
        r = (⟨name, k + 1 + j, id, o + i.t0, i.duration, i.acq, i.data⟩ : Row Piece)) →
        ∃ j i', (i :: l)[j]? = some i' ∧ p = [mk (k + j)] ∧ Shown ports i'.data.port ∧
        r = (⟨name, k + j, id, o + i'.t0, i'.duration, i'.acq, i'.data⟩ : Row Piece) := by
      rintro p r ⟨j, i', h3, rfl, h4, rfl⟩
      have e : k + 1 + j = k + (j + 1) := by omega
      exact ⟨j + 1, i', by simpa using h3, by rw [e], h4, by rw [e]⟩
    rw [infoRows]
    by_cases hs : Shown ports i.data.port
    · rw [if_pos ((shown_iff _ _).mpr hs)]
      refine ⟨[mk k] :: paths, ?_, ?_, ?_, ?_⟩
      · intro p hp
        rcases List.mem_cons.mp hp with rfl | hp
        · exact ⟨0, rfl⟩
        · obtain ⟨j, rfl⟩ := h1 p hp
          exact ⟨j + 1, by rw [show k + 1 + j = k + (j + 1) by omega]⟩
      · rw [List.nodup_cons]
        refine ⟨fun hm => ?_, h2.nodup⟩
        obtain ⟨j, hj⟩ := h1 _ hm
        have := hmk _ _ (by simpa using hj)
        omega
      · rintro p r ⟨j, i', h3, rfl, h4, rfl⟩
        cases j with
        | zero => exact List.mem_cons_self ..
        | succ j =>
          refine List.mem_cons_of_mem _ (h2.all _ _ ⟨j, i', by simpa using h3, ?_, h4, rfl⟩)
          rw [show k + 1 + j = k + (j + 1) by omega]
      · exact .cons ⟨0, i, rfl, rfl, hs, rfl⟩ (h2.rows.imp hstep)
    · rw [if_neg (fun h => hs ((shown_iff _ _).mp h))]
      refine ⟨paths, ?_, h2.nodup, ?_, h2.rows.imp hstep⟩
      · intro p hp
        obtain ⟨j, rfl⟩ := h1 p hp
        exact ⟨j + 1, by rw [show k + 1 + j = k + (j + 1) by omega]⟩
      · rintro p r ⟨j, i', h3, rfl, h4, rfl⟩
        cases j with
        | zero =>
          simp only [List.getElem?_cons_zero, Option.some.injEq] at h3
          exact absurd (h3 ▸ h4) hs
        | succ j =>
          refine h2.all _ _ ⟨j, i', by simpa using h3, ?_, h4, rfl⟩
          rw [show k + 1 + j = k + (j + 1) by omega]

theorem plain_drawn (acqs : Bool) (ports : Option (List String)) (name : String) (pulses acquisitions : List (Info Piece))
    (o : Rat) (id : Option String) : ∃ paths, Lists (Drawn acqs ports (.plain name pulses acquisitions) o id) paths
      (infoRows ports name id o 0 (if acqs then acquisitions else pulses)) := by
  obtain ⟨paths, _, h⟩ := infoRows_lists ports name id o (fun k => if acqs then Step.acq k else Step.pulse k)
    (by intro a b h; cases acqs <;> simpa using h) (if acqs then acquisitions else pulses) 0
  refine ⟨paths, h.nodup, ?_, h.rows.imp ?_⟩
  · rintro p r ⟨h1, h2, h3⟩
    cases h1 with
    | @pulse _ _ _ _ _ k i h1 =>
      obtain ⟨k', hk⟩ := (ends_single _ _).mp h2
      cases acqs with
      | true => simp at hk
      | false => exact h.all _ _ ⟨k, i, by simpa using h1, by simp, h3, rfl⟩
    | @acq _ _ _ _ _ k i h1 =>
      obtain ⟨k', hk⟩ := (ends_single _ _).mp h2
      cases acqs with
      | false => simp at hk
      | true => exact h.all _ _ ⟨k, i, by simpa using h1, by simp, h3, rfl⟩
  · rintro p r ⟨j, i, h1, rfl, h2, rfl⟩
    refine ⟨?_, (ends_single _ _).mpr ⟨_, rfl⟩, h2⟩
    cases acqs with
    | false => simpa using Plays.pulse h1
    | true => simpa using Plays.acq h1

theorem rounds_drawn {acqs : Bool} {ports : Option (List String)} {body : Op Piece} {d : Rat} {o : Rat} {id : Option String}
    (ih : ∀ o id l, extract acqs ports body o id = .ok l → ∃ paths, Lists (Drawn acqs ports body o id) paths l) (ks : List Nat)
    (hks : ks.Nodup) :
    ∀ l, concat (ks.map fun (i : Nat) => extract acqs ports body (o + (i : Rat) * d) id) = .ok l →
      ∃ paths, (∀ p ∈ paths, ∃ i ∈ ks, ∃ p', p = .round i :: p') ∧
        Lists (fun p r => ∃ i ∈ ks, ∃ p', p = .round i :: p' ∧ Drawn acqs ports body (o + (i : Rat) * d) id p' r) paths l := by
  induction ks with
  | nil =>
    intro l h
    simp only [List.map_nil, concat, Except.ok.injEq] at h
    subst h
    exact ⟨[], by simp, ⟨.nil, by simp, .nil⟩⟩
  | cons k ks ihk =>
    intro l h
    rw [List.nodup_cons] at hks
    simp only [List.map_cons, concat] at h
    cases ha : extract acqs ports body (o + (k : Rat) * d) id with
    | error e => simp [ha] at h
    | ok a =>
      simp only [ha] at h
      cases hb : concat (ks.map fun (i : Nat) => extract acqs ports body (o + (i : Rat) * d) id) with
      | error e => simp [hb] at h
      | ok b =>
        simp only [hb, Except.ok.injEq] at h
        subst h
        obtain ⟨pa, hpa⟩ := ih _ _ _ ha
        obtain ⟨pb, hpb1, hpb⟩ := ihk hks.2 b hb
        have hpa' : Lists (fun p r => ∃ p', p = .round k :: p' ∧ Drawn acqs ports body (o + (k : Rat) * d) id p' r)
            (pa.map (Step.round k :: ·)) a :=
          hpa.map_cons (.round k) (fun p r h => ⟨p, rfl, h⟩) (fun p r ⟨p', h1, h2⟩ => ⟨p', h1, h2⟩)
        refine ⟨pa.map (Step.round k :: ·) ++ pb, ?_, hpa'.append hpb ?_ ?_⟩
        · intro p hp
          rcases List.mem_append.mp hp with h1 | h1
          · obtain ⟨p', _, rfl⟩ := List.mem_map.mp h1
            exact ⟨k, by simp, p', rfl⟩
          · obtain ⟨i, hi, p', rfl⟩ := hpb1 p h1
            exact ⟨i, by simp [hi], p', rfl⟩
        · intro x hx hx'
          obtain ⟨p', _, rfl⟩ := List.mem_map.mp hx
          obtain ⟨i, hi, p'', he⟩ := hpb1 _ hx'
          simp only [List.cons.injEq, Step.round.injEq] at he
          exact hks.1 (he.1 ▸ hi)
        · intro x r
          constructor
          · rintro ⟨i, hi, p', rfl, hp⟩
            rcases List.mem_cons.mp hi with rfl | hi
            · exact .inl ⟨p', rfl, hp⟩
            · exact .inr ⟨i, hi, p', rfl, hp⟩
          · rintro (⟨p', rfl, hp⟩ | ⟨i, hi, p', rfl, hp⟩)
            · exact ⟨k, by simp, p', rfl, hp⟩
            · exact ⟨i, by simp [hi], p', rfl, hp⟩

/-- What is drawn of schedulables, the first of which has number `base`. -/
def ItemDrawn (acqs : Bool) (ports : Option (List String)) (items : Items Piece) (o : Rat) (base : Nat) (p : List Step)
    (r : Row Piece) : Prop :=
  ∃ k id t op p', ItemAt items k id t op ∧ p = .item (base + k) :: p' ∧ Drawn acqs ports op (o + t) (some id) p' r

theorem ne_step (acqs : Bool) (s : Step) (h1 : ∀ k, s ≠ .acq k) (h2 : ∀ k, s ≠ .pulse k) (k : Nat) :
    s ≠ if acqs then Step.acq k else Step.pulse k := by
  cases acqs with
  | true => simpa using h1 k
  | false => simpa using h2 k

mutual
theorem op_drawn (acqs : Bool) (ports : Option (List String)) (op : Op Piece) : ∀ (o : Rat) (id : Option String)
    (l : List (Row Piece)), extract acqs ports op o id = .ok l → ∃ paths, Lists (Drawn acqs ports op o id) paths l := by
  match op with
  | .plain name pulses acquisitions =>
    intro o id l h
    rw [extract] at h
    simp only [Except.ok.injEq] at h
    subst h
    exact plain_drawn acqs ports name pulses acquisitions o id
  | .sched dur items =>
    intro o id l h
    rw [extract] at h
    obtain ⟨paths, _, hp⟩ := items_drawn acqs ports items o 0 l h
    refine ⟨paths, hp.nodup, ?_, hp.rows.imp ?_⟩
    · rintro p r ⟨h1, h2, h3⟩
      cases h1 with
      | item h4 h5 =>
        exact hp.all _ _ ⟨_, _, _, _, _, h4, by simp, h5, (ends_cons acqs _ _ (ne_step acqs _ (by simp) (by simp))).mp h2, h3⟩
    · rintro p r ⟨k, id', t, op, p', h1, rfl, h2, h3, h4⟩
      exact ⟨by simpa using Plays.item h1 h2, (ends_cons acqs _ _ (ne_step acqs _ (by simp) (by simp))).mpr h3, h4⟩
  | .loop n body =>
    intro o id l h
    rw [extract] at h
    cases hd : body.duration with
    | none =>
      simp only [hd] at h
      cases n with
      | zero =>
        simp only [List.range_zero, List.map_nil, concat, Except.ok.injEq] at h
        subst h
        refine ⟨[], .nil, ?_, .nil⟩
        rintro p r ⟨hp, _⟩
        cases hp with
        | round hi _ _ => omega
      | succ n =>
        rw [List.range_succ_eq_map] at h
        simp [concat] at h
    | some d =>
      simp only [hd] at h
      obtain ⟨paths, _, hp⟩ := rounds_drawn (op_drawn acqs ports body) (List.range n) List.nodup_range l h
      refine ⟨paths, hp.nodup, ?_, hp.rows.imp ?_⟩
      · rintro p r ⟨h1, h2, h4⟩
        cases h1 with
        | round hi hd' h3 =>
          rw [hd] at hd'
          obtain rfl := Option.some.inj hd'
          exact hp.all _ _ ⟨_, List.mem_range.mpr hi, _, rfl, h3,
            (ends_cons acqs _ _ (ne_step acqs _ (by simp) (by simp))).mp h2, h4⟩
      · rintro p r ⟨i, hi, p', rfl, h2, h3, h4⟩
        exact ⟨Plays.round (List.mem_range.mp hi) hd h2, (ends_cons acqs _ _ (ne_step acqs _ (by simp) (by simp))).mpr h3, h4⟩
  | .cond b body =>
    intro o id l h
    rw [extract] at h
    obtain ⟨paths, hp⟩ := op_drawn acqs ports body o id l h
    refine ⟨_, hp.map_cons .body (fun p r ⟨h1, h2, h3⟩ =>
      ⟨Plays.cond h1, (ends_cons acqs _ _ (ne_step acqs _ (by simp) (by simp))).mpr h2, h3⟩) ?_⟩
    rintro p r ⟨h1, h2, h3⟩
    cases h1 with
    | cond h4 => exact ⟨_, rfl, h4, (ends_cons acqs _ _ (ne_step acqs _ (by simp) (by simp))).mp h2, h3⟩
theorem items_drawn (acqs : Bool) (ports : Option (List String)) (items : Items Piece) : ∀ (o : Rat) (base : Nat)
    (l : List (Row Piece)), extractItems acqs ports items o = .ok l →
    ∃ paths, (∀ p ∈ paths, ∃ k p', p = .item (base + k) :: p') ∧ Lists (ItemDrawn acqs ports items o base) paths l := by
  match items with
  | .nil =>
    intro o base l h
    rw [extractItems] at h
    simp only [Except.ok.injEq] at h
    subst h
    refine ⟨[], by simp, .nil, ?_, .nil⟩
    rintro p r ⟨k, id, t, op, p', h1, _⟩
    cases h1
  | .cons id none op rest =>
    intro o base l h
    simp [extractItems] at h
  | .cons id (some t) op rest =>
    intro o base l h
    rw [extractItems] at h
    cases ha : extract acqs ports op (o + t) (some id) with
    | error e => simp [ha] at h
    | ok a =>
      simp only [ha] at h
      cases hb : extractItems acqs ports rest o with
      | error e => simp [hb] at h
      | ok b =>
        simp only [hb, Except.ok.injEq] at h
        subst h
        obtain ⟨pa, hpa⟩ := op_drawn acqs ports op _ _ a ha
        obtain ⟨pb, hpb1, hpb⟩ := items_drawn acqs ports rest o (base + 1) b hb
        have hpa' : Lists (fun p r => ∃ p', p = .item base :: p' ∧ Drawn acqs ports op (o + t) (some id) p' r)
            (pa.map (Step.item base :: ·)) a :=
          hpa.map_cons (.item base) (fun p r h => ⟨p, rfl, h⟩) (fun p r ⟨p', h1, h2⟩ => ⟨p', h1, h2⟩)
        refine ⟨pa.map (Step.item base :: ·) ++ pb, ?_, hpa'.append hpb ?_ ?_⟩
        · intro p hp
          rcases List.mem_append.mp hp with h1 | h1
          · obtain ⟨p', _, rfl⟩ := List.mem_map.mp h1
            exact ⟨0, p', rfl⟩
          · obtain ⟨k, p', rfl⟩ := hpb1 p h1
            exact ⟨k + 1, p', by simp; omega⟩
        · intro x hx hx'
          obtain ⟨p', _, rfl⟩ := List.mem_map.mp hx
          obtain ⟨k, p'', he⟩ := hpb1 _ hx'
          simp only [List.cons.injEq, Step.item.injEq] at he
          omega
        · intro x r
          constructor
          · rintro ⟨k, id', t', op', p', h1, rfl, hp⟩
            cases h1 with
            | head => exact .inl ⟨p', by simp, hp⟩
            | tail h2 => exact .inr ⟨_, _, _, _, p', h2, by simp; omega, hp⟩
          · rintro (⟨p', rfl, hp⟩ | ⟨k, id', t', op', p', h1, rfl, hp⟩)
            · exact ⟨0, _, _, _, p', .head, by simp, hp⟩
            · exact ⟨k + 1, _, _, _, p', .tail h1, by simp; omega, hp⟩
end

/-- **Every pulse, or every acquisition, of every repetition on the ports shown is collected once, at its time, and nothing
else.** -/
theorem collected {acqs : Bool} {ports : Option (List String)} {dur : Option Rat} {items : Items Piece} {l : List (Row Piece)}
    (h : extract acqs ports (.sched dur items) 0 none = .ok l) :
    ∃ paths : List (List Step), paths.Nodup ∧
      (∀ p r, Plays (.sched dur items) 0 none p r ∧ Ends acqs p ∧ Shown ports r.data.port → p ∈ paths) ∧
      List.Forall₂ (fun p r => Plays (.sched dur items) 0 none p r ∧ Ends acqs p ∧ Shown ports r.data.port) paths l := by
  obtain ⟨paths, hp⟩ := op_drawn acqs ports _ _ _ _ h
  exact ⟨paths, hp.nodup, fun p r h => hp.all p r h, hp.rows⟩

/-- A pulse of a port has a curve, or is outside the limits; nothing else has. -/
theorem pulsesOn_mem {rate : Rat} {lo hi : Option Rat} {port : String} {rows : List (Row Piece)} {pts : Points} :
    pts ∈ pulsesOn rate lo hi port rows ↔ ∃ r ∈ rows, r.data.port = some port ∧
      ((∃ l f, r.data.shape = .wave l f ∧ samplePulse rate lo hi r.time r.duration l f = some pts) ∨
        ∃ ts f, r.data.shape = .numerical ts f ∧
          samplePulse rate lo hi r.time r.duration false (f (ts.map fun t => t - ts.headD 0)) = some pts) := by
  unfold pulsesOn
  rw [List.mem_filterMap]
  constructor
  · rintro ⟨r, hr, h⟩
    refine ⟨r, hr, ?_⟩
    by_cases hp : r.data.port = some port
    · rw [if_pos hp] at h
      refine ⟨hp, ?_⟩
      cases hs : r.data.shape with
      | wave l f => simp only [hs, waveOf] at h; exact .inl ⟨l, f, rfl, h⟩
      | numerical ts f => simp only [hs, waveOf] at h; exact .inr ⟨ts, f, rfl, h⟩
      | offset v => simp [hs, waveOf] at h
      | none => simp [hs, waveOf] at h
    · rw [if_neg hp] at h
      simp at h
  · rintro ⟨r, hr, hp, ⟨l, f, hs, h⟩ | ⟨ts, f, hs, h⟩⟩
    · exact ⟨r, hr, by rw [if_pos hp]; simp only [hs, waveOf]; exact h⟩
    · exact ⟨r, hr, by rw [if_pos hp]; simp only [hs, waveOf]; exact h⟩

/-- Acquisitions of a port, and offsets of a port and clock, in the order of the schedule. -/
theorem acqsOn_eq (port : String) (rows : List (Row Piece)) :
    acqsOn port rows = (rows.filter fun r => decide (r.data.port = some port)).map fun r => (r.time, r.duration) := by
  unfold acqsOn
  induction rows with
  | nil => rfl
  | cons r rows ih =>
    by_cases h : r.data.port = some port <;> simp [h, ih]

/-- Offsets of a port and clock. -/
theorem offsetsOn_mem {port : String} {clock : Option String} {rows : List (Row Piece)} {x : Rat} {v : C} :
    (x, v) ∈ offsetsOn port clock rows ↔
      ∃ r ∈ rows, r.data.port = some port ∧ r.data.clock = clock ∧ r.data.shape = .offset v ∧ r.time = x := by
  unfold offsetsOn
  rw [List.mem_filterMap]
  constructor
  · rintro ⟨r, hr, h⟩
    by_cases hp : r.data.port = some port ∧ r.data.clock = clock
    · rw [if_pos hp] at h
      cases hs : r.data.shape with
      | wave l f => simp [hs] at h
      | numerical ts f => simp [hs] at h
      | offset w =>
        simp only [hs, Option.some.injEq, Prod.mk.injEq] at h
        exact ⟨r, hr, hp.1, hp.2, by rw [hs, h.2], h.1⟩
      | none => simp [hs] at h
    · rw [if_neg hp] at h
      simp at h
  · rintro ⟨r, hr, h1, h2, h3, h4⟩
    exact ⟨r, hr, by rw [if_pos ⟨h1, h2⟩]; simp [h3, h4]⟩

/-- **Drawing leaves an operation as it is, unless it is a numerical pulse with samples that do not start at 0.** -/
theorem drawing_keeps_partial (s : Shape) (h : ∀ ts f, s = .numerical ts f → ts.headD 0 = 0) : afterDrawing s = s := by
  cases s with
  | numerical ts f =>
    have := h ts f rfl
    simp only [afterDrawing, shiftSamples, this, sub_zero, List.map_id']
  | _ => rfl

/-- Drawing once more changes nothing. -/
theorem drawing_twice (s : Shape) : afterDrawing (afterDrawing s) = afterDrawing s := by
  cases s with
  | numerical ts f =>
    cases ts with
    | nil => rfl
    | cons t ts => simp [afterDrawing, shiftSamples]
  | _ => rfl

end Verif.Diagram
