/-
When operations on Zurich Instruments devices start.
-/
import Verif.Zi.TimeFix

set_option linter.unusedVariables false
set_option linter.unusedSimpArgs false

namespace Verif.Zi

open Verif.Numeric (pyRound pyRound_close pyRound_unique pyRound_int)
open Spec

variable {ω : Type}

/-- **C63, accepted times.** A time is accepted if and only if it is at a sample, up to at most 0.00017
samples. -/
theorem clockSample_iff (d : Dev) (t : Rat) : (∃ p, clockSample d t = .ok p) ↔
    ∃ n : Int, |t * samplesPerSecond d - n| ≤ 1 / 10000 + 1 / 100000 * ((n % 8 : Int) : Rat) := by
  rw [← rate_eq]
  constructor
  · rintro ⟨p, hp⟩
    obtain ⟨n, hn, -⟩ := clockSample_ok hp
    exact ⟨n, hn⟩
  · rintro ⟨n, hn⟩
    exact ⟨_, (clockSample_near hn).1⟩

/-- **C63, clock cycle and sample.** The clock cycle of an operation and the sample within it, one of eight,
are those of the sample nearest to its start. -/
theorem clockSample_sound {d : Dev} {t : Rat} {p : Int × Rat} (h : clockSample d t = .ok p) :
    ∃ n k : Int, n = 8 * p.1 + k ∧ 0 ≤ k ∧ k < 8 ∧ |t * samplesPerSecond d - n| ≤ 17 / 100000 ∧
      |p.2 - k| ≤ 17 / 100000 := by
  obtain ⟨n, hn, h1, h2, h3⟩ := clockSample_ok h
  rw [rate_eq] at hn h2
  have hlt : n % 8 < 8 := Int.emod_lt_of_pos n (by norm_num)
  have hge : 0 ≤ n % 8 := Int.emod_nonneg n (by norm_num)
  have h7 : ((n % 8 : Int) : Rat) ≤ 7 := by exact_mod_cast (by omega : n % 8 ≤ 7)
  have hq : (n : Rat) = 8 * ((n / 8 : Int) : Rat) + ((n % 8 : Int) : Rat) := by
    exact_mod_cast (Int.mul_ediv_add_emod n 8).symm
  refine ⟨n, n % 8, by rw [h1]; omega, hge, hlt, by linarith, ?_⟩
  have e : p.2 - ((n % 8 : Int) : Rat) = t * samplesPerSecond d - n := by rw [h2, hq]; ring
  rw [e]
  linarith

/-- **C63, shifts.** If the operations were listed in the order of time, those between two acquisitions are
all shifted by the same time, no operation is shifted less than an earlier one, every acquisition adds at most
7 / 600 MHz, and every acquisition starts at the first sample of a clock cycle. -/
theorem times_aligned_partial {rows : List (Row ω)} (ho : Ordered rows) (hu : ∀ r ∈ rows, AcqOnUhfqa r)
    {out : List (Row ω × Option (Int × Rat))} (h : times rows = .ok out) :
    ∃ m : Nat → Nat, (out.map Prod.fst).length = rows.length ∧
      (∀ (k : Nat) (r : Row ω), rows[k]? = some r →
        ∃ s, out[k]? = some ({ r with time := r.time + (m k : Rat) / 600000000 }, s) ∧
          (r.chan = none ↔ s = none) ∧
          (∀ p c d, s = some p → r.chan = some c → c.kind = some d →
            ∃ n : Int, |(r.time + (m k : Rat) / 600000000) * samplesPerSecond d - n| ≤ 17 / 100000 ∧
              n / 8 = p.1) ∧
          (r.acq = true → ∃ p : Int × Rat, s = some p ∧ |p.2| ≤ 17 / 100000)) ∧
      m 0 ≤ 7 ∧ (∀ k, m k ≤ m (k + 1) ∧ m (k + 1) ≤ m k + 7) ∧
      (∀ k, m k ≠ m (k + 1) → ∃ r, rows[k]? = some r ∧ r.acq = true) := by
  unfold times at h
  cases ha : addStarts rows with
  | error e => simp [ha] at h
  | ok l =>
    simp only [ha] at h
    obtain ⟨hl1, hl2⟩ := addStarts_ok ha
    unfold fixpoint at h
    cases hf : fixLoop ⟨fun _ => 0, 0, 0⟩ l with
    | error e => simp [hf] at h
    | ok st =>
      simp only [hf] at h
      have hget : ∀ (k : Nat) (r : Row ω), rows[k]? = some r → ∃ s, l[k]? = some (r, s) := by
        intro k r hk
        rw [← hl1, List.getElem?_map] at hk
        cases hlk : l[k]? with
        | none => simp [hlk] at hk
        | some e =>
          simp only [hlk, Option.map_some, Option.some.injEq] at hk
          exact ⟨e.2, by rw [← hk]⟩
      have hget' : ∀ (k : Nat) (r : Row ω) (s : Option (Int × Rat)), l[k]? = some (r, s) → rows[k]? = some r := by
        intro k r s hk
        rw [← hl1, List.getElem?_map, hk]
        rfl
      have hsamp : ∀ (k : Nat) (r : Row ω) (p : Int × Rat), l[k]? = some (r, some p) → ∃ c d n, r.chan = some c ∧ c.kind = some d ∧
          |r.time * rate d - (n : Int)| ≤ 1 / 10000 + 1 / 100000 * ((n % 8 : Int) : Rat) ∧ p.1 = n / 8 ∧
            p.2 = r.time * rate d - 8 * (n / 8 : Int) ∧ pyRound p.2 = n % 8 := by
        intro k r p hk
        obtain ⟨c, d, hc, hd, hcs⟩ := startOf_some (hl2 k r _ hk)
        obtain ⟨n, h1⟩ := clockSample_ok hcs
        exact ⟨c, d, n, hc, hd, h1⟩
      have hnear : ∀ (k : Nat) (r : Row ω) (p : Int × Rat), l[k]? = some (r, some p) → |p.2 - pyRound p.2| ≤ 17 / 100000 := by
        intro k r p hk
        obtain ⟨c, d, n, -, -, h1, h2, h3, h4⟩ := hsamp k r p hk
        have hlt : n % 8 < 8 := Int.emod_lt_of_pos n (by norm_num)
        have h7 : ((n % 8 : Int) : Rat) ≤ 7 := by exact_mod_cast (by omega : n % 8 ≤ 7)
        have hq : (n : Rat) = 8 * ((n / 8 : Int) : Rat) + ((n % 8 : Int) : Rat) := by
          exact_mod_cast (Int.mul_ediv_add_emod n 8).symm
        rw [h4, h3]
        have e : r.time * rate d - 8 * ((n / 8 : Int) : Rat) - ((n % 8 : Int) : Rat) = r.time * rate d - n := by
          rw [hq]; ring
        rw [e]
        linarith
      obtain ⟨m, -, h2, -, h4, h5, h6, h7⟩ := fixLoop_spec l 0 ⟨fun _ => 0, 0, 0⟩ st 0 (le_refl 0) rfl
        (by intro k _; simp) (by
          intro k r s hk
          rw [Nat.zero_add]
          exact ho k r (hget' k r s hk))
        (by
          intro k r p hk
          have := hnear k r p hk
          linarith) hf
      have hcorr : ∀ k, st.corr k = (m k : Rat) / 600000000 := fun k => h2 k (Nat.zero_le k)
      obtain ⟨ho1, ho2⟩ := addStarts_ok h
      refine ⟨m, ?_, ?_, by omega, fun k => h5 k (Nat.zero_le k), ?_⟩
      · rw [ho1, ← hl1]
        have : ∀ (c : Nat → Rat) (k : Nat) (l : List (Row ω)), (shiftFrom c k l).length = l.length := by
          intro c k l
          induction l generalizing k with
          | nil => rfl
          | cons r rest ih => simp [shiftFrom, ih]
        rw [this]
      · intro k r hk
        obtain ⟨s0, hs0⟩ := hget k r hk
        have hrow : (out.map Prod.fst)[k]? = some { r with time := r.time + (m k : Rat) / 600000000 } := by
          rw [ho1, hl1, shiftFrom_get, hk, Option.map_some, Nat.zero_add, hcorr]
        rw [List.getElem?_map] at hrow
        cases hok : out[k]? with
        | none => simp [hok] at hrow
        | some e =>
          obtain ⟨r', s⟩ := e
          simp only [hok, Option.map_some, Option.some.injEq] at hrow
          subst hrow
          have hst := ho2 k _ _ hok
          refine ⟨s, rfl, ?_, ?_, ?_⟩
          · unfold startOf at hst
            cases hc : r.chan with
            | none =>
              simp only [hc, Except.ok.injEq] at hst
              simp [← hst]
            | some c =>
              simp only [hc] at hst
              cases hkd : c.kind with
              | none => simp [hkd] at hst
              | some d =>
                simp only [hkd] at hst
                split at hst
                · simp at hst
                · simp only [Except.ok.injEq] at hst
                  simp [← hst]
          · intro p c d hp hc hd
            rw [hp] at hst
            obtain ⟨c', d', hc', hd', hcs⟩ := startOf_some hst
            simp only [hc, Option.some.injEq] at hc'
            subst hc'
            rw [hd, Option.some.injEq] at hd'
            subst hd'
            obtain ⟨n, h8, h9, -⟩ := clockSample_ok hcs
            refine ⟨n, ?_, h9.symm⟩
            rw [← rate_eq]
            have hlt : n % 8 < 8 := Int.emod_lt_of_pos n (by norm_num)
            have h7 : ((n % 8 : Int) : Rat) ≤ 7 := by exact_mod_cast (by omega : n % 8 ≤ 7)
            simp only at h8
            linarith
          · intro hacq
            obtain ⟨c, hc, hd⟩ := hu r (List.mem_of_getElem? hk) hacq
            -- the first start
            cases s0 with
            | none =>
              have := hl2 k r none hs0
              unfold startOf at this
              simp only [hc, hd] at this
              split at this <;> simp at this
            | some p0 =>
              obtain ⟨c', d', n0, hc', hd', h8, h9, h10, h11⟩ := hsamp k r p0 hs0
              rw [hc, Option.some.injEq] at hc'
              subst hc'
              rw [hd, Option.some.injEq] at hd'
              subst hd'
              obtain ⟨j, hj⟩ := h7 k r p0 hs0 hacq
              rw [h11, Nat.zero_add] at hj
              have hst' := hst
              unfold startOf at hst'
              simp only [hc, hd] at hst'
              split at hst'
              · simp at hst'
              · rename_i p hp
                simp only [Except.ok.injEq] at hst'
                refine ⟨p, hst'.symm, ?_⟩
                -- the nearest sample is `n0 + 3 m`, a multiple of 8
                obtain ⟨n, h12, h13, h14, h15⟩ := clockSample_ok hp
                have hlt : n % 8 < 8 := Int.emod_lt_of_pos n (by norm_num)
                have hge : 0 ≤ n % 8 := Int.emod_nonneg n (by norm_num)
                have h7' : ((n % 8 : Int) : Rat) ≤ 7 := by exact_mod_cast (by omega : n % 8 ≤ 7)
                have hlt0 : n0 % 8 < 8 := Int.emod_lt_of_pos n0 (by norm_num)
                have h70 : ((n0 % 8 : Int) : Rat) ≤ 7 := by exact_mod_cast (by omega : n0 % 8 ≤ 7)
                have eR : (r.time + (m k : Rat) / 600000000) * rate .uhfqa = r.time * rate .uhfqa + 3 * m k := by
                  simp only [rate]; ring
                rw [eR] at h12 h14
                have ha := abs_le.mp h12
                have hb := abs_le.mp h8
                have hn : n = n0 + 3 * m k := by
                  have h16 : ((n - (n0 + 3 * m k) : Int) : Rat) < 1 := by push_cast; linarith [ha.1, ha.2, hb.1, hb.2]
                  have h17 : (-1 : Rat) < ((n - (n0 + 3 * m k) : Int) : Rat) := by
                    push_cast; linarith [ha.1, ha.2, hb.1, hb.2]
                  have h16' : n - (n0 + 3 * m k) < 1 := by exact_mod_cast h16
                  have h17' : -1 < n - (n0 + 3 * m k) := by exact_mod_cast h17
                  omega
                have hn8 : n % 8 = 0 := by omega
                have hq : (n : Rat) = 8 * ((n / 8 : Int) : Rat) + ((n % 8 : Int) : Rat) := by
                  exact_mod_cast (Int.mul_ediv_add_emod n 8).symm
                rw [hn8] at hq h12
                push_cast at hq h12
                have e : p.2 = r.time * rate .uhfqa + 3 * m k - n := by rw [h14, hq]; ring
                rw [e]
                linarith
      · intro k hne
        obtain ⟨i, r, s, hi, hacq, hk⟩ := h6 k (Nat.zero_le k) hne
        rw [Nat.zero_add] at hk
        rw [hk]
        exact ⟨r, hget' i r s hi, hacq⟩

/-- All corrections are multiples of 1 / 600 MHz, whatever the indices are. -/
theorem fixLoop_units : ∀ (rows : List (Row ω × Option (Int × Rat))) (st st' : Fix),
    (∀ k, ∃ m : Nat, st.corr k = (m : Rat) / 600000000) → fixLoop st rows = .ok st' →
    ∀ k, ∃ m : Nat, st'.corr k = (m : Rat) / 600000000
  | [], st, st', h0, h => by
    simp only [fixLoop, Except.ok.injEq] at h
    subst h
    exact h0
  | (r, s) :: rest, st, st', h0, h => by
    unfold fixLoop at h
    by_cases ha : r.acq = true
    · rw [if_pos ha] at h
      cases s with
      | none => simp at h
      | some q =>
        obtain ⟨n, hn, hn3, -⟩ := correction_ok (pyRound (q.2 + st.cum))
        simp only [fixStep, hn] at h
        refine fixLoop_units rest _ st' ?_ h
        intro k
        obtain ⟨m, hm⟩ := h0 k
        simp only
        split
        · refine ⟨m + n / 3, ?_⟩
          rw [hm]
          obtain ⟨n', rfl⟩ : ∃ n', n = 3 * n' := ⟨n / 3, by omega⟩
          rw [Nat.mul_div_cancel_left n' (by norm_num)]
          push_cast
          ring
        · exact ⟨m, hm⟩
    · rw [if_neg ha] at h
      exact fixLoop_units rest st st' h0 h

/-- Shifts by multiples of 1 / 600 MHz keep operations at samples of both devices. -/
theorem at_shift {d : Dev} {t : Rat} {n : Int} (h : At d t n) (m : Nat) :
    ∃ n', At d (t + (m : Rat) / 600000000) n' := by
  unfold At at *
  cases d
  · refine ⟨n + 3 * m, ?_⟩
    simp only [samplesPerSecond] at *
    push_cast
    rw [← h]
    ring
  · refine ⟨n + 4 * m, ?_⟩
    simp only [samplesPerSecond] at *
    push_cast
    rw [← h]
    ring

/-- **C63, accepted schedules.** If all operations start at a sample of their device, the schedule is
accepted, every operation is shifted by a multiple of 1 / 600 MHz and still starts at a sample, and the clock
cycle and the sample within it are exact. -/
theorem times_exact {rows : List (Row ω)} (hs : ∀ r ∈ rows, OnSample r) (hu : ∀ r ∈ rows, AcqOnUhfqa r) :
    ∃ out, times rows = .ok out ∧ ∀ (k : Nat) (r : Row ω), rows[k]? = some r →
      ∃ (m : Nat) (s : Option (Int × Rat)), out[k]? = some ({ r with time := r.time + (m : Rat) / 600000000 }, s) ∧
        ∀ c d, r.chan = some c → c.kind = some d →
          ∃ n, At d (r.time + (m : Rat) / 600000000) n ∧ s = some (n / 8, ((n % 8 : Int) : Rat)) := by
  obtain ⟨l, hl⟩ := addStarts_succeeds (rows := rows) (fun r hr =>
    let ⟨s, h1, _⟩ := startOf_onSample (hs r hr); ⟨s, h1⟩)
  obtain ⟨hl1, hl2⟩ := addStarts_ok hl
  obtain ⟨st, hst⟩ := fixLoop_succeeds l ⟨fun _ => 0, 0, 0⟩ (by
    intro e he hacq hnone
    obtain ⟨k, hk⟩ := List.getElem?_of_mem he
    have h1 := hl2 k e.1 e.2 hk
    rw [hnone] at h1
    have hmem : e.1 ∈ rows := by rw [← hl1]; exact List.mem_map_of_mem he
    obtain ⟨s, h2, h3⟩ := startOf_onSample (hs e.1 hmem)
    rw [h1, Except.ok.injEq] at h2
    obtain ⟨c, hc, -⟩ := hu e.1 hmem hacq
    rw [h3.mp h2.symm] at hc
    exact absurd hc (by simp))
  have hunits := fixLoop_units l ⟨fun _ => 0, 0, 0⟩ st (fun k => ⟨0, by simp⟩) hst
  have hshift : ∀ r ∈ shiftFrom st.corr 0 rows, OnSample r := by
    intro r hr
    obtain ⟨k, hk⟩ := List.getElem?_of_mem hr
    rw [shiftFrom_get] at hk
    cases hrk : rows[k]? with
    | none => simp [hrk] at hk
    | some r0 =>
      simp only [hrk, Option.map_some, Option.some.injEq] at hk
      subst hk
      intro c hc
      obtain ⟨d, n, hd, hn⟩ := hs r0 (List.mem_of_getElem? hrk) c hc
      obtain ⟨m, hm⟩ := hunits (0 + k)
      obtain ⟨n', hn'⟩ := at_shift hn m
      refine ⟨d, n', hd, ?_⟩
      simp only [hm]
      exact hn'
  obtain ⟨out, hout⟩ := addStarts_succeeds (rows := shiftFrom st.corr 0 rows) (fun r hr =>
    let ⟨s, h1, _⟩ := startOf_onSample (hshift r hr); ⟨s, h1⟩)
  refine ⟨out, ?_, ?_⟩
  · simp only [times, hl, fixpoint, hst, hl1, hout]
  · intro k r hk
    obtain ⟨ho1, ho2⟩ := addStarts_ok hout
    obtain ⟨m, hm⟩ := hunits k
    have hrow : (out.map Prod.fst)[k]? = some { r with time := r.time + (m : Rat) / 600000000 } := by
      rw [ho1, shiftFrom_get, hk, Option.map_some, Nat.zero_add, hm]
    rw [List.getElem?_map] at hrow
    cases hok : out[k]? with
    | none => simp [hok] at hrow
    | some e =>
      obtain ⟨r', s⟩ := e
      simp only [hok, Option.map_some, Option.some.injEq] at hrow
      subst hrow
      refine ⟨m, s, rfl, ?_⟩
      intro c d hc hd
      obtain ⟨d', n, hd', hn⟩ := hs r (List.mem_of_getElem? hk) c hc
      rw [hd, Option.some.injEq] at hd'
      subst hd'
      obtain ⟨n', hn'⟩ := at_shift hn m
      refine ⟨n', hn', ?_⟩
      have := ho2 k _ _ hok
      rw [startOf_exact (r := { r with time := r.time + (m : Rat) / 600000000 }) (c := c) (d := d) hc hd hn',
        Except.ok.injEq] at this
      exact this.symm

end Verif.Zi
