/-
The loop of the measurement fixpoint correction.
-/
import Verif.Zi.TimeLemmas

set_option linter.unusedVariables false
set_option linter.unusedSimpArgs false

namespace Verif.Zi

open Verif.Numeric (pyRound pyRound_close pyRound_unique pyRound_int)
open Spec

variable {ω : Type}

/-- `round(x + n)` for `x` near an integer. -/
theorem round_add {x : Rat} (h : |x - pyRound x| < 1 / 2) (n : Nat) : pyRound (x + n) = pyRound x + n := by
  apply pyRound_unique
  push_cast
  have e : x + (n : Rat) - ((pyRound x : Rat) + n) = x - pyRound x := by ring
  rw [e]
  exact h

/-- What the loop does to the corrections, in units of 1 / 600 MHz: `m k` is the correction at position `k`. -/
theorem fixLoop_spec : ∀ (rows : List (Row ω × Option (Int × Rat))) (p : Nat) (st st' : Fix) (c : Nat),
    st.prev ≤ p → st.cum = 3 * c → (∀ k, st.prev ≤ k → st.corr k = (c : Rat) / 600000000) →
    (∀ (i : Nat) (r : Row ω) (s : Option (Int × Rat)), rows[i]? = some (r, s) → r.label = p + i) →
    (∀ (i : Nat) (r : Row ω) (s : Int × Rat), rows[i]? = some (r, some s) → |s.2 - pyRound s.2| < 1 / 2) →
    fixLoop st rows = .ok st' →
    ∃ m : Nat → Nat, (∀ k, k < st.prev → st'.corr k = st.corr k) ∧
      (∀ k, st.prev ≤ k → st'.corr k = (m k : Rat) / 600000000) ∧
      c ≤ m st.prev ∧ m st.prev ≤ c + 7 ∧
      (∀ k, st.prev ≤ k → m k ≤ m (k + 1) ∧ m (k + 1) ≤ m k + 7) ∧
      (∀ k, st.prev ≤ k → m k ≠ m (k + 1) → ∃ (i : Nat) (r : Row ω) (s : Option (Int × Rat)), rows[i]? = some (r, s) ∧ r.acq = true ∧ k = p + i) ∧
      (∀ (i : Nat) (r : Row ω) (s : Int × Rat), rows[i]? = some (r, some s) → r.acq = true → ∃ j, pyRound s.2 + 3 * m (p + i) = 8 * j)
  | [], p, st, st', c, hp, hcum, hc, hl, hs, h => by
    simp only [fixLoop, Except.ok.injEq] at h
    subst h
    exact ⟨fun _ => c, fun _ _ => rfl, hc, le_refl _, Nat.le_add_right c 7, fun _ _ => ⟨le_refl _, Nat.le_add_right c 7⟩,
      fun _ _ hne => absurd rfl hne, by simp⟩
  | (r, s) :: rest, p, st, st', c, hp, hcum, hc, hl, hs, h => by
    have hl' : ∀ (i : Nat) (r' : Row ω) (s' : Option (Int × Rat)), rest[i]? = some (r', s') → r'.label = p + 1 + i := by
      intro i r' s' hi
      have := hl (i + 1) r' s' (by simpa using hi)
      omega
    have hs' : ∀ (i : Nat) (r' : Row ω) (s' : Int × Rat), rest[i]? = some (r', some s') → |s'.2 - pyRound s'.2| < 1 / 2 :=
      fun i r' s' hi => hs (i + 1) r' s' (by simpa using hi)
    have hr : r.label = p := hl 0 r s rfl
    unfold fixLoop at h
    by_cases ha : r.acq = true
    · rw [if_pos ha] at h
      cases s with
      | none => simp at h
      | some q =>
        simp only at h
        obtain ⟨n, hn, hn3, hn21, hn8, -⟩ := correction_ok (pyRound (q.2 + st.cum))
        have hq := hs 0 r q rfl
        have hround := round_add hq st.cum
        simp only [fixStep, hn] at h
        set st1 : Fix := { corr := fun k => if st.prev ≤ k then st.corr k + (n : Rat) / 1800000000 else st.corr k
                           prev := r.label + 1
                           cum := st.cum + n } with hst1
        obtain ⟨n', hn'⟩ : ∃ n', n = 3 * n' := ⟨n / 3, by omega⟩
        have hcorr : ∀ k, st.prev ≤ k → st1.corr k = ((c + n' : Nat) : Rat) / 600000000 := by
          intro k hk
          simp only [hst1, if_pos hk, hc k hk, hn']
          push_cast
          ring
        obtain ⟨m, h1, h2, h3, h4, h5, h6, h7⟩ := fixLoop_spec rest (p + 1) st1 st' (c + n')
          (by simp only [hst1, hr]; omega) (by simp only [hst1, hcum, hn']; ring)
          (fun k hk => hcorr k (by simp only [hst1, hr] at hk; omega)) hl' hs' h
        have hprev : st1.prev = p + 1 := by simp only [hst1, hr]
        rw [hprev] at h1 h2 h3 h4 h5 h6
        refine ⟨fun k => if k ≤ p then c + n' else m k, ?_, ?_, ?_, ?_, ?_, ?_, ?_⟩
        · intro k hk
          rw [h1 k (by omega)]
          simp only [hst1, if_neg (by omega : ¬st.prev ≤ k)]
        · intro k hk
          by_cases hkp : k ≤ p
          · simp only [if_pos hkp]
            rw [h1 k (by omega), hcorr k hk]
          · simp only [if_neg hkp]
            exact h2 k (by omega)
        · simp only [if_pos hp]; omega
        · simp only [if_pos hp]; omega
        · intro k hk
          rcases lt_trichotomy k p with hkp | hkp | hkp
          · simp only [if_pos (by omega : k ≤ p), if_pos (by omega : k + 1 ≤ p)]; omega
          · subst hkp
            simp only [if_pos (le_refl k), if_neg (by omega : ¬k + 1 ≤ k)]
            omega
          · simp only [if_neg (by omega : ¬k ≤ p), if_neg (by omega : ¬k + 1 ≤ p)]
            exact h5 k (by omega)
        · intro k hk hne
          rcases lt_trichotomy k p with hkp | hkp | hkp
          · simp only [if_pos (by omega : k ≤ p), if_pos (by omega : k + 1 ≤ p)] at hne
            exact absurd rfl hne
          · exact ⟨0, r, some q, rfl, ha, by omega⟩
          · simp only [if_neg (by omega : ¬k ≤ p), if_neg (by omega : ¬k + 1 ≤ p)] at hne
            obtain ⟨i, r', s', hi, hacq, hk'⟩ := h6 k (by omega) hne
            exact ⟨i + 1, r', s', by simpa using hi, hacq, by omega⟩
        · intro i r' s' hi hacq
          cases i with
          | zero =>
            simp only [List.getElem?_cons_zero, Option.some.injEq, Prod.mk.injEq] at hi
            obtain ⟨rfl, rfl⟩ := hi
            simp only [Nat.add_zero, if_pos (le_refl p)]
            rw [hround, hcum, hn'] at hn8
            push_cast at hn8 ⊢
            exact ⟨(pyRound q.2 + 3 * (c + n')) / 8, by omega⟩
          | succ i =>
            obtain ⟨j, hj⟩ := h7 i r' s' (by simpa using hi) hacq
            simp only [if_neg (by omega : ¬p + (i + 1) ≤ p)]
            exact ⟨j, by rw [← hj]; congr 4; omega⟩
    · rw [if_neg ha] at h
      obtain ⟨m, h1, h2, h3, h4, h5, h6, h7⟩ := fixLoop_spec rest (p + 1) st st' c (by omega) hcum hc hl' hs' h
      refine ⟨m, h1, h2, h3, h4, h5, ?_, ?_⟩
      · intro k hk hne
        obtain ⟨i, r', s', hi, hacq, hk'⟩ := h6 k hk hne
        exact ⟨i + 1, r', s', by simpa using hi, hacq, by omega⟩
      · intro i r' s' hi hacq
        cases i with
        | zero =>
          simp only [List.getElem?_cons_zero, Option.some.injEq, Prod.mk.injEq] at hi
          obtain ⟨rfl, -⟩ := hi
          exact absurd hacq ha
        | succ i =>
          obtain ⟨j, hj⟩ := h7 i r' s' (by simpa using hi) hacq
          exact ⟨j, by rw [← hj]; congr 4; omega⟩

/-- The loop raises no exception if the acquisitions have channels. -/
theorem fixLoop_succeeds : ∀ (rows : List (Row ω × Option (Int × Rat))) (st : Fix),
    (∀ e ∈ rows, e.1.acq = true → e.2 ≠ none) → ∃ st', fixLoop st rows = .ok st'
  | [], st, _ => ⟨st, rfl⟩
  | (r, s) :: rest, st, h => by
    have h' : ∀ e ∈ rest, e.1.acq = true → e.2 ≠ none := fun e he => h e (List.mem_cons_of_mem _ he)
    unfold fixLoop
    by_cases ha : r.acq = true
    · rw [if_pos ha]
      cases s with
      | none => exact absurd rfl (h (r, none) (by simp) ha)
      | some q =>
        obtain ⟨n, hn, -⟩ := correction_ok (pyRound (q.2 + st.cum))
        simp only [fixStep, hn]
        exact fixLoop_succeeds rest _ h'
    · rw [if_neg ha]
      exact fixLoop_succeeds rest st h'

theorem addStarts_ok : ∀ {rows : List (Row ω)} {l : List (Row ω × Option (Int × Rat))}, addStarts rows = .ok l →
    l.map Prod.fst = rows ∧ ∀ (i : Nat) (r : Row ω) (s : Option (Int × Rat)), l[i]? = some (r, s) → startOf r = .ok s
  | [], l, h => by
    simp only [addStarts, Except.ok.injEq] at h
    subst h
    simp
  | r :: rest, l, h => by
    unfold addStarts at h
    split at h
    · simp at h
    · rename_i s hs
      split at h
      · simp at h
      · rename_i l' hl'
        simp only [Except.ok.injEq] at h
        subst h
        obtain ⟨h1, h2⟩ := addStarts_ok hl'
        refine ⟨by simp [h1], ?_⟩
        intro i r' s' hi
        cases i with
        | zero =>
          simp only [List.getElem?_cons_zero, Option.some.injEq, Prod.mk.injEq] at hi
          obtain ⟨rfl, rfl⟩ := hi
          exact hs
        | succ i => exact h2 i r' s' (by simpa using hi)

theorem addStarts_succeeds : ∀ {rows : List (Row ω)}, (∀ r ∈ rows, ∃ s, startOf r = .ok s) →
    ∃ l, addStarts rows = .ok l
  | [], _ => ⟨[], rfl⟩
  | r :: rest, h => by
    obtain ⟨s, hs⟩ := h r (by simp)
    obtain ⟨l, hl⟩ := addStarts_succeeds (rows := rest) (fun r' hr' => h r' (List.mem_cons_of_mem _ hr'))
    exact ⟨(r, s) :: l, by simp only [addStarts, hs, hl]⟩

theorem shiftFrom_get (corr : Nat → Rat) : ∀ (rows : List (Row ω)) (k i : Nat),
    (shiftFrom corr k rows)[i]? = (rows[i]?).map fun r => { r with time := r.time + corr (k + i) }
  | [], k, i => by simp [shiftFrom]
  | r :: rest, k, 0 => by simp [shiftFrom]
  | r :: rest, k, i + 1 => by
    simp only [shiftFrom, List.getElem?_cons_succ]
    rw [shiftFrom_get corr rest (k + 1) i]
    congr 2
    funext r'
    congr 3
    omega

theorem startOf_some {r : Row ω} {s : Int × Rat} (h : startOf r = .ok (some s)) :
    ∃ c d, r.chan = some c ∧ c.kind = some d ∧ clockSample d r.time = .ok s := by
  unfold startOf at h
  cases hc : r.chan with
  | none => simp [hc] at h
  | some c =>
    cases hk : c.kind with
    | none => simp [hc, hk] at h
    | some d =>
      cases hq : clockSample d r.time with
      | error e => simp [hc, hk, hq] at h
      | ok p =>
        simp only [hc, hk, hq, Except.ok.injEq, Option.some.injEq] at h
        subst h
        exact ⟨c, d, rfl, hk, hq⟩

theorem startOf_exact {r : Row ω} {c : Chan} {d : Dev} {n : Int} (hc : r.chan = some c) (hk : c.kind = some d)
    (h : At d r.time n) : startOf r = .ok (some (n / 8, ((n % 8 : Int) : Rat))) := by
  unfold startOf
  simp only [hc, hk, clockSample_exact h]

theorem startOf_onSample {r : Row ω} (h : OnSample r) : ∃ s, startOf r = .ok s ∧ (s = none ↔ r.chan = none) := by
  cases hc : r.chan with
  | none => exact ⟨none, by simp [startOf, hc], by simp⟩
  | some c =>
    obtain ⟨d, n, hk, hn⟩ := h c hc
    exact ⟨_, startOf_exact hc hk hn, by simp⟩

end Verif.Zi
