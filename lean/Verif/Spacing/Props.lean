/-
C62: operations that are too close together are refused, and others are not.
-/
import Verif.Spacing.Spec
import Verif.Numeric.Props

set_option linter.unusedSimpArgs false
set_option linter.unusedVariables false

namespace Verif.Spacing

open Verif.Numeric (pyRound pyRound_close fineDelay)
open Verif.StableSort (sortBy)
open Spec

/-! ### Fine delays -/

theorem edgesOf_cons_same {k : FKind} {o : FOp} (h : o.kind = k) (ops : List FOp) :
    edgesOf k (o :: ops) = edges o ++ edgesOf k ops := by
  unfold edgesOf
  rw [List.filter_cons_of_pos (by simpa using h), List.flatMap_cons]

theorem edgesOf_cons_other {k : FKind} {o : FOp} (h : o.kind ≠ k) (ops : List FOp) :
    edgesOf k (o :: ops) = edgesOf k ops := by
  unfold edgesOf
  rw [List.filter_cons_of_neg (by simpa using h)]

theorem executable_iff (a b : Int) : Executable a b ↔ ¬((b - a) % 1000 ≠ 0 ∧ b - a < 7000) := by
  unfold Executable
  constructor
  · rintro (h | h) ⟨h1, h2⟩
    · exact h1 (Int.emod_eq_zero_of_dvd h)
    · omega
  · intro h
    by_cases hd : (b - a) % 1000 = 0
    · exact Or.inl (Int.dvd_of_emod_eq_zero hd)
    · exact Or.inr (by omega)

theorem fineLoop_iff : ∀ (ops : List FOp) (lp la : Int), fineLoop lp la ops = .ok () ↔
    Consecutive Executable (lp :: edgesOf .pulse ops) ∧ Consecutive Executable (la :: edgesOf .acq ops)
  | [], lp, la => by simp [fineLoop, edgesOf, Consecutive]
  | o :: ops, lp, la => by
    rw [fineLoop]
    cases hk : o.kind with
    | other =>
      rw [edgesOf_cons_other (by simp [hk]), edgesOf_cons_other (by simp [hk])]
      exact fineLoop_iff ops lp la
    | pulse =>
      rw [edgesOf_cons_same hk, edgesOf_cons_other (by simp [hk])]
      simp only [edges, List.cons_append, List.nil_append, Consecutive, executable_iff]
      generalize hfs : pyRound (o.fineStart * 1000000000000) = fs
      generalize hfe : pyRound (o.fineEnd * 1000000000000) = fe
      generalize hd : pyRound (o.duration * 1000000000) = d
      generalize hst : pyRound (o.timing * 1000000000) = st
      by_cases h1 : (fe - fs) % 1000 ≠ 0 ∧ d * 1000 + fe - fs < 7000
      · rw [if_pos h1]
        constructor
        · intro h; cases h
        · rintro ⟨⟨_, h2, _⟩, _⟩
          exact absurd ⟨by omega, by omega⟩ h2
      · rw [if_neg h1]
        by_cases h2 : (lp - fs) % 1000 ≠ 0 ∧ st * 1000 + fs - lp < 7000
        · rw [if_pos h2]
          constructor
          · intro h; cases h
          · rintro ⟨⟨h3, _, _⟩, _⟩
            exact absurd ⟨by omega, by omega⟩ h3
        · rw [if_neg h2, fineLoop_iff ops]
          have e : st * 1000 + d * 1000 + fe = 1000 * (st + d) + fe := by ring
          rw [e]
          constructor
          · rintro ⟨h3, h4⟩
            exact ⟨⟨by omega, by omega, h3⟩, h4⟩
          · rintro ⟨⟨_, _, h3⟩, h4⟩
            exact ⟨h3, h4⟩
    | acq =>
      rw [edgesOf_cons_same hk, edgesOf_cons_other (by simp [hk])]
      simp only [edges, List.cons_append, List.nil_append, Consecutive, executable_iff]
      generalize hfs : pyRound (o.fineStart * 1000000000000) = fs
      generalize hfe : pyRound (o.fineEnd * 1000000000000) = fe
      generalize hd : pyRound (o.duration * 1000000000) = d
      generalize hst : pyRound (o.timing * 1000000000) = st
      by_cases h1 : (fe - fs) % 1000 ≠ 0 ∧ d * 1000 + fe - fs < 7000
      · rw [if_pos h1]
        constructor
        · intro h; cases h
        · rintro ⟨_, _, h2, _⟩
          exact absurd ⟨by omega, by omega⟩ h2
      · rw [if_neg h1]
        by_cases h2 : (la - fs) % 1000 ≠ 0 ∧ st * 1000 + fs - la < 7000
        · rw [if_pos h2]
          constructor
          · intro h; cases h
          · rintro ⟨_, h3, _, _⟩
            exact absurd ⟨by omega, by omega⟩ h3
        · rw [if_neg h2, fineLoop_iff ops]
          have e : st * 1000 + d * 1000 + fe = 1000 * (st + d) + fe := by ring
          rw [e]
          constructor
          · rintro ⟨h3, h4⟩
            exact ⟨h3, by omega, by omega, h4⟩
          · rintro ⟨h3, _, _, h4⟩
            exact ⟨h3, h4⟩

theorem consecutive_cons {R : Int → Int → Prop} {a : Int} {l : List Int} (h : ∀ b ∈ l, R a b) :
    Consecutive R (a :: l) ↔ Consecutive R l := by
  cases l with
  | nil => simp [Consecutive]
  | cons b l => exact ⟨fun h' => h'.2, fun h' => ⟨h b (by simp), h'⟩⟩

/-- **C62.** A QTM sequencer is accepted exactly if consecutive edges of its pulses, and consecutive edges of its
acquisitions, are a whole number of ns or at least 7 ns apart. -/
theorem fine_iff (ops : List FOp) (h0 : ∀ o ∈ ops, ∀ e ∈ edges o, 0 ≤ e) : fineCheck ops = .ok () ↔
    Consecutive Executable (edgesOf .pulse ops) ∧ Consecutive Executable (edgesOf .acq ops) := by
  have key : ∀ k, ∀ e ∈ edgesOf k ops, Executable (-7000) e := by
    intro k e he
    unfold edgesOf at he
    obtain ⟨o, ho, he⟩ := List.mem_flatMap.mp he
    have := h0 o (List.mem_filter.mp ho).1 e he
    exact Or.inr (by omega)
  rw [fineCheck, fineLoop_iff, consecutive_cons (key .pulse), consecutive_cons (key .acq)]

theorem consecutive_pairwise : ∀ (l : List Int), Consecutive Executable l → l.Pairwise (fun a b => a ≤ b) →
    l.Pairwise Executable
  | [], _, _ => List.Pairwise.nil
  | [a], _, _ => by simp
  | a :: b :: l, h, hs => by
    have ih := consecutive_pairwise (b :: l) h.2 (List.pairwise_cons.mp hs).2
    refine List.pairwise_cons.mpr ⟨?_, ih⟩
    intro x hx
    rcases List.mem_cons.mp hx with rfl | hx
    · exact h.1
    · have h1 := h.1
      have h2 := (List.pairwise_cons.mp ih).1 x hx
      have o1 := (List.pairwise_cons.mp hs).1 b (by simp)
      have o2 := (List.pairwise_cons.mp (List.pairwise_cons.mp hs).2).1 x hx
      unfold Executable at *
      rcases h1 with ⟨c, h1⟩ | h1
      · rcases h2 with ⟨d, h2⟩ | h2
        · exact Or.inl ⟨c + d, by omega⟩
        · exact Or.inr (by omega)
      · exact Or.inr (by omega)

/-- If the edges are in order, then the same holds of any two of them, not only of consecutive ones. -/
theorem fine_pairs (ops : List FOp) (h : fineCheck ops = .ok ()) (k : FKind) (hk : k ≠ .other)
    (hs : (edgesOf k ops).Pairwise (fun a b => a ≤ b)) : (edgesOf k ops).Pairwise Executable := by
  have h' := (fineLoop_iff ops _ _).mp h
  have drop : ∀ (a : Int) (l : List Int), Consecutive Executable (a :: l) → Consecutive Executable l := by
    intro a l h
    cases l with
    | nil => trivial
    | cons b l => exact h.2
  cases k with
  | pulse => exact consecutive_pairwise _ (drop _ _ h'.1) hs
  | acq => exact consecutive_pairwise _ (drop _ _ h'.2) hs
  | other => exact absurd rfl hk

/-- The time of an edge on the hardware, in units of 1/128 ns. -/
def Hw (ns : Int) (delay : Rat) (t : Int) : Prop := ∃ n, fineDelay delay = .ok n ∧ t = 128 * ns + n

theorem hw_close {ns t : Int} {delay : Rat} (h : Hw ns delay t) :
    |(t : Rat) - 128 / 1000 * ((1000 * ns + pyRound (delay * 1000000000000) : Int) : Rat)| ≤ 1 / 2 + 128 / 2000 := by
  obtain ⟨n, hn, rfl⟩ := h
  have hn' : pyRound (delay * 128000000000) = n := by
    unfold fineDelay at hn
    simp only at hn
    split at hn
    · cases hn
    · injection hn
  have h1 := pyRound_close (delay * 128000000000)
  have h2 := pyRound_close (delay * 1000000000000)
  rw [hn'] at h1
  rw [abs_le] at h1 h2 ⊢
  push_cast
  constructor <;> linarith [h1.1, h1.2, h2.1, h2.2]

/-- On the hardware, which has a resolution of 1/128 ns, what the check means is true up to one step: edges that are
executable for the check are a whole number of ns apart, up to 1/128 ns, or at least 7 ns less 1/128 ns. -/
theorem executable_hw {a b : Int} {da db : Rat} {ta tb : Int} (ha : Hw a da ta) (hb : Hw b db tb)
    (h : Executable (1000 * a + pyRound (da * 1000000000000)) (1000 * b + pyRound (db * 1000000000000))) :
    (∃ k, |tb - ta - 128 * k| ≤ 1) ∨ 895 ≤ tb - ta := by
  have h1 := hw_close ha
  have h2 := hw_close hb
  generalize hA : 1000 * a + pyRound (da * 1000000000000) = A at *
  generalize hB : 1000 * b + pyRound (db * 1000000000000) = B at *
  rw [abs_le] at h1 h2
  rcases h with ⟨k, hk⟩ | h
  · left
    refine ⟨k, ?_⟩
    have hk' : (B : Rat) - A = 1000 * k := by exact_mod_cast hk
    have u : ((tb - ta - 128 * k : Int) : Rat) < 2 := by push_cast; linarith [h1.1, h2.2]
    have l : (-2 : Rat) < ((tb - ta - 128 * k : Int) : Rat) := by push_cast; linarith [h1.2, h2.1]
    have u' : tb - ta - 128 * k < 2 := by exact_mod_cast u
    have l' : -2 < tb - ta - 128 * k := by exact_mod_cast l
    rw [abs_le]
    omega
  · right
    have h' : (7000 : Rat) ≤ B - A := by exact_mod_cast h
    have l : (894 : Rat) < ((tb - ta : Int) : Rat) := by push_cast; linarith [h1.2, h2.1]
    have l' : 894 < tb - ta := by exact_mod_cast l
    omega

/-! ### Frequency and phase -/

theorem checkTiming_ok (t : Int) (last : Option Int) (r : Int) :
    checkTiming t last = .ok r ↔ r = t ∧ ∀ x, last = some x → 4 ≤ t - x := by
  cases last with
  | none => simp [checkTiming, eq_comm]
  | some x =>
    unfold checkTiming
    by_cases h : t - x < 4
    · simp only [h, if_true]
      constructor
      · intro h'; cases h'
      · rintro ⟨_, h'⟩; have := h' x rfl; omega
    · simp only [h, if_false]
      constructor
      · intro h'
        injection h' with h'
        exact ⟨h'.symm, fun y hy => by injection hy with hy; omega⟩
      · rintro ⟨rfl, _⟩; rfl

/-- Does the last update of its type leave enough time? -/
def After (f p : Option Int) (o : NOp) : Prop :=
  (o.kind = .frequency → ∀ x, f = some x → 4 ≤ o.time - x) ∧
  ((o.kind = .phaseShift ∨ o.kind = .resetPhase) → ∀ x, p = some x → 4 ≤ o.time - x)

theorem ncoLoop_iff : ∀ (ops : List NOp) (f p : Option Int), ops.Pairwise (fun a b => a.time ≤ b.time) →
    (ncoLoop f p ops = .ok () ↔ (∀ o ∈ ops, After f p o) ∧ ops.Pairwise (fun a b => Same a b → 4 ≤ b.time - a.time))
  | [], f, p, _ => by simp [ncoLoop]
  | o :: ops, f, p, hs => by
    rw [List.pairwise_cons] at hs
    rw [ncoLoop, List.forall_mem_cons, List.pairwise_cons]
    have other : ∀ k, o.kind = k → ∀ x : NOp, Same o x ↔
        (k = .frequency ∧ x.kind = .frequency) ∨ ((k = .phaseShift ∨ k = .resetPhase) ∧
          (x.kind = .phaseShift ∨ x.kind = .resetPhase)) := by
      intro k hk x
      unfold Same
      rw [hk]
    have phase : (o.kind = .phaseShift ∨ o.kind = .resetPhase) →
        ((match checkTiming o.time p with
          | .error e => (Except.error e : Except Err Unit)
          | .ok p' => ncoLoop f (some p') ops) = .ok () ↔ (After f p o ∧ ∀ o ∈ ops, After f p o) ∧
            (∀ a' ∈ ops, Same o a' → 4 ≤ a'.time - o.time) ∧
            ops.Pairwise (fun a b => Same a b → 4 ≤ b.time - a.time)) := by
      intro hk
      have hnf : o.kind ≠ .frequency := by rcases hk with h | h <;> simp [h]
      cases hc : checkTiming o.time p with
      | error e =>
        constructor
        · intro h; cases h
        · rintro ⟨⟨h1, _⟩, _⟩
          have := (checkTiming_ok o.time p o.time).mpr ⟨rfl, h1.2 hk⟩
          rw [hc] at this
          cases this
      | ok r =>
        obtain ⟨rfl, hr⟩ := (checkTiming_ok _ _ _).mp hc
        show ncoLoop f (some o.time) ops = .ok () ↔ _
        rw [ncoLoop_iff ops f (some o.time) hs.2]
        constructor
        · rintro ⟨h1, h2⟩
          refine ⟨⟨⟨fun h => absurd h hnf, fun _ => hr⟩, fun x hx => ⟨(h1 x hx).1, fun hp y hy => ?_⟩⟩, ?_, h2⟩
          · have a1 := (h1 x hx).2 hp o.time rfl
            have a2 := hr y hy
            omega
          · intro x hx hsame
            refine (h1 x hx).2 ?_ o.time rfl
            unfold Same at hsame
            rcases hsame with ⟨h, _⟩ | ⟨_, h⟩
            · exact absurd h hnf
            · exact h
        · rintro ⟨⟨_, h1⟩, h2, h3⟩
          refine ⟨fun x hx => ⟨(h1 x hx).1, fun hp y hy => ?_⟩, h3⟩
          injection hy with hy
          subst hy
          exact h2 x hx (Or.inr ⟨hk, hp⟩)
    cases hk : o.kind with
    | other =>
      simp only
      rw [ncoLoop_iff ops f p hs.2]
      constructor
      · rintro ⟨h1, h2⟩
        refine ⟨⟨⟨fun h => ?_, fun h => ?_⟩, h1⟩, fun x hx hsame => ?_, h2⟩
        · rw [hk] at h; cases h
        · rw [hk] at h; rcases h with h | h <;> cases h
        · rw [other _ hk] at hsame
          simp at hsame
      · rintro ⟨⟨_, h1⟩, _, h2⟩
        exact ⟨h1, h2⟩
    | phaseShift => exact phase (Or.inl hk)
    | resetPhase => exact phase (Or.inr hk)
    | frequency =>
      simp only
      have hnp : ¬(o.kind = .phaseShift ∨ o.kind = .resetPhase) := by simp [hk]
      cases hc : checkTiming o.time f with
      | error e =>
        constructor
        · intro h; cases h
        · rintro ⟨⟨h1, _⟩, _⟩
          have := (checkTiming_ok o.time f o.time).mpr ⟨rfl, h1.1 hk⟩
          rw [hc] at this
          cases this
      | ok r =>
        obtain ⟨rfl, hr⟩ := (checkTiming_ok _ _ _).mp hc
        show ncoLoop (some o.time) p ops = .ok () ↔ _
        rw [ncoLoop_iff ops (some o.time) p hs.2]
        constructor
        · rintro ⟨h1, h2⟩
          refine ⟨⟨⟨fun _ => hr, fun h => absurd h hnp⟩, fun x hx => ⟨fun hp y hy => ?_, (h1 x hx).2⟩⟩, ?_, h2⟩
          · have a1 := (h1 x hx).1 hp o.time rfl
            have a2 := hr y hy
            omega
          · intro x hx hsame
            refine (h1 x hx).1 ?_ o.time rfl
            unfold Same at hsame
            rcases hsame with ⟨_, h⟩ | ⟨h, _⟩
            · exact h
            · exact absurd h hnp
        · rintro ⟨⟨_, h1⟩, h2, h3⟩
          refine ⟨fun x hx => ⟨fun hp y hy => ?_, (h1 x hx).2⟩, h3⟩
          injection hy with hy
          subst hy
          exact h2 x hx (Or.inl ⟨hk, hp⟩)

theorem same_symm {a b : NOp} (h : Same a b) : Same b a := by
  unfold Same at *
  tauto

/-- **C62.** A sequencer is accepted exactly if any two of its frequency updates, and any two of its phase updates
(shifts and resets), are at least 4 ns apart, in whatever order they were added. -/
theorem nco_iff (ops : List NOp) : ncoCheck ops = .ok () ↔
    ops.Pairwise (fun a b => Same a b → 4 ≤ |a.time - b.time|) := by
  have hsort := StableSort.sortBy_sorted NOp.time ops
  rw [ncoCheck, ncoLoop_iff _ none none hsort]
  have hperm := StableSort.sortBy_perm NOp.time ops
  have hsym : ∀ {a b : NOp}, (Same a b → 4 ≤ |a.time - b.time|) → (Same b a → 4 ≤ |b.time - a.time|) := by
    intro a b h hs
    rw [abs_sub_comm]
    exact h (same_symm hs)
  rw [← hperm.pairwise_iff hsym]
  constructor
  · rintro ⟨_, h⟩
    refine h.imp ?_
    intro a b hab hs
    have := hab hs
    rw [abs_sub_comm]
    exact le_trans this (le_abs_self _)
  · intro h
    refine ⟨fun o _ => ⟨fun _ x hx => (by cases hx), fun _ x hx => (by cases hx)⟩, ?_⟩
    refine (List.Pairwise.and h hsort).imp ?_
    rintro a b ⟨h1, h2⟩ hs
    have := h1 hs
    have h2' : a.time ≤ b.time := h2
    rw [abs_sub_comm, abs_of_nonneg (by omega)] at this
    exact this

end Verif.Spacing
