/-
Properties C01-C08: the timing pass against the meaning of timing constraints (`Spec.lean`).
-/
import Verif.Timing.ProgressLemmas

set_option linter.unusedSectionVars false
set_option linter.unusedSimpArgs false

namespace Verif.Timing

variable {κ : Type} [DecidableEq κ]

/-! ## a concrete schedule used to show hypotheses are met -/

/-- Three operations: `1` right after `0`; `2` ends at the centre of `0`, starts after `1`'s start
minus 5 (two constraints), and operation 0 imposes a delay of 3. -/
def exSched : List (Item Nat) :=
  [ { key := 0, dur := 20, delay := some 3, cons := [⟨none, none, none, 0⟩], abs := none },
    { key := 1, dur := 10, delay := none, cons := [⟨none, none, none, 4⟩], abs := none },
    { key := 2, dur := 40, delay := none,
      cons := [⟨some 0, some .center, some .stop, 0⟩, ⟨some 1, some .start, none, -60⟩],
      abs := none } ]

theorem exSched_unique : UniqueKeys exSched := by unfold UniqueKeys; decide
theorem exSched_fresh : Fresh exSched := by
  intro it h; simp [exSched] at h; rcases h with rfl | rfl | rfl <;> rfl

/-- Reading off a concrete successful run. -/
theorem timed_of {strat : Strategy} {s : List (Item κ)} {l : List (Option Rat)}
    (h : (timing strat s).toOption.map (fun out => out.map (·.abs)) = some l) :
    ∃ out, timing strat s = .ok out ∧ out.map (·.abs) = l := by
  cases ht : timing strat s with
  | error e => rw [ht] at h; simp [Except.toOption] at h
  | ok out => rw [ht] at h; exact ⟨out, rfl, by simpa [Except.toOption] using h⟩

/-- The pass succeeds on it: times 27, 54, 0 after normalisation (before: 0, 27, -27). -/
theorem exSched_timed : ∃ out, timing .asap exSched = .ok out ∧
    out.map (·.abs) = [some 27, some 54, some 0] := by
  apply timed_of
  decide +kernel

/-! ## C01 -/

/-- C01. After ASAP timing: the labels are kept; every start time is at least what each timing
constraint requires; every schedulable but the first meets one of its constraints exactly; the
first has no requirement. -/
theorem asap_satisfies_constraints {s out : List (Item κ)} (hu : UniqueKeys s) (hf : Fresh s)
    (h : timing .asap s = .ok out) :
    out.map (·.key) = s.map (·.key) ∧
    ∀ (i : Nat) (it : Item κ), s[i]? = some it →
      (∀ t, Requires .asap s (startOf out) i t → t ≤ startOf out it.key) ∧
      (i ≠ 0 → Requires .asap s (startOf out) i (startOf out it.key)) ∧
      (i = 0 → ∀ t, ¬ Requires .asap s (startOf out) i t) := by
  obtain ⟨s', A, k, ks, d, hs', hu', hp, ht, h0, he, hd, hall, hmin, hout⟩ := timing_core hu h
  refine ⟨?_, ?_⟩
  · rw [hout, List.map_map, ← makeExplicit_keys hs']; rfl
  · intro i it hi
    obtain ⟨it', hi', hone⟩ := (makeExplicit_get hs').2 i it hi
    obtain ⟨ek, ed, edl, ea⟩ := makeExplicitOne_same hone
    have hm' : it' ∈ s' := List.mem_iff_getElem?.2 ⟨i, hi'⟩
    have hkey : it'.key ∈ k :: ks := hp.mem_iff.2 (List.mem_map.2 ⟨it', hm', rfl⟩)
    have hil : i < s.length := by
      by_contra hn; rw [List.getElem?_eq_none (by omega)] at hi; cases hi
    have hroot : predsOf s' k = [] := by
      rw [List.eq_nil_iff_forall_not_mem]; intro p hp'; exact ht.1 p hp'
    -- start times in terms of `A`
    have hT : ∀ ri ∈ s', startOf out ri.key = (A ri.key).getD 0 + d := by
      intro ri hri
      obtain ⟨a, ha, -, hs⟩ := hall ri hri
      rw [hs, ha]; rfl
    have hshift : ∀ c ri, ri ∈ s' → need (startOf out) it' c ri =
        need (fun k => (A k).getD 0) it' c ri + d := by
      intro c ri hri
      rw [← need_shift]
      exact need_congr (hT ri hri)
    by_cases hik : it'.key = k
    · -- the root
      have hnb := root_index hs' hu' hi' (by rw [hik]; exact hroot)
      have hi0 : i = 0 := (neighbour_none_asap hil).1 hnb
      have hno : ∀ t, ¬ Requires .asap s (startOf out) i t := by
        intro t hreq
        obtain ⟨it2, c, ri, h1, h2, h3, h4, -⟩ := (requires_iff hs').1 hreq
        rw [hi', Option.some.injEq] at h1
        subst h1
        have : ri.key ∈ predsOf s' it'.key :=
          mem_predsOf.2 ⟨c, by rw [consOf_find (findItem_mem hu' hm')]; exact h2, h4⟩
        rw [hik, hroot] at this; cases this
      exact ⟨fun t ht' => absurd ht' (hno t), fun hne => absurd hi0 hne, fun _ => hno⟩
    · have hks : it'.key ∈ ks := by
        rcases List.mem_cons.1 hkey with e | e
        · exact absurd e hik
        · exact e
      have hi0 : i ≠ 0 := by
        -- the head of the order sits at index 0
        intro e
        obtain ⟨itk, hmk, hkk⟩ := List.mem_map.1 (hp.mem_iff.1 (List.mem_cons_self (a := k) (l := ks)))
        obtain ⟨ik, hik'⟩ := List.mem_iff_getElem?.1 hmk
        have hnb := root_index hs' hu' hik' (by rw [hkk]; exact hroot)
        have hikl : ik < s.length := by
          rw [← (makeExplicit_get hs').1]
          by_contra hn; rw [List.getElem?_eq_none (by omega)] at hik'; cases hik'
        have := (neighbour_none_asap hikl).1 hnb
        subst this; subst e
        rw [hi', Option.some.injEq] at hik'
        subst hik'; exact hik hkk
      have hne : it'.cons ≠ [] := by
        obtain ⟨-, c, cs, -, rfl⟩ := makeExplicitOne_ok hone; simp
      have hfr : it'.abs = none := by rw [ea]; exact hf it (List.mem_iff_getElem?.2 ⟨i, hi⟩)
      obtain ⟨a, ha, hle, c, hc, ri, hri, hcr, heq⟩ := eqn_asap hu' hm' hfr (he _ hks) hne
      have hTit : startOf out it.key = a + d := by
        rw [← ek, hT it' hm', ha]; rfl
      refine ⟨?_, ?_, fun e => absurd e hi0⟩
      · intro t hreq
        obtain ⟨it2, c', ri', h1, h2, h3, h4, rfl⟩ := (requires_iff hs').1 hreq
        rw [hi', Option.some.injEq] at h1
        subst h1
        obtain ⟨ri2, hri2, b, e1, e2, e3⟩ := hle c' h2
        rw [h4, Option.some.injEq] at e1
        have : ri' = ri2 := by
          have x1 := findItem_mem hu' h3
          have x2 := findItem_mem hu' hri2
          rw [e1, x2, Option.some.injEq] at x1
          exact x1.symm
        subst this
        rw [hshift c' ri' h3, hTit]; linarith
      · intro _
        refine (requires_iff hs').2 ⟨it', c, ri, hi', hc, hri, hcr, ?_⟩
        rw [hshift c ri hri, heq, hTit]

example : ∃ out, timing .asap exSched = .ok out ∧ UniqueKeys exSched ∧ Fresh exSched ∧
    Requires .asap exSched (startOf out) 2 (startOf out 2) := by
  obtain ⟨out, h, -⟩ := exSched_timed
  exact ⟨out, h, exSched_unique, exSched_fresh,
    ((asap_satisfies_constraints exSched_unique exSched_fresh h).2 2 _ rfl).2.1 (by decide)⟩

/-! ## C03 -/

/-- C03. After timing (either strategy) no start time is negative. -/
theorem times_nonneg {strat : Strategy} {s out : List (Item κ)} (hu : UniqueKeys s)
    (h : timing strat s = .ok out) : ∀ it ∈ out, ∃ t, it.abs = some t ∧ 0 ≤ t := by
  obtain ⟨s', A, k, ks, d, hs', hu', hp, ht, h0, he, hd, hall, hmin, hout⟩ := timing_core hu h
  intro it hit
  rw [hout] at hit
  obtain ⟨it', h1, rfl⟩ := List.mem_map.1 hit
  obtain ⟨a, ha, hpos, -⟩ := hall it' h1
  exact ⟨a + d, by simp [ha], hpos⟩

example : ∃ out, timing .asap exSched = .ok out ∧ ∀ it ∈ out, ∃ t, it.abs = some t ∧ 0 ≤ t := by
  obtain ⟨out, h, -⟩ := exSched_timed
  exact ⟨out, h, times_nonneg exSched_unique h⟩

/-- C03. Normalisation adds one common amount to all times, none if no time was negative, and
otherwise exactly enough for the earliest to become zero. Nothing else changes. -/
theorem normalize_is_translation {l out : List (Item κ)} (h : normalize l = .ok out) :
    ∃ d : Rat, out.length = l.length ∧
      (∀ (i : Nat) it it', l[i]? = some it → out[i]? = some it' →
        it'.key = it.key ∧ it'.dur = it.dur ∧ it'.cons = it.cons ∧
        ∃ t, it.abs = some t ∧ it'.abs = some (t + d) ∧ 0 ≤ t + d) ∧
      ((∀ it ∈ l, ∀ t, it.abs = some t → 0 ≤ t) → d = 0) ∧
      ((∃ it ∈ l, ∃ t, it.abs = some t ∧ t < 0) → ∃ it ∈ out, it.abs = some 0) := by
  obtain ⟨d, hd, hout, hall, hmin⟩ := normalize_ok h
  refine ⟨d, by rw [hout]; simp, ?_, ?_, ?_⟩
  · intro i it it' h1 h2
    rw [hout, List.getElem?_map, h1] at h2
    simp only [Option.map_some, Option.some.injEq] at h2
    subst h2
    obtain ⟨a, ha, hpos⟩ := hall it (List.mem_iff_getElem?.2 ⟨i, h1⟩)
    exact ⟨rfl, rfl, rfl, a, ha, by simp [ha], hpos⟩
  · intro hn
    rcases hmin with h | ⟨it, hit, ha⟩
    · exact h
    · have := hn it hit _ ha; linarith
  · rintro ⟨it, hit, t, ht, hneg⟩
    rcases hmin with h | ⟨it2, hit2, ha⟩
    · obtain ⟨a, ha, hpos⟩ := hall it hit
      rw [ht, Option.some.injEq] at ha
      subst ha; subst h; linarith
    · refine ⟨{ it2 with abs := it2.abs.map (· + d) }, ?_, by simp [ha]⟩
      rw [hout]; exact List.mem_map.2 ⟨it2, hit2, rfl⟩

example : ∃ out, normalize [{ key := 0, dur := 20, delay := none, cons := [], abs := some (-7) },
    { key := 1, dur := 5, delay := none, cons := [], abs := some (3 : Rat) }] = .ok out ∧
    out.map (·.abs) = [some 0, some 10] := ⟨_, rfl, by decide +kernel⟩

/-! ## C04 -/

/-- C04. After ALAP timing: labels are kept, every schedulable had exactly one constraint, every
schedulable but the last starts exactly where its constraint requires. -/
theorem alap_satisfies_constraints {s out : List (Item κ)} (hu : UniqueKeys s)
    (h : timing .alap s = .ok out) :
    out.map (·.key) = s.map (·.key) ∧ (∀ it ∈ s, it.cons.length = 1) ∧
    ∀ (i : Nat) (it : Item κ), s[i]? = some it →
      (i + 1 ≠ s.length → Requires .alap s (startOf out) i (startOf out it.key)) ∧
      (∀ t, Requires .alap s (startOf out) i t → t = startOf out it.key) := by
  obtain ⟨s', A, k, ks, d, hs', hu', hp, ht, h0, he, hd, hall, hmin, hout⟩ := timing_core hu h
  refine ⟨?_, ?_, ?_⟩
  · rw [hout, List.map_map, ← makeExplicit_keys hs']; rfl
  · intro it hit
    obtain ⟨i, hi⟩ := List.mem_iff_getElem?.1 hit
    obtain ⟨it', -, hone⟩ := (makeExplicit_get hs').2 i it hi
    exact (makeExplicitOne_ok hone).1 rfl
  · intro i it hi
    obtain ⟨it', hi', hone⟩ := (makeExplicit_get hs').2 i it hi
    obtain ⟨ek, ed, edl, ea⟩ := makeExplicitOne_same hone
    have hm' : it' ∈ s' := List.mem_iff_getElem?.2 ⟨i, hi'⟩
    have hkey : it'.key ∈ k :: ks := hp.mem_iff.2 (List.mem_map.2 ⟨it', hm', rfl⟩)
    have hil : i < s.length := by
      by_contra hn; rw [List.getElem?_eq_none (by omega)] at hi; cases hi
    have hroot : predsOf s' k = [] := by
      rw [List.eq_nil_iff_forall_not_mem]; intro p hp'; exact ht.1 p hp'
    have hT : ∀ ri ∈ s', startOf out ri.key = (A ri.key).getD 0 + d := by
      intro ri hri
      obtain ⟨a, ha, -, hs⟩ := hall ri hri
      rw [hs, ha]; rfl
    have hshift : ∀ c ri, ri ∈ s' → need (startOf out) it' c ri =
        need (fun k => (A k).getD 0) it' c ri + d := by
      intro c ri hri
      rw [← need_shift]
      exact need_congr (hT ri hri)
    by_cases hik : it'.key = k
    · have hnb := root_index hs' hu' hi' (by rw [hik]; exact hroot)
      have hi0 := (neighbour_none_alap hil).1 hnb
      refine ⟨fun hne => absurd hi0 hne, ?_⟩
      intro t hreq
      exfalso
      obtain ⟨it2, c, ri, h1, h2, h3, h4, -⟩ := (requires_iff hs').1 hreq
      rw [hi', Option.some.injEq] at h1
      subst h1
      have : ri.key ∈ predsOf s' it'.key :=
        mem_predsOf.2 ⟨c, by rw [consOf_find (findItem_mem hu' hm')]; exact h2, h4⟩
      rw [hik, hroot] at this; cases this
    · have hks : it'.key ∈ ks := by
        rcases List.mem_cons.1 hkey with e | e
        · exact absurd e hik
        · exact e
      obtain ⟨a, c, cs, ha, hc, ri, hri, hcr, heq⟩ := eqn_alap hu' hm' (he _ hks)
      have hcs : cs = [] := by
        obtain ⟨hl, c0, cs0, e1, e2⟩ := makeExplicitOne_ok hone
        have hl := hl rfl
        rw [e1] at hl
        simp only [List.length_cons, Nat.add_eq_right, List.length_eq_zero_iff] at hl
        subst hl
        rw [e2] at hc
        simp only [List.cons.injEq] at hc
        exact hc.2.symm
      have hTit : startOf out it.key = a + d := by
        rw [← ek, hT it' hm', ha]; rfl
      refine ⟨fun _ => (requires_iff hs').2 ⟨it', c, ri, hi', by simp [hc], hri, hcr, ?_⟩, ?_⟩
      · rw [hshift c ri hri, heq, hTit]
      · intro t hreq
        obtain ⟨it2, c', ri', h1, h2, h3, h4, rfl⟩ := (requires_iff hs').1 hreq
        rw [hi', Option.some.injEq] at h1
        subst h1
        rw [hc, hcs, List.mem_singleton] at h2
        subst h2
        rw [hcr, Option.some.injEq] at h4
        have : ri' = ri := by
          have x1 := findItem_mem hu' h3
          have x2 := findItem_mem hu' hri
          rw [← h4, x2, Option.some.injEq] at x1
          exact x1.symm
        subst this
        rw [hshift c' ri' h3, heq, hTit]

/-- ALAP needs single constraints: more are rejected. -/
theorem alap_rejects_several {s : List (Item κ)} (hne : s ≠ [])
    (h : ∃ it ∈ s, it.cons.length ≠ 1) : timing .alap s = .error .notImplemented := by
  have key : ∀ (l : List (Item κ)) (ds : List (Option κ)), l.length ≤ ds.length →
      (∃ it ∈ l, it.cons.length ≠ 1) → makeExplicitAux .alap l ds = .error .notImplemented := by
    intro l
    induction l with
    | nil => rintro ds - ⟨it, hit, -⟩; cases hit
    | cons a l ih =>
      rintro ds hl ⟨it, hit, hlen⟩
      cases ds with
      | nil => simp at hl
      | cons d ds =>
        simp only [makeExplicitAux]
        by_cases ha : a.cons.length = 1
        · obtain ⟨a', ha'⟩ := makeExplicitOne_of (strat := .alap) (it := a) (d := d)
            (by intro e; rw [e] at ha; simp at ha) (fun _ => ha)
          rw [ha']
          rw [ih ds (by simpa using hl) ⟨it, by
            rcases List.mem_cons.1 hit with rfl | h
            · exact absurd ha hlen
            · exact h, hlen⟩]
        · have : makeExplicitOne .alap a d = .error .notImplemented := by
            unfold makeExplicitOne; rw [if_pos ⟨rfl, ha⟩]
          rw [this]
  unfold timing
  rw [if_neg hne]
  unfold makeExplicit
  rw [key s _ (by rw [defaultRefs_length _ hne]) h]

/-- ALAP with default references: `0` ends where `1` starts, `1` where `2` starts. -/
def exAlap : List (Item Nat) :=
  [ { key := 0, dur := 20, delay := none, cons := [⟨none, none, none, 0⟩], abs := none },
    { key := 1, dur := 10, delay := none, cons := [⟨some 2, some .start, none, -4⟩], abs := none },
    { key := 2, dur := 40, delay := none, cons := [⟨none, none, none, 0⟩], abs := none } ]

example : ∃ out, timing .alap exAlap = .ok out ∧ out.map (·.abs) = [some 0, some 20, some 34] ∧
    Requires .alap exAlap (startOf out) 0 (startOf out 0) := by
  have h : ∃ out, timing .alap exAlap = .ok out ∧ out.map (·.abs) = [some 0, some 20, some 34] :=
    timed_of (by decide +kernel)
  obtain ⟨out, h, ho⟩ := h
  exact ⟨out, h, ho, ((alap_satisfies_constraints (by unfold UniqueKeys; decide) h).2.2 0 _ rfl).1 (by decide)⟩

example : timing .alap exSched = .error .notImplemented :=
  alap_rejects_several (by decide) ⟨_, List.mem_cons_of_mem _ (List.mem_cons_of_mem _
    (List.mem_singleton.2 rfl)), by decide⟩

/-! ## C05 -/

/-- C05. ASAP times are the least ones: any other assignment `T` of times that meets every
constraint and starts the first schedulable no earlier, starts everything no earlier. -/
theorem asap_is_least {s out : List (Item κ)} (hu : UniqueKeys s) (hf : Fresh s)
    (h : timing .asap s = .ok out) (T : κ → Rat)
    (hfirst : ∀ it, s[0]? = some it → startOf out it.key ≤ T it.key)
    (hT : ∀ (i : Nat) it t, s[i]? = some it → Requires .asap s T i t → t ≤ T it.key) :
    ∀ it ∈ s, startOf out it.key ≤ T it.key := by
  have hsat := asap_satisfies_constraints hu hf h
  obtain ⟨s', A, k, ks, d, hs', hu', hp, ht, -, -, -, -, -, -⟩ := timing_core hu h
  have hlen := (makeExplicit_get hs').1
  -- along the topological order
  have key : ∀ (l : List κ) (done : Set κ), TopoFrom (predsOf s') done l →
      (∀ x ∈ l, x ∈ s'.map (·.key)) → (∀ x ∈ done, startOf out x ≤ T x) →
      ∀ x ∈ l, startOf out x ≤ T x := by
    intro l
    induction l with
    | nil => intro _ _ _ _ x hx; cases hx
    | cons y ys ih =>
      intro done htd hmem hdone
      have hy : startOf out y ≤ T y := by
        obtain ⟨it', hm', rfl⟩ := List.mem_map.1 (hmem y (by simp))
        obtain ⟨i, hi'⟩ := List.mem_iff_getElem?.1 hm'
        obtain ⟨it, hi, hone⟩ := makeExplicit_get' hs' i it' hi'
        have ek := (makeExplicitOne_same hone).1
        rw [ek]
        by_cases hi0 : i = 0
        · subst hi0; exact hfirst it hi
        · have hreq := (hsat.2 i it hi).2.1 hi0
          obtain ⟨it2, c, ri, h1, h2, h3, h4, h5⟩ := (requires_iff hs').1 hreq
          rw [hi', Option.some.injEq] at h1
          subst h1
          have hrd : ri.key ∈ done := htd.1 ri.key
            (mem_predsOf.2 ⟨c, by rw [consOf_find (findItem_mem hu' hm')]; exact h2, h4⟩)
          have hle := need_mono (it := it') (c := c) (hdone _ hrd)
          have := hT i it _ hi ((requires_iff hs').2 ⟨it', c, ri, hi', h2, h3, h4, rfl⟩)
          rw [h5]; linarith
      intro x hx
      rcases List.mem_cons.1 hx with rfl | hx
      · exact hy
      · refine ih (insert y done) htd.2.2 (fun z hz => hmem z (by simp [hz])) ?_ x hx
        intro z hz
        rcases hz with rfl | hz
        · exact hy
        · exact hdone z hz
  intro it hit
  obtain ⟨it', hm', ek, -⟩ := makeExplicit_mem hs' hit
  rw [← ek]
  exact key (k :: ks) ∅ ht (fun x hx => hp.mem_iff.1 hx) (by simp) _
    (hp.mem_iff.2 (List.mem_map.2 ⟨it', hm', rfl⟩))

/-- The hypotheses are met by a strictly later assignment. -/
example : ∃ out, timing .asap exSched = .ok out ∧
    ∀ it ∈ exSched, startOf out it.key ≤ startOf out it.key + 1 := by
  obtain ⟨out, h, ho⟩ := exSched_timed
  refine ⟨out, h, asap_is_least exSched_unique exSched_fresh h (fun k => startOf out k + 1)
    (fun it _ => by linarith) ?_⟩
  intro i it t hi hreq
  have hs := (asap_satisfies_constraints exSched_unique exSched_fresh h).2 i it hi
  obtain ⟨it2, j, c, ri, h1, h2, h3, h4, rfl⟩ := hreq
  have := hs.1 _ ⟨it2, j, c, ri, h1, h2, h3, h4, rfl⟩
  linarith

/-- C05. The result does not depend on the topological order used: whatever topological order of
the references a graph library returns, the pass gives the same times. -/
theorem order_independent {strat : Strategy} {s out : List (Item κ)} (hu : UniqueKeys s)
    (h : timing strat s = .ok out) :
    ∃ s', makeExplicit strat s = .ok s' ∧
      ∀ o, TopologicalOrder s' o → timeWith strat s' o = .ok out := by
  obtain ⟨s', o₁, -, hs', hne, hu', hc, hp₁, t₁, hw⟩ := timing_ok hu h
  refine ⟨s', hs', ?_⟩
  intro o₂ h₂
  have t₂ := topoFrom_of_order hu' h₂
  obtain ⟨A, k, ks, d, rfl, a0, ae, ad, aout, aall, amin⟩ := timeWith_ok hne hp₁ t₁ hw
  -- the root is the same
  have hhead : o₂.head? = some k := by
    cases o₂ with
    | nil => have := h₂.1.length_eq; simp at this; exact absurd this.symm (by simpa using hne)
    | cons k' ks' =>
      obtain ⟨i, hi, hki⟩ := explicit_root hs' hu' hp₁ t₁
      obtain ⟨j, hj, hkj⟩ := explicit_root hs' hu' h₂.1 t₂
      have hil : i < s.length := by
        rw [← (makeExplicit_get hs').1]
        obtain ⟨x, hx, -⟩ := hi
        by_contra hn; rw [List.getElem?_eq_none (by omega)] at hx; cases hx
      have hjl : j < s.length := by
        rw [← (makeExplicit_get hs').1]
        obtain ⟨x, hx, -⟩ := hj
        by_contra hn; rw [List.getElem?_eq_none (by omega)] at hx; cases hx
      have : i = j := by
        cases strat with
        | asap => rw [(neighbour_none_asap hil).1 hki, (neighbour_none_asap hjl).1 hkj]
        | alap =>
          have a := (neighbour_none_alap hil).1 hki
          have b := (neighbour_none_alap hjl).1 hkj
          omega
      subst this
      obtain ⟨x, hx, hxk⟩ := hi
      obtain ⟨y, hy, hyk⟩ := hj
      rw [hx, Option.some.injEq] at hy
      subst hy
      simp [← hxk, ← hyk]
  have hperm := hp₁.trans h₂.1.symm
  have hgood : ∀ x ∈ o₂, o₂.head? = some x ∨ Good s' x := by
    intro x hx
    by_cases hxk : x = k
    · left; rw [hhead, hxk]
    · right
      have hxks : x ∈ ks := by
        rcases List.mem_cons.1 (hperm.mem_iff.2 hx) with e | e
        · exact absurd e hxk
        · exact e
      exact good_of_eqn hs' hu' (ae x hxks)
  obtain ⟨out', h'⟩ := timeWith_progress (strat := strat) hne h₂.1 t₂ hgood
  obtain ⟨B, k', ks', d', rfl, b0, be, bd, bout, ball, bmin⟩ := timeWith_ok hne h₂.1 t₂ h'
  simp only [List.head?_cons, Option.some.injEq] at hhead
  subst hhead
  have hks : ∀ x, x ∈ ks ↔ x ∈ ks' := fun x => ((List.perm_cons _).1 hperm).mem_iff
  have hAB : ∀ x ∈ k' :: ks, A x = B x := by
    intro x hx
    rcases List.mem_cons.1 hx with rfl | hx
    · rw [a0, b0]
    · refine eqn_unique t₁.2.2 ?_ ae (fun y hy => be y ((hks y).1 hy)) x hx
      intro y hy
      rcases hy with rfl | hy
      · rw [a0, b0]
      · cases hy
  have hABs : ∀ it ∈ s', A it.key = B it.key := fun it hit =>
    hAB _ (hp₁.mem_iff.2 (List.mem_map.2 ⟨it, hit, rfl⟩))
  have hdd : d = d' := by
    have le1 : d ≤ d' := by
      rcases amin with h | ⟨it, hit, hA⟩
      · rw [h]; exact bd
      · obtain ⟨b, hb, hpos⟩ := ball it hit
        rw [← hABs it hit, hA, Option.some.injEq] at hb
        linarith
    have le2 : d' ≤ d := by
      rcases bmin with h | ⟨it, hit, hB⟩
      · rw [h]; exact ad
      · obtain ⟨a, ha, hpos⟩ := aall it hit
        rw [hABs it hit, hB, Option.some.injEq] at ha
        linarith
    exact le_antisymm le1 le2
  rw [h', aout, bout]
  subst hdd
  congr 1
  apply List.map_congr_left
  intro it hit
  rw [hABs it hit]

/-- Two different topological orders of one explicit schedule (`1` and `2` both follow `0`). -/
def exFork : List (Item Nat) :=
  [ { key := 0, dur := 20, delay := none, cons := [⟨none, some .stop, some .start, 0⟩], abs := none },
    { key := 1, dur := 10, delay := none, cons := [⟨some 0, some .stop, some .start, 1⟩], abs := none },
    { key := 2, dur := 40, delay := none, cons := [⟨some 0, some .start, some .start, 2⟩], abs := none } ]

example : (timing .asap exFork).toOption.map (fun o => o.map (·.abs)) = some [some 0, some 21, some 2] ∧
    (timeWith .asap exFork [0, 2, 1]).toOption.map (fun o => o.map (·.abs)) =
      some [some 0, some 21, some 2] ∧
    TopologicalOrder exFork [0, 2, 1] ∧ TopologicalOrder exFork [0, 1, 2] := by
  refine ⟨by decide +kernel, by decide +kernel, ⟨by decide, ?_⟩, ⟨by decide, ?_⟩⟩
  · intro it hit c hc r hr
    simp only [exFork, List.mem_cons, List.not_mem_nil, or_false] at hit
    rcases hit with rfl | rfl | rfl <;> simp only [List.mem_singleton] at hc <;> subst hc <;>
      simp only [Option.some.injEq, reduceCtorEq] at hr <;> subst hr
    · exact ⟨0, 2, by simp⟩
    · exact ⟨0, 1, by simp⟩
  · intro it hit c hc r hr
    simp only [exFork, List.mem_cons, List.not_mem_nil, or_false] at hit
    rcases hit with rfl | rfl | rfl <;> simp only [List.mem_singleton] at hc <;> subst hc <;>
      simp only [Option.some.injEq, reduceCtorEq] at hr <;> subst hr
    · exact ⟨0, 1, by simp⟩
    · exact ⟨0, 2, by simp⟩

/-! ## C06 -/

/-- C06. An empty schedule, a dangling reference and a circular reference are each rejected. -/
theorem bad_references_rejected {strat : Strategy} {s : List (Item κ)} (hu : UniqueKeys s)
    (h : s = [] ∨ Dangling strat s ∨ Circular strat s) :
    ∀ out, timing strat s ≠ .ok out := by
  intro out hok
  obtain ⟨s', order, hne, hs', hne', hu', hc, hp, ht, -⟩ := timing_ok hu hok
  rcases h with h | ⟨a, b, hab, hna⟩ | ⟨k, hk⟩
  · exact hne h
  · have := predsOf_closed hc b a ((refersTo_iff hu hs').1 hab)
    rw [makeExplicit_keys hs'] at this
    exact hna this
  · refine ht.no_cycle ?_ ⟨k, ?_⟩
    · intro a b hab
      exact hp.mem_iff.2 (predsOf_key hab)
    · exact Relation.TransGen.mono (fun a b hab => (refersTo_iff hu hs').1 hab) _ _ hk

/-- A circular but closed reference graph gives specifically a `TypeError`. -/
theorem circular_is_typeError {strat : Strategy} {s : List (Item κ)} (hu : UniqueKeys s)
    (hw : WellFormed strat s) (hd : ¬ Dangling strat s) (hc : Circular strat s) :
    timing strat s = .error .typeError := by
  have hne : s ≠ [] := by
    rintro rfl
    obtain ⟨k, hk⟩ := hc
    obtain ⟨y, -, i, j, it, c, h, -⟩ := (Relation.TransGen.tail'_iff).1 hk
    simp at h
  obtain ⟨s', hs'⟩ := makeExplicitAux_of (strat := strat) (s := s) (ds := defaultRefs strat s)
    (fun it hit => ⟨(hw it hit).1, (hw it hit).2.1⟩)
  have hs'' : makeExplicit strat s = .ok s' := hs'
  have hclosed : refsClosed s' = true := by
    rw [refsClosed_iff]
    intro it hit r hr
    by_contra hn
    rw [makeExplicit_keys hs''] at hn
    refine hd ⟨r, it.key, (refersTo_iff hu hs'').2 ?_, hn⟩
    unfold predsOf
    rw [findItem_mem (makeExplicit_unique hs'' hu) hit]
    exact hr
  unfold timing
  rw [if_neg hne, hs'']
  simp only [hclosed, if_true]
  cases ho : topoSort (predsOf s') (s'.map (·.key)) with
  | none => rfl
  | some order =>
    exfalso
    obtain ⟨hp, ht⟩ := topoSort_some (makeExplicit_unique hs'' hu) hclosed ho
    obtain ⟨k, hk⟩ := hc
    refine ht.no_cycle (fun a b hab => hp.mem_iff.2 (predsOf_key hab)) ⟨k, ?_⟩
    exact Relation.TransGen.mono (fun a b hab => (refersTo_iff hu hs'').1 hab) _ _ hk

/-- C06. Everything else is timed: a nonempty schedule built through the API whose references are
closed and acyclic always gets times. -/
theorem good_references_timed {strat : Strategy} {s : List (Item κ)} (hne : s ≠ [])
    (hu : UniqueKeys s) (hw : WellFormed strat s) (hd : ¬ Dangling strat s)
    (hc : ¬ Circular strat s) : ∃ out, timing strat s = .ok out := by
  obtain ⟨s', hs'⟩ := makeExplicitAux_of (strat := strat) (s := s) (ds := defaultRefs strat s)
    (fun it hit => ⟨(hw it hit).1, (hw it hit).2.1⟩)
  have hs'' : makeExplicit strat s = .ok s' := hs'
  have hu' := makeExplicit_unique hs'' hu
  have hclosed : refsClosed s' = true := by
    rw [refsClosed_iff]
    intro it hit r hr
    by_contra hn
    rw [makeExplicit_keys hs''] at hn
    refine hd ⟨r, it.key, (refersTo_iff hu hs'').2 ?_, hn⟩
    unfold predsOf
    rw [findItem_mem hu' hit]
    exact hr
  have hne' : s' ≠ [] := by
    intro e
    have := (makeExplicit_get hs'').1
    rw [e] at this
    exact hne (List.length_eq_zero_iff.1 this.symm)
  unfold timing
  rw [if_neg hne, hs'']
  simp only [hclosed, if_true]
  cases ho : topoSort (predsOf s') (s'.map (·.key)) with
  | none =>
    exfalso
    obtain ⟨k, hk⟩ := topoAux_none (le_refl _) ho
    exact hc ⟨k, Relation.TransGen.mono (fun a b hab => (refersTo_iff hu hs'').2 hab) _ _ hk⟩
  | some order =>
    obtain ⟨hp, ht⟩ := topoSort_some hu' hclosed ho
    apply timeWith_progress hne' hp ht
    intro x hx
    obtain ⟨it', hm', rfl⟩ := List.mem_map.1 (hp.mem_iff.1 hx)
    obtain ⟨i, hi'⟩ := List.mem_iff_getElem?.1 hm'
    obtain ⟨it, hi, hone⟩ := makeExplicit_get' hs'' i it' hi'
    have hw' := hw it (List.mem_iff_getElem?.2 ⟨i, hi⟩)
    have hil : i < s.length := by
      by_contra hn; rw [List.getElem?_eq_none (by omega)] at hi; cases hi
    by_cases hnb : neighbour strat s i = none
    · -- then `i` is the only index without neighbour, hence the head
      left
      cases order with
      | nil => cases hx
      | cons k ks =>
        have hroot : predsOf s' k = [] := by
          rw [List.eq_nil_iff_forall_not_mem]; intro p hp'; exact ht.1 p hp'
        obtain ⟨itk, hmk, hkk⟩ := List.mem_map.1 (hp.mem_iff.1 (List.mem_cons_self (a := k) (l := ks)))
        obtain ⟨ik, hik'⟩ := List.mem_iff_getElem?.1 hmk
        have hnbk := root_index hs'' hu' hik' (by rw [hkk]; exact hroot)
        have hikl : ik < s.length := by
          rw [← (makeExplicit_get hs'').1]
          by_contra hn; rw [List.getElem?_eq_none (by omega)] at hik'; cases hik'
        have : ik = i := by
          cases strat with
          | asap => rw [(neighbour_none_asap hikl).1 hnbk, (neighbour_none_asap hil).1 hnb]
          | alap =>
            have a := (neighbour_none_alap hikl).1 hnbk
            have b := (neighbour_none_alap hil).1 hnb
            omega
        subst this
        rw [hi', Option.some.injEq] at hik'
        subst hik'
        simp [hkk]
    · right
      refine ⟨it', findItem_mem hu' hm', ?_, ?_⟩
      · rw [consOf_find (findItem_mem hu' hm')]
        obtain ⟨-, c, cs, -, rfl⟩ := makeExplicitOne_ok hone; simp
      · rw [consOf_find (findItem_mem hu' hm')]
        intro c' hc'
        obtain ⟨j, hj⟩ := List.mem_iff_getElem?.1 hc'
        obtain ⟨c, hcj⟩ := (makeExplicitOne_cons hone j).2 c' hj
        obtain ⟨c'', c1, c2, -, -, -, c6, c7⟩ := (makeExplicitOne_cons hone j).1 c hcj
        rw [hj, Option.some.injEq] at c1
        subst c1
        have hcm : c ∈ it.cons := List.mem_iff_getElem?.2 ⟨j, hcj⟩
        refine ⟨?_, fun e => (hw'.2.2.2 c hcm).1 (c6.1 e), fun e => (hw'.2.2.2 c hcm).2 (c7.1 e)⟩
        rw [c2]
        unfold refOf
        cases hcr : c.ref with
        | some r => simp
        | none =>
          cases j with
          | zero => simpa using hnb
          | succ j =>
            exfalso
            refine hw'.2.2.1 c ?_ hcr
            refine List.mem_iff_getElem?.2 ⟨j, ?_⟩
            rw [List.getElem?_tail]; exact hcj

/-- A two-cycle, and a dangling reference. -/
example : timing .asap
    [ { key := 0, dur := 20, delay := none, cons := [⟨some 1, none, none, 0⟩], abs := none },
      { key := 1, dur := 10, delay := none, cons := [⟨some 0, none, none, 0⟩], abs := none } ]
    = .error .typeError := by rfl
example : timing .asap
    [ { key := 0, dur := 20, delay := none, cons := [⟨none, none, none, 0⟩], abs := none },
      { key := 1, dur := 10, delay := none, cons := [⟨some 7, none, none, 0⟩], abs := none } ]
    = .error .valueError := by rfl

/-! ## C07 -/

/-- C07. The schedule duration is the latest end of an operation (0 if all end before 0), times
the repetitions: no operation ends later and, when positive, some operation ends there. -/
theorem duration_is_latest_end (s : List (Item κ)) (reps : Nat) :
    scheduleDuration s reps = latestEnd s * reps ∧ 0 ≤ latestEnd s ∧
    (∀ it ∈ s, it.abs.getD 0 + it.dur ≤ latestEnd s) ∧
    (0 < latestEnd s → ∃ it ∈ s, it.abs.getD 0 + it.dur = latestEnd s) := by
  have key : ∀ (l : List (Item κ)) (m : Rat),
      let r := l.foldl (fun m it => max m (it.abs.getD 0 + it.dur)) m
      m ≤ r ∧ (∀ it ∈ l, it.abs.getD 0 + it.dur ≤ r) ∧
      (r = m ∨ ∃ it ∈ l, it.abs.getD 0 + it.dur = r) := by
    intro l
    induction l with
    | nil => intro m; simp
    | cons a l ih =>
      intro m
      obtain ⟨h1, h2, h3⟩ := ih (max m (a.abs.getD 0 + a.dur))
      simp only [List.foldl_cons] at h1 h2 h3 ⊢
      refine ⟨(le_max_left _ _).trans h1, ?_, ?_⟩
      · intro it hit
        rcases List.mem_cons.1 hit with rfl | hit
        · exact (le_max_right _ _).trans h1
        · exact h2 it hit
      · rcases h3 with h3 | ⟨it, hit, h3⟩
        · rcases max_choice m (a.abs.getD 0 + a.dur) with h | h
          · left; rw [h3, h]
          · right; exact ⟨a, by simp, by rw [h3, h]⟩
        · right; exact ⟨it, by simp [hit], h3⟩
  obtain ⟨h1, h2, h3⟩ := key s 0
  refine ⟨rfl, h1, h2, ?_⟩
  intro hpos
  rcases h3 with h3 | h3
  · exfalso; unfold latestEnd at hpos; rw [h3] at hpos; exact absurd hpos (lt_irrefl _)
  · exact h3

example : scheduleDuration
    [ { key := 0, dur := 20, delay := none, cons := [], abs := some 4 },
      { key := 1, dur := 3, delay := none, cons := [], abs := some (10 : Rat) } ] 5 = 120 := by
  decide +kernel

end Verif.Timing
