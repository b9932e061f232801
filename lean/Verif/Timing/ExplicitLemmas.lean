import Verif.Timing.RunLemmas

set_option linter.unusedSectionVars false
set_option linter.unusedSimpArgs false

namespace Verif.Timing

variable {κ : Type} [DecidableEq κ]

theorem makeExplicitOne_ok {strat : Strategy} {it it' : Item κ} {d : Option κ}
    (h : makeExplicitOne strat it d = .ok it') :
    (strat = .alap → it.cons.length = 1) ∧ ∃ c cs, it.cons = c :: cs ∧
      it' = { it with cons := { ref := c.ref.or d
                                refPt := c.refPt.or (some (defaultRefPt strat))
                                refPtNew := c.refPtNew.or (some (defaultRefPtNew strat))
                                rel := c.rel } :: cs } := by
  unfold makeExplicitOne at h
  split at h
  · cases h
  · rename_i hn
    split at h
    · cases h
    · rename_i c cs hc
      simp only [Except.ok.injEq] at h
      refine ⟨?_, c, cs, hc, h.symm⟩
      intro ha
      by_contra hl
      exact hn ⟨ha, hl⟩

theorem makeExplicitOne_of {strat : Strategy} {it : Item κ} {d : Option κ}
    (h1 : it.cons ≠ []) (h2 : strat = .alap → it.cons.length = 1) :
    ∃ it', makeExplicitOne strat it d = .ok it' := by
  unfold makeExplicitOne
  rw [if_neg (by rintro ⟨a, b⟩; exact b (h2 a))]
  cases hc : it.cons with
  | nil => exact absurd hc h1
  | cons c cs => exact ⟨_, rfl⟩

theorem makeExplicitAux_ok {strat : Strategy} {s s' : List (Item κ)} {ds : List (Option κ)}
    (hl : s.length ≤ ds.length) (h : makeExplicitAux strat s ds = .ok s') :
    s'.length = s.length ∧
    ∀ (i : Nat) (it : Item κ), s[i]? = some it →
      ∃ it' d, s'[i]? = some it' ∧ ds[i]? = some d ∧ makeExplicitOne strat it d = .ok it' := by
  induction s generalizing s' ds with
  | nil =>
    simp only [makeExplicitAux, Except.ok.injEq] at h
    subst h; simp
  | cons a l ih =>
    cases ds with
    | nil => simp at hl
    | cons d ds =>
      simp only [makeExplicitAux] at h
      split at h
      · cases h
      · rename_i a' ha'
        split at h
        · cases h
        · rename_i l' hl'
          simp only [Except.ok.injEq] at h
          subst h
          obtain ⟨e1, e2⟩ := ih (by simpa using hl) hl'
          refine ⟨by simp [e1], ?_⟩
          intro i it hi
          cases i with
          | zero =>
            simp only [List.getElem?_cons_zero, Option.some.injEq] at hi
            subst hi
            exact ⟨a', d, by simp, by simp, ha'⟩
          | succ i =>
            simp only [List.getElem?_cons_succ] at hi ⊢
            exact e2 i it hi

theorem makeExplicitAux_of {strat : Strategy} {s : List (Item κ)} {ds : List (Option κ)}
    (h : ∀ it ∈ s, it.cons ≠ [] ∧ (strat = .alap → it.cons.length = 1)) :
    ∃ s', makeExplicitAux strat s ds = .ok s' := by
  induction s generalizing ds with
  | nil => exact ⟨_, rfl⟩
  | cons a l ih =>
    cases ds with
    | nil => exact ⟨_, rfl⟩
    | cons d ds =>
      obtain ⟨a', ha⟩ := makeExplicitOne_of (d := d) (h a (by simp)).1 (h a (by simp)).2
      obtain ⟨l', hl⟩ := ih (ds := ds) (fun it hit => h it (by simp [hit]))
      exact ⟨a' :: l', by simp [makeExplicitAux, ha, hl]⟩

theorem defaultRefs_length (strat : Strategy) {s : List (Item κ)} (h : s ≠ []) :
    (defaultRefs strat s).length = s.length := by
  cases s with
  | nil => exact absurd rfl h
  | cons a l => cases strat <;> simp [defaultRefs]

theorem defaultRefs_get {strat : Strategy} {s : List (Item κ)} {i : Nat} (h : i < s.length) :
    (defaultRefs strat s)[i]? = some (neighbour strat s i) := by
  cases strat with
  | asap =>
    cases i with
    | zero => simp [defaultRefs, neighbour]
    | succ i =>
      simp only [defaultRefs, neighbour, List.getElem?_cons_succ, Nat.succ_ne_zero, if_false,
        Nat.add_sub_cancel]
      rw [List.getElem?_eq_getElem (by simp; omega)]
      simp only [List.getElem_dropLast, List.getElem_map]
      rw [List.getElem?_eq_getElem (by omega)]
      simp
  | alap =>
    simp only [defaultRefs, neighbour]
    by_cases hl : i + 1 < s.length
    · rw [List.getElem?_append_left (by simp; omega)]
      rw [List.getElem?_eq_getElem (by simp; omega), List.getElem?_eq_getElem hl]
      simp
    · have : i + 1 = s.length := by omega
      rw [List.getElem?_append_right (by simp; omega)]
      simp only [List.length_tail, List.length_map]
      rw [show i - (s.length - 1) = 0 by omega,
        List.getElem?_eq_none (l := s) (by omega)]
      simp

/-- Shape of the explicit schedule. -/
theorem makeExplicit_get {strat : Strategy} {s s' : List (Item κ)}
    (h : makeExplicit strat s = .ok s') :
    s'.length = s.length ∧
    ∀ (i : Nat) (it : Item κ), s[i]? = some it →
      ∃ it', s'[i]? = some it' ∧ makeExplicitOne strat it (neighbour strat s i) = .ok it' := by
  have hl : s.length ≤ (defaultRefs strat s).length := by
    cases s with
    | nil => simp
    | cons a l => rw [defaultRefs_length strat (by simp)]
  obtain ⟨h1, h2⟩ := makeExplicitAux_ok hl h
  refine ⟨h1, ?_⟩
  intro i it hi
  obtain ⟨it', d, a, b, c⟩ := h2 i it hi
  have hi' : i < s.length := by
    by_contra hn; rw [List.getElem?_eq_none (by omega)] at hi; cases hi
  rw [defaultRefs_get hi', Option.some.injEq] at b
  exact ⟨it', a, b ▸ c⟩

theorem makeExplicit_get' {strat : Strategy} {s s' : List (Item κ)}
    (h : makeExplicit strat s = .ok s') (i : Nat) (it' : Item κ) (hi : s'[i]? = some it') :
    ∃ it, s[i]? = some it ∧ makeExplicitOne strat it (neighbour strat s i) = .ok it' := by
  obtain ⟨h1, h2⟩ := makeExplicit_get h
  have hi' : i < s.length := by
    by_contra hn; rw [List.getElem?_eq_none (by omega)] at hi; cases hi
  obtain ⟨it'', a, b⟩ := h2 i s[i] (List.getElem?_eq_getElem hi')
  rw [hi, Option.some.injEq] at a
  exact ⟨s[i], List.getElem?_eq_getElem hi', a ▸ b⟩

/-- Everything but the constraints is unchanged. -/
theorem makeExplicitOne_same {strat : Strategy} {it it' : Item κ} {d : Option κ}
    (h : makeExplicitOne strat it d = .ok it') :
    it'.key = it.key ∧ it'.dur = it.dur ∧ it'.delay = it.delay ∧ it'.abs = it.abs := by
  obtain ⟨-, c, cs, -, rfl⟩ := makeExplicitOne_ok h
  exact ⟨rfl, rfl, rfl, rfl⟩

theorem makeExplicit_map {strat : Strategy} {s s' : List (Item κ)} {α : Type} (f : Item κ → α)
    (hf : ∀ it it' d, makeExplicitOne strat it d = .ok it' → f it' = f it)
    (h : makeExplicit strat s = .ok s') : s'.map f = s.map f := by
  obtain ⟨h1, h2⟩ := makeExplicit_get h
  apply List.ext_getElem?
  intro i
  simp only [List.getElem?_map]
  by_cases hi : i < s.length
  · obtain ⟨it', a, b⟩ := h2 i s[i] (List.getElem?_eq_getElem hi)
    rw [a, List.getElem?_eq_getElem hi]
    simp [hf _ _ _ b]
  · rw [List.getElem?_eq_none (by omega), List.getElem?_eq_none (by omega)]

theorem makeExplicit_keys {strat : Strategy} {s s' : List (Item κ)}
    (h : makeExplicit strat s = .ok s') : s'.map (·.key) = s.map (·.key) :=
  makeExplicit_map _ (fun _ _ _ h => (makeExplicitOne_same h).1) h

theorem makeExplicit_unique {strat : Strategy} {s s' : List (Item κ)}
    (h : makeExplicit strat s = .ok s') (hu : UniqueKeys s) : UniqueKeys s' := by
  unfold UniqueKeys; rw [makeExplicit_keys h]; exact hu

theorem makeExplicit_mem {strat : Strategy} {s s' : List (Item κ)}
    (h : makeExplicit strat s = .ok s') {it : Item κ} (hit : it ∈ s) :
    ∃ it' ∈ s', it'.key = it.key ∧ it'.dur = it.dur ∧ it'.delay = it.delay ∧ it'.abs = it.abs := by
  obtain ⟨i, hi⟩ := List.mem_iff_getElem?.1 hit
  obtain ⟨it', a, b⟩ := (makeExplicit_get h).2 i it hi
  exact ⟨it', List.mem_iff_getElem?.2 ⟨i, a⟩, makeExplicitOne_same b⟩

theorem makeExplicit_mem' {strat : Strategy} {s s' : List (Item κ)}
    (h : makeExplicit strat s = .ok s') {it' : Item κ} (hit : it' ∈ s') :
    ∃ it ∈ s, it'.key = it.key ∧ it'.dur = it.dur ∧ it'.delay = it.delay ∧ it'.abs = it.abs := by
  obtain ⟨i, hi⟩ := List.mem_iff_getElem?.1 hit
  obtain ⟨it, a, b⟩ := makeExplicit_get' h i it' hi
  exact ⟨it, List.mem_iff_getElem?.2 ⟨i, a⟩, makeExplicitOne_same b⟩

/-- What the `j`-th constraint becomes. -/
theorem makeExplicitOne_cons {strat : Strategy} {s : List (Item κ)} {i : Nat} {it it' : Item κ}
    (h : makeExplicitOne strat it (neighbour strat s i) = .ok it') (j : Nat) :
    (∀ c, it.cons[j]? = some c → ∃ c', it'.cons[j]? = some c' ∧
      c'.ref = refOf strat s i j c ∧ c'.refPt.getD .stop = ptOf strat c ∧
      c'.refPtNew.getD .start = ptNewOf strat c ∧ c'.rel = c.rel ∧
      (c'.refPt = some .other ↔ c.refPt = some .other) ∧
      (c'.refPtNew = some .other ↔ c.refPtNew = some .other)) ∧
    (∀ c', it'.cons[j]? = some c' → ∃ c, it.cons[j]? = some c) := by
  obtain ⟨hl, c0, cs, hc, rfl⟩ := makeExplicitOne_ok h
  cases j with
  | zero =>
    refine ⟨?_, by simp [hc]⟩
    intro c hcj
    simp only [hc, List.getElem?_cons_zero, Option.some.injEq] at hcj
    subst hcj
    refine ⟨_, List.getElem?_cons_zero, ?_, ?_, ?_, rfl, ?_, ?_⟩
    · unfold refOf; cases c0.ref <;> simp
    · unfold ptOf; cases c0.refPt <;> cases strat <;> simp [defaultRefPt]
    · unfold ptNewOf; cases c0.refPtNew <;> cases strat <;> simp [defaultRefPtNew]
    · cases c0.refPt <;> cases strat <;> simp [defaultRefPt]
    · cases c0.refPtNew <;> cases strat <;> simp [defaultRefPtNew]
  | succ j =>
    refine ⟨?_, fun c' hc' => ⟨c', by simpa [hc] using hc'⟩⟩
    intro c hcj
    refine ⟨c, by simpa [hc] using hcj, ?_, ?_, ?_, rfl, Iff.rfl, Iff.rfl⟩
    · unfold refOf; cases c.ref <;> simp
    · cases strat with
      | asap => unfold ptOf; cases c.refPt <;> simp
      | alap =>
        have := hl rfl
        rw [hc] at this hcj
        simp only [List.length_cons, Nat.add_eq_right, List.length_eq_zero_iff] at this
        subst this; simp at hcj
    · cases strat with
      | asap => unfold ptNewOf; cases c.refPtNew <;> simp
      | alap =>
        have := hl rfl
        rw [hc] at this hcj
        simp only [List.length_cons, Nat.add_eq_right, List.length_eq_zero_iff] at this
        subst this; simp at hcj

/-- The requirement of one explicit constraint. -/
def need (T : κ → Rat) (it : Item κ) (c : Constraint κ) (ri : Item κ) : Rat :=
  T ri.key + (c.refPt.getD .stop).frac * ri.dur + c.rel + ri.delay.getD 0
    - (c.refPtNew.getD .start).frac * it.dur

theorem requires_iff {strat : Strategy} {s s' : List (Item κ)} (h : makeExplicit strat s = .ok s')
    {T : κ → Rat} {i : Nat} {t : Rat} :
    Requires strat s T i t ↔
      ∃ it c ri, s'[i]? = some it ∧ c ∈ it.cons ∧ ri ∈ s' ∧ c.ref = some ri.key ∧
        t = need T it c ri := by
  constructor
  · rintro ⟨it, j, c, ri, h1, h2, h3, h4, rfl⟩
    obtain ⟨it', a, b⟩ := (makeExplicit_get h).2 i it h1
    obtain ⟨c', c1, c2, c3, c4, c5, -, -⟩ := (makeExplicitOne_cons b j).1 c h2
    obtain ⟨ri', r1, r2, r3, r4, -⟩ := makeExplicit_mem h h3
    refine ⟨it', c', ri', a, List.mem_iff_getElem?.2 ⟨j, c1⟩, r1, by rw [c2, h4, r2], ?_⟩
    unfold need
    rw [c3, c4, c5, r2, r3, r4, (makeExplicitOne_same b).2.1]
  · rintro ⟨it', c', ri', a, b, r1, hr, rfl⟩
    obtain ⟨it, h1, h2⟩ := makeExplicit_get' h i it' a
    obtain ⟨j, hj⟩ := List.mem_iff_getElem?.1 b
    obtain ⟨c, hc⟩ := (makeExplicitOne_cons h2 j).2 c' hj
    obtain ⟨c'', c1, c2, c3, c4, c5, -, -⟩ := (makeExplicitOne_cons h2 j).1 c hc
    rw [hj, Option.some.injEq] at c1
    subst c1
    obtain ⟨ri, m1, m2, m3, m4, -⟩ := makeExplicit_mem' h r1
    refine ⟨it, j, c, ri, h1, hc, m1, by rw [← c2, hr, m2], ?_⟩
    unfold need
    rw [c3, c4, c5, m2, m3, m4, (makeExplicitOne_same h2).2.1]

theorem refersTo_iff {strat : Strategy} {s s' : List (Item κ)} (hu : UniqueKeys s)
    (h : makeExplicit strat s = .ok s') {a b : κ} :
    RefersTo strat s a b ↔ a ∈ predsOf s' b := by
  have hu' := makeExplicit_unique h hu
  rw [mem_predsOf]
  constructor
  · rintro ⟨i, j, it, c, h1, rfl, h3, h4⟩
    obtain ⟨it', a1, b1⟩ := (makeExplicit_get h).2 i it h1
    obtain ⟨c', c1, c2, -⟩ := (makeExplicitOne_cons b1 j).1 c h3
    have hm : it' ∈ s' := List.mem_iff_getElem?.2 ⟨i, a1⟩
    have : findItem s' it.key = some it' := by
      rw [← (makeExplicitOne_same b1).1]; exact findItem_mem hu' hm
    refine ⟨c', ?_, by rw [c2, h4]⟩
    simp only [consOf, initSt, this]
    exact List.mem_iff_getElem?.2 ⟨j, c1⟩
  · rintro ⟨c', hc', hr⟩
    simp only [consOf, initSt] at hc'
    split at hc'
    · cases hc'
    · rename_i it' hf
      obtain ⟨hm, hk⟩ := findItem_some hf
      obtain ⟨i, hi⟩ := List.mem_iff_getElem?.1 hm
      obtain ⟨it, h1, h2⟩ := makeExplicit_get' h i it' hi
      obtain ⟨j, hj⟩ := List.mem_iff_getElem?.1 hc'
      obtain ⟨c, hc⟩ := (makeExplicitOne_cons h2 j).2 c' hj
      obtain ⟨c'', c1, c2, -⟩ := (makeExplicitOne_cons h2 j).1 c hc
      rw [hj, Option.some.injEq] at c1
      subst c1
      exact ⟨i, j, it, c, h1, by rw [← hk, (makeExplicitOne_same h2).1], hc, by rw [← c2, hr]⟩

/-! ### normalisation -/

theorem minAbs_ok {l : List (Item κ)} {m : Rat} (h : minAbs l = .ok m) :
    (∀ it ∈ l, ∃ a, it.abs = some a ∧ m ≤ a) ∧ ∃ it ∈ l, it.abs = some m := by
  induction l generalizing m with
  | nil => simp [minAbs] at h
  | cons x l ih =>
    cases l with
    | nil =>
      simp only [minAbs] at h
      split at h
      · cases h
      · rename_i a ha
        simp only [Except.ok.injEq] at h
        subst h
        exact ⟨by simp [ha], x, by simp, ha⟩
    | cons y l =>
      simp only [minAbs] at h
      split at h
      · rename_i a m' ha hm'
        simp only [Except.ok.injEq] at h
        subst h
        obtain ⟨h1, h2⟩ := ih hm'
        refine ⟨?_, ?_⟩
        · intro it hit
          rcases List.mem_cons.1 hit with rfl | hit
          · exact ⟨a, ha, min_le_left _ _⟩
          · obtain ⟨b, hb, hmb⟩ := h1 it hit
            exact ⟨b, hb, (min_le_right _ _).trans hmb⟩
        · rcases le_total a m' with hle | hle
          · exact ⟨x, by simp, by rw [min_eq_left hle, ha]⟩
          · obtain ⟨it, hit, hb⟩ := h2
            exact ⟨it, by simp only [List.mem_cons] at hit ⊢; exact Or.inr hit,
              by rw [min_eq_right hle, hb]⟩
      · cases h
      · cases h

theorem minAbs_of {l : List (Item κ)} (hne : l ≠ []) (h : ∀ it ∈ l, it.abs ≠ none) :
    ∃ m, minAbs l = .ok m := by
  induction l with
  | nil => exact absurd rfl hne
  | cons x l ih =>
    obtain ⟨a, ha⟩ := Option.ne_none_iff_exists'.1 (h x (by simp))
    cases l with
    | nil => exact ⟨a, by simp [minAbs, ha]⟩
    | cons y l =>
      obtain ⟨m, hm⟩ := ih (by simp) (fun it hit => h it (by simp at hit ⊢; exact Or.inr hit))
      exact ⟨min a m, by simp [minAbs, ha] at hm ⊢; rw [hm]⟩

theorem normalize_ok {l out : List (Item κ)} (h : normalize l = .ok out) :
    ∃ d : Rat, 0 ≤ d ∧ out = l.map (fun it => { it with abs := it.abs.map (· + d) }) ∧
      (∀ it ∈ l, ∃ a, it.abs = some a ∧ 0 ≤ a + d) ∧
      (d = 0 ∨ ∃ it ∈ l, it.abs = some (-d)) := by
  unfold normalize at h
  split at h
  · cases h
  · rename_i m hm
    obtain ⟨h1, h2⟩ := minAbs_ok hm
    split at h
    · rename_i hneg
      simp only [Except.ok.injEq] at h
      refine ⟨-m, by linarith, ?_, ?_, Or.inr (by simpa using h2)⟩
      · rw [← h]; apply List.map_congr_left; intro it _; simp [sub_eq_add_neg]
      · intro it hit
        obtain ⟨a, ha, hle⟩ := h1 it hit
        exact ⟨a, ha, by linarith⟩
    · rename_i hneg
      simp only [Except.ok.injEq] at h
      refine ⟨0, le_refl _, ?_, ?_, Or.inl rfl⟩
      · rw [← h]
        conv_lhs => rw [← List.map_id l]
        apply List.map_congr_left; intro it _; cases it; simp
      · intro it hit
        obtain ⟨a, ha, hle⟩ := h1 it hit
        exact ⟨a, ha, by linarith⟩

theorem normalize_of {l : List (Item κ)} (hne : l ≠ []) (h : ∀ it ∈ l, it.abs ≠ none) :
    ∃ out, normalize l = .ok out := by
  obtain ⟨m, hm⟩ := minAbs_of hne h
  unfold normalize
  rw [hm]
  by_cases hneg : m < 0
  · exact ⟨_, by simp [hneg]; rfl⟩
  · exact ⟨_, by simp [hneg]; rfl⟩

end Verif.Timing
