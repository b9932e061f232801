import Verif.Timing.ExplicitLemmas

set_option linter.unusedSectionVars false
set_option linter.unusedSimpArgs false

namespace Verif.Timing

variable {κ : Type} [DecidableEq κ]

theorem consOf_find {s : List (Item κ)} {k : κ} {it : Item κ} (h : findItem s k = some it) :
    consOf s k = it.cons := by simp [consOf, initSt, h]

theorem refsClosed_iff {s : List (Item κ)} :
    refsClosed s = true ↔ ∀ it ∈ s, ∀ r ∈ it.refs, r ∈ s.map (·.key) := by
  simp [refsClosed]

theorem predsOf_closed {s : List (Item κ)} (h : refsClosed s = true) (k p : κ)
    (hp : p ∈ predsOf s k) : p ∈ s.map (·.key) := by
  unfold predsOf at hp
  split at hp
  · cases hp
  · rename_i it hf
    exact refsClosed_iff.1 h it (findItem_some hf).1 p hp

theorem predsOf_key {s : List (Item κ)} {k p : κ} (hp : p ∈ predsOf s k) :
    k ∈ s.map (·.key) := by
  unfold predsOf at hp
  split at hp
  · cases hp
  · rename_i it hf
    obtain ⟨h1, h2⟩ := findItem_some hf
    exact List.mem_map.2 ⟨it, h1, h2⟩

theorem topoSort_some {s : List (Item κ)} {order : List κ} (hu : UniqueKeys s)
    (hc : refsClosed s = true) (h : topoSort (predsOf s) (s.map (·.key)) = some order) :
    order.Perm (s.map (·.key)) ∧ TopoFrom (predsOf s) ∅ order :=
  topoAux_some (done := ∅) h hu (fun k _ p hp => Or.inr (predsOf_closed hc k p hp)) (by simp)

/-- Times after a successful `timeWith`. -/
theorem timeWith_ok {strat : Strategy} {s out : List (Item κ)} {order : List κ}
    (hne : s ≠ []) (hp : order.Perm (s.map (·.key))) (ht : TopoFrom (predsOf s) ∅ order)
    (h : timeWith strat s order = .ok out) :
    ∃ (A : κ → Option Rat) (k : κ) (ks : List κ) (d : Rat), order = k :: ks ∧
      A k = some 0 ∧ (∀ x ∈ ks, Eqn strat s A x) ∧ 0 ≤ d ∧
      out = s.map (fun it => { it with
        cons := (consOf s it.key).map (addDelay (delayOf s)), abs := (A it.key).map (· + d) }) ∧
      (∀ it ∈ s, ∃ a, A it.key = some a ∧ 0 ≤ a + d) ∧
      (d = 0 ∨ ∃ it ∈ s, A it.key = some (-d)) := by
  unfold timeWith at h
  split at h
  · cases h
  · rename_i st hst
    cases order with
    | nil =>
      have := hp.length_eq
      simp at this
      exact absurd this.symm (by simpa using hne)
    | cons k ks =>
      obtain ⟨h0, he, hcons⟩ := run_init ht hst
      obtain ⟨d, hd, hout, hall, hmin⟩ := normalize_ok h
      have hmem : ∀ it ∈ s, it.key ∈ k :: ks := fun it hit =>
        hp.mem_iff.2 (List.mem_map.2 ⟨it, hit, rfl⟩)
      refine ⟨st.abs, k, ks, d, rfl, h0, he, hd, ?_, ?_, ?_⟩
      · rw [hout, writeBack, List.map_map]
        apply List.map_congr_left
        intro it hit
        simp [hcons it.key (hmem it hit)]
      · intro it hit
        have := hall { it with cons := st.cons it.key, abs := st.abs it.key }
          (List.mem_map.2 ⟨it, hit, rfl⟩)
        simpa using this
      · rcases hmin with h | ⟨x, hx, hx'⟩
        · exact Or.inl h
        · obtain ⟨it, hit, rfl⟩ := List.mem_map.1 hx
          exact Or.inr ⟨it, hit, hx'⟩

theorem timing_ok {strat : Strategy} {s out : List (Item κ)} (hu : UniqueKeys s)
    (h : timing strat s = .ok out) :
    ∃ s' order, s ≠ [] ∧ makeExplicit strat s = .ok s' ∧ s' ≠ [] ∧ UniqueKeys s' ∧
      refsClosed s' = true ∧
      order.Perm (s'.map (·.key)) ∧ TopoFrom (predsOf s') ∅ order ∧
      timeWith strat s' order = .ok out := by
  unfold timing at h
  split at h
  · cases h
  · rename_i hne
    split at h
    · cases h
    · rename_i s' hs'
      split at h
      · rename_i hc
        split at h
        · cases h
        · rename_i order ho
          have hu' := makeExplicit_unique hs' hu
          obtain ⟨a, b⟩ := topoSort_some hu' hc ho
          refine ⟨s', order, hne, hs', ?_, hu', hc, a, b, h⟩
          intro e
          have := (makeExplicit_get hs').1
          rw [e] at this
          exact hne (List.length_eq_zero_iff.1 this.symm)
      · cases h

theorem findItem_map {s : List (Item κ)} {f : Item κ → Item κ} (hf : ∀ it, (f it).key = it.key)
    (k : κ) : findItem (s.map f) k = (findItem s k).map f := by
  unfold findItem
  rw [List.find?_map]
  have : ((fun it : Item κ => decide (it.key = k)) ∘ f) = fun it => decide (it.key = k) := by
    funext x; simp [hf]
  rw [this]

theorem startOf_out {s : List (Item κ)} {A : κ → Option Rat} {d a : Rat} {f : Item κ → List (Constraint κ)}
    {k : κ} (hk : k ∈ s.map (·.key)) (ha : A k = some a) :
    startOf (s.map (fun it => { it with cons := f it, abs := (A it.key).map (· + d) })) k = a + d := by
  unfold startOf
  rw [findItem_map (by simp)]
  obtain ⟨it, hit⟩ := exists_findItem hk
  have := (findItem_some hit).2
  simp [hit, this, ha]

/-- The head of a topological order of the explicit schedule has no neighbour. -/
theorem root_index {strat : Strategy} {s s' : List (Item κ)} (h : makeExplicit strat s = .ok s')
    (hu : UniqueKeys s') {i : Nat} {it : Item κ} (hi : s'[i]? = some it)
    (hp : predsOf s' it.key = []) : neighbour strat s i = none := by
  obtain ⟨it0, h1, h2⟩ := makeExplicit_get' h i it hi
  obtain ⟨-, c, cs, hc, he⟩ := makeExplicitOne_ok h2
  have hm : it ∈ s' := List.mem_iff_getElem?.2 ⟨i, hi⟩
  by_contra hne
  obtain ⟨r, hr⟩ := Option.ne_none_iff_exists'.1 hne
  have : ∃ r', r' ∈ predsOf s' it.key := by
    cases hcr : c.ref with
    | none =>
      refine ⟨r, mem_predsOf.2 ?_⟩
      rw [consOf_find (findItem_mem hu hm)]
      refine ⟨{ ref := c.ref.or (neighbour strat s i)
                refPt := c.refPt.or (some (defaultRefPt strat))
                refPtNew := c.refPtNew.or (some (defaultRefPtNew strat))
                rel := c.rel }, by rw [he]; simp, ?_⟩
      simp [hcr, hr]
    | some r' =>
      refine ⟨r', mem_predsOf.2 ?_⟩
      rw [consOf_find (findItem_mem hu hm)]
      refine ⟨{ ref := c.ref.or (neighbour strat s i)
                refPt := c.refPt.or (some (defaultRefPt strat))
                refPtNew := c.refPtNew.or (some (defaultRefPtNew strat))
                rel := c.rel }, by rw [he]; simp, ?_⟩
      simp [hcr]
  obtain ⟨r', hr'⟩ := this
  rw [hp] at hr'; cases hr'

theorem neighbour_none_asap {s : List (Item κ)} {i : Nat} (hi : i < s.length) :
    neighbour .asap s i = none ↔ i = 0 := by
  cases i with
  | zero => simp [neighbour]
  | succ i =>
    simp only [neighbour, Nat.succ_ne_zero, if_false, Nat.add_sub_cancel, Option.map_eq_none_iff,
      iff_false]
    rw [List.getElem?_eq_getElem (by omega)]; simp

theorem neighbour_none_alap {s : List (Item κ)} {i : Nat} (hi : i < s.length) :
    neighbour .alap s i = none ↔ i + 1 = s.length := by
  simp only [neighbour, Option.map_eq_none_iff, List.getElem?_eq_none_iff]
  omega

theorem unique_index {s : List (Item κ)} (hu : UniqueKeys s) {i j : Nat} {a b : Item κ}
    (hi : s[i]? = some a) (hj : s[j]? = some b) (h : a.key = b.key) : i = j := by
  have hi' : i < s.length := by
    by_contra hn; rw [List.getElem?_eq_none (by omega)] at hi; cases hi
  have hj' : j < s.length := by
    by_contra hn; rw [List.getElem?_eq_none (by omega)] at hj; cases hj
  have e1 : (s.map (·.key))[i]'(by simpa using hi') = (s.map (·.key))[j]'(by simpa using hj') := by
    rw [List.getElem?_eq_getElem hi', Option.some.injEq] at hi
    rw [List.getElem?_eq_getElem hj', Option.some.injEq] at hj
    simp [hi, hj, h]
  exact (List.Nodup.getElem_inj_iff hu).1 e1

/-- Everything the property theorems need about a successful pass. -/
theorem timing_core {strat : Strategy} {s out : List (Item κ)} (hu : UniqueKeys s)
    (h : timing strat s = .ok out) :
    ∃ (s' : List (Item κ)) (A : κ → Option Rat) (k : κ) (ks : List κ) (d : Rat),
      makeExplicit strat s = .ok s' ∧ UniqueKeys s' ∧
      (k :: ks).Perm (s'.map (·.key)) ∧ TopoFrom (predsOf s') ∅ (k :: ks) ∧
      A k = some 0 ∧ (∀ x ∈ ks, Eqn strat s' A x) ∧ 0 ≤ d ∧
      (∀ it ∈ s', ∃ a, A it.key = some a ∧ 0 ≤ a + d ∧ startOf out it.key = a + d) ∧
      (d = 0 ∨ ∃ it ∈ s', A it.key = some (-d)) ∧
      out = s'.map (fun it => { it with
        cons := (consOf s' it.key).map (addDelay (delayOf s')), abs := (A it.key).map (· + d) }) := by
  obtain ⟨s', order, -, hs', hne', hu', hc, hp, ht, hw⟩ := timing_ok hu h
  obtain ⟨A, k, ks, d, rfl, h0, he, hd, hout, hall, hmin⟩ := timeWith_ok hne' hp ht hw
  refine ⟨s', A, k, ks, d, hs', hu', hp, ht, h0, he, hd, ?_, hmin, hout⟩
  intro it hit
  obtain ⟨a, ha, hpos⟩ := hall it hit
  refine ⟨a, ha, hpos, ?_⟩
  rw [hout]
  exact startOf_out (List.mem_map.2 ⟨it, hit, rfl⟩) ha

/-- ASAP equation read as inequalities and an equality. -/
theorem eqn_asap {s : List (Item κ)} {A : κ → Option Rat} {it : Item κ} (hu : UniqueKeys s)
    (hit : it ∈ s) (hfresh : it.abs = none) (he : Eqn .asap s A it.key) (hne : it.cons ≠ []) :
    ∃ a, A it.key = some a ∧
      (∀ c ∈ it.cons, ∃ ri ∈ s, ∃ b, c.ref = some ri.key ∧ A ri.key = some b ∧
        need (fun k => (A k).getD 0) it c ri ≤ a) ∧
      (∃ c ∈ it.cons, ∃ ri ∈ s, c.ref = some ri.key ∧
        need (fun k => (A k).getD 0) it c ri = a) := by
  obtain ⟨it', hf, he⟩ := he
  rw [findItem_mem hu hit, Option.some.injEq] at hf
  subst hf
  simp only at he
  rw [consOf_find (findItem_mem hu hit)] at he
  have hst : staleOf s it.key = none := by simp [staleOf, findItem_mem hu hit, hfresh]
  rw [hst] at he
  obtain ⟨h1, -, h3⟩ := asapFold_spec he
  have hone : ∃ c ∈ it.cons, ∃ t, getStartTime s A (addDelay (delayOf s) c) it.dur = .ok t ∧
      A it.key = some t := by
    rcases h3 with h3 | ⟨c, hc, t, ht, hA⟩
    · obtain ⟨c, hc⟩ := List.exists_mem_of_ne_nil _ hne
      obtain ⟨t, ht, r, hr, hle⟩ := h1 (addDelay (delayOf s) c) (List.mem_map.2 ⟨c, hc, rfl⟩)
      rw [h3] at hr; cases hr
    · obtain ⟨c0, hc0, rfl⟩ := List.mem_map.1 hc
      exact ⟨c0, hc0, t, ht, hA⟩
  obtain ⟨c, hc, t, ht, hA⟩ := hone
  refine ⟨t, hA, ?_, ?_⟩
  · intro c' hc'
    obtain ⟨t', ht', r, hr, hle⟩ := h1 (addDelay (delayOf s) c') (List.mem_map.2 ⟨c', hc', rfl⟩)
    obtain ⟨ri, b, e1, e2, e3, -, -, e4⟩ := getStartTime_ok ht'
    refine ⟨ri, (findItem_some e2).1, b, e1, e3, ?_⟩
    rw [hA, Option.some.injEq] at hr
    simp only [need, e3, hr]
    rw [e4] at hle
    simpa using hle
  · obtain ⟨ri, b, e1, e2, e3, -, -, e4⟩ := getStartTime_ok ht
    refine ⟨c, hc, ri, (findItem_some e2).1, e1, ?_⟩
    simp only [need, e3, e4]; simp

theorem eqn_alap {s : List (Item κ)} {A : κ → Option Rat} {it : Item κ} (hu : UniqueKeys s)
    (hit : it ∈ s) (he : Eqn .alap s A it.key) :
    ∃ a c cs, A it.key = some a ∧ it.cons = c :: cs ∧
      ∃ ri ∈ s, c.ref = some ri.key ∧ need (fun k => (A k).getD 0) it c ri = a := by
  obtain ⟨it', hf, c, cs, t, hc, ht, hA⟩ := he
  rw [findItem_mem hu hit, Option.some.injEq] at hf
  subst hf
  rw [consOf_find (findItem_mem hu hit)] at hc
  obtain ⟨ri, b, e1, e2, e3, -, -, e4⟩ := getStartTime_ok ht
  refine ⟨t, c, cs, hA, hc, ri, (findItem_some e2).1, e1, ?_⟩
  simp only [need, e3, e4]; simp

theorem need_shift {T : κ → Rat} {it : Item κ} {c : Constraint κ} {ri : Item κ} (d : Rat) :
    need (fun k => T k + d) it c ri = need T it c ri + d := by
  unfold need; ring

theorem need_congr {T T' : κ → Rat} {it : Item κ} {c : Constraint κ} {ri : Item κ}
    (h : T ri.key = T' ri.key) : need T it c ri = need T' it c ri := by
  unfold need; rw [h]

theorem need_mono {T T' : κ → Rat} {it : Item κ} {c : Constraint κ} {ri : Item κ}
    (h : T ri.key ≤ T' ri.key) : need T it c ri ≤ need T' it c ri := by
  unfold need; linarith

end Verif.Timing
