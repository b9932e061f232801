import Verif.Timing.CoreLemmas

set_option linter.unusedSectionVars false
set_option linter.unusedSimpArgs false

namespace Verif.Timing

variable {κ : Type} [DecidableEq κ]

/-- Constraints that the loop can evaluate. -/
def Good (s : List (Item κ)) (k : κ) : Prop :=
  ∃ it, findItem s k = some it ∧ consOf s k ≠ [] ∧
    ∀ c ∈ consOf s k, c.ref ≠ none ∧ c.refPt ≠ some .other ∧ c.refPtNew ≠ some .other

theorem asapFold_progress {s : List (Item κ)} {A : κ → Option Rat} {d : Rat}
    {cs : List (Constraint κ)} {cur : Option Rat}
    (h : ∀ c ∈ cs, ∃ t, getStartTime s A c d = .ok t) :
    ∃ res, asapFold s A d cs cur = .ok res ∧ (cs ≠ [] ∨ cur ≠ none → res ≠ none) := by
  induction cs generalizing cur with
  | nil => exact ⟨cur, rfl, by simp⟩
  | cons c cs ih =>
    obtain ⟨t, ht⟩ := h c (by simp)
    simp only [asapFold, ht]
    obtain ⟨res, hr, hn⟩ := ih (cur := match cur with
         | none => some t
         | some a => if t > a then some t else some a) (fun c' hc' => h c' (by simp [hc']))
    refine ⟨res, hr, fun _ => hn (Or.inr ?_)⟩
    cases cur with
    | none => simp
    | some a => by_cases hta : t > a <;> simp [hta]

theorem getStartTime_progress {s : List (Item κ)} {A : κ → Option Rat} {d : Rat}
    {c : Constraint κ} {r : κ} {ri : Item κ} (hr : c.ref = some r) (hf : findItem s r = some ri)
    (hA : A r ≠ none) (h1 : c.refPt ≠ some .other) (h2 : c.refPtNew ≠ some .other) :
    ∃ t, getStartTime s A (addDelay (delayOf s) c) d = .ok t := by
  obtain ⟨a, ha⟩ := Option.ne_none_iff_exists'.1 hA
  have hk := (findItem_some hf).2
  exact ⟨_, getStartTime_of (ri := ri) (by rw [hr, hk]) (by rw [hk, hf]) (by rw [hk, ha]) h1 h2⟩

theorem step_progress {strat : Strategy} {s : List (Item κ)} {first : Bool} {st : St κ} {k : κ}
    {done : Set κ} (hi : Inv s done st) (hk : k ∉ done) (hp : ∀ p ∈ predsOf s k, p ∈ done)
    (hd : ∀ x ∈ done, st.abs x ≠ none ∧ ∃ it, findItem s x = some it)
    (hfind : ∃ it, findItem s k = some it) (hg : first = false → Good s k) :
    ∃ st', step strat s first st k = .ok st' ∧ st'.abs k ≠ none := by
  obtain ⟨it, hf⟩ := hfind
  have hcs : (st.cons k).map (addDelay (noteDelay st.delays k it.delay)) =
      (consOf s k).map (addDelay (delayOf s)) := by
    rw [hi.consRest k hk]
    apply List.map_congr_left
    intro c hc
    apply addDelay_congr
    intro r hr
    have hrd : r ∈ done := hp r (mem_predsOf.2 ⟨c, hc, hr⟩)
    have hne : r ≠ k := fun e => hk (e ▸ hrd)
    rw [← hi.delDone r hrd]
    cases it.delay with
    | none => rfl
    | some d => simp [noteDelay, upd_ne _ _ hne]
  unfold step
  simp only [hf, hcs]
  cases first with
  | true => exact ⟨_, rfl, by simp⟩
  | false =>
    obtain ⟨it', hf', hne, hgood⟩ := hg rfl
    have hst : ∀ c ∈ consOf s k, ∃ t, getStartTime s st.abs (addDelay (delayOf s) c) it.dur = .ok t := by
      intro c hc
      obtain ⟨g1, g2, g3⟩ := hgood c hc
      obtain ⟨r, hr⟩ := Option.ne_none_iff_exists'.1 g1
      have hrd : r ∈ done := hp r (mem_predsOf.2 ⟨c, hc, hr⟩)
      obtain ⟨ha, ri, hri⟩ := hd r hrd
      exact getStartTime_progress hr hri ha g2 g3
    simp only [Bool.false_eq_true, if_false]
    cases strat with
    | asap =>
      obtain ⟨res, hr, hn⟩ := asapFold_progress (s := s) (A := st.abs) (d := it.dur)
        (cs := (consOf s k).map (addDelay (delayOf s))) (cur := st.abs k)
        (by
          intro c hc
          obtain ⟨c0, hc0, rfl⟩ := List.mem_map.1 hc
          exact hst c0 hc0)
      simp only [hr]
      exact ⟨_, rfl, by simpa using hn (Or.inl (by simpa using hne))⟩
    | alap =>
      cases hc0 : consOf s k with
      | nil => exact absurd hc0 hne
      | cons c cs =>
        obtain ⟨t, ht⟩ := hst c (by simp [hc0])
        simp only [List.map_cons, ht]
        exact ⟨_, rfl, by simp⟩

theorem run_progress {strat : Strategy} {s : List (Item κ)} {order : List κ} {first : Bool}
    {st : St κ} {done : Set κ} (hi : Inv s done st)
    (ht : TopoFrom (predsOf s) done order)
    (hd : ∀ x ∈ done, st.abs x ≠ none ∧ ∃ it, findItem s x = some it)
    (hfind : ∀ k ∈ order, ∃ it, findItem s k = some it)
    (hg : ∀ k ∈ order, (first = true ∧ order.head? = some k) ∨ Good s k) :
    ∃ st', run strat s first st order = .ok st' ∧ ∀ k ∈ order, st'.abs k ≠ none := by
  induction order generalizing first st done with
  | nil => exact ⟨st, rfl, by simp⟩
  | cons k ks ih =>
    obtain ⟨st1, hst1, habs⟩ := step_progress (strat := strat) (first := first) hi ht.2.1 ht.1 hd
      (hfind k (by simp))
      (by
        intro hff
        rcases hg k (by simp) with ⟨h, -⟩ | h
        · rw [hff] at h; cases h
        · exact h)
    obtain ⟨hi1, hx1, -, hit, -, -⟩ := step_ok hi ht.2.1 ht.1 hst1
    have hnk : k ∉ ks := fun hk => (ht.2.2.nodup).2 k hk (Or.inl rfl)
    have hd1 : ∀ x ∈ insert k done, st1.abs x ≠ none ∧ ∃ it, findItem s x = some it := by
      intro x hx
      rcases hx with rfl | hx
      · exact ⟨habs, hit⟩
      · have hxk : x ≠ k := fun e => ht.2.1 (e ▸ hx)
        rw [(hx1 x hxk).1]; exact hd x hx
    obtain ⟨st', hst', hall⟩ := ih (first := false) hi1 ht.2.2 hd1
      (fun x hx => hfind x (by simp [hx]))
      (by
        intro x hx
        rcases hg x (by simp [hx]) with ⟨-, h⟩ | h
        · simp only [List.head?_cons, Option.some.injEq] at h
          exact absurd (h ▸ hx) hnk
        · exact Or.inr h)
    refine ⟨st', by simp [run, hst1, hst'], ?_⟩
    intro x hx
    rcases List.mem_cons.1 hx with rfl | hx
    · rcases List.eq_nil_or_concat ks with rfl | _
      · simp only [run, Except.ok.injEq] at hst'; subst hst'; exact habs
      · have := run_frame hst' hnk
        rw [this]; exact habs
    · exact hall x hx
where
  run_frame {strat : Strategy} {s : List (Item κ)} {order : List κ} {first : Bool}
    {st st' : St κ} {k : κ} (h : run strat s first st order = .ok st') (hk : k ∉ order) :
    st'.abs k = st.abs k := by
    induction order generalizing first st with
    | nil => simp only [run, Except.ok.injEq] at h; subst h; rfl
    | cons x xs ih =>
      simp only [run] at h
      split at h
      · cases h
      · rename_i st1 hst1
        simp only [List.mem_cons, not_or] at hk
        rw [ih h hk.2]
        unfold step at hst1
        split at hst1
        · cases hst1
        · simp only at hst1
          split at hst1
          · simp only [Except.ok.injEq] at hst1; subst hst1; exact upd_ne _ _ hk.1
          · split at hst1
            · split at hst1
              · cases hst1
              · simp only [Except.ok.injEq] at hst1; subst hst1; exact upd_ne _ _ hk.1
            · split at hst1
              · cases hst1
              · split at hst1
                · cases hst1
                · simp only [Except.ok.injEq] at hst1; subst hst1; exact upd_ne _ _ hk.1

/-- Success of `timeWith` along a topological order. -/
theorem timeWith_progress {strat : Strategy} {s : List (Item κ)} {order : List κ}
    (hne : s ≠ []) (hp : order.Perm (s.map (·.key))) (ht : TopoFrom (predsOf s) ∅ order)
    (hg : ∀ k ∈ order, order.head? = some k ∨ Good s k) :
    ∃ out, timeWith strat s order = .ok out := by
  obtain ⟨st', hst', hall⟩ := run_progress (strat := strat) (first := true) (inv_init s) ht (by simp)
    (fun k hk => exists_findItem (hp.mem_iff.1 hk))
    (fun k hk => (hg k hk).imp (fun h => ⟨rfl, h⟩) id)
  unfold timeWith
  rw [hst']
  apply normalize_of
  · simpa [writeBack] using hne
  · intro it hit
    obtain ⟨it0, h0, rfl⟩ := List.mem_map.1 hit
    exact hall it0.key (hp.mem_iff.2 (List.mem_map.2 ⟨it0, h0, rfl⟩))

/-- Two families of times satisfying the equations agree. -/
theorem eqn_unique {strat : Strategy} {s : List (Item κ)} {A B : κ → Option Rat}
    {done : Set κ} {l : List κ} (ht : TopoFrom (predsOf s) done l)
    (hd : ∀ x ∈ done, A x = B x) (hA : ∀ x ∈ l, Eqn strat s A x) (hB : ∀ x ∈ l, Eqn strat s B x) :
    ∀ x ∈ l, A x = B x := by
  induction l generalizing done with
  | nil => simp
  | cons k ks ih =>
    have hk : A k = B k := by
      obtain ⟨it, hf, ha⟩ := hA k (by simp)
      obtain ⟨it', hf', hb⟩ := hB k (by simp)
      rw [hf, Option.some.injEq] at hf'
      subst hf'
      have hr : ∀ c ∈ consOf s k, ∀ r, (addDelay (delayOf s) c).ref = some r → A r = B r := by
        intro c hc r hr
        rw [addDelay_ref] at hr
        exact hd r (ht.1 r (mem_predsOf.2 ⟨c, hc, hr⟩))
      cases strat with
      | asap =>
        simp only at ha hb
        have : asapFold s A it.dur ((consOf s k).map (addDelay (delayOf s))) (staleOf s k) =
            asapFold s B it.dur ((consOf s k).map (addDelay (delayOf s))) (staleOf s k) := by
          apply asapFold_congr
          intro c hc r hcr
          obtain ⟨c0, hc0, rfl⟩ := List.mem_map.1 hc
          exact hr c0 hc0 r hcr
        rw [this, hb] at ha
        simpa using ha.symm
      | alap =>
        obtain ⟨c, cs, t, hc, h1, h2⟩ := ha
        obtain ⟨c', cs', t', hc', h1', h2'⟩ := hb
        rw [hc] at hc'
        simp only [List.cons.injEq] at hc'
        obtain ⟨rfl, rfl⟩ := hc'
        have : getStartTime s A (addDelay (delayOf s) c) it.dur =
            getStartTime s B (addDelay (delayOf s) c) it.dur :=
          getStartTime_congr (hr c (by simp [hc]))
        rw [this, h1'] at h1
        simp only [Except.ok.injEq] at h1
        rw [h2, h2', h1]
    intro x hx
    rcases List.mem_cons.1 hx with rfl | hx
    · exact hk
    · refine ih ht.2.2 ?_ (fun y hy => hA y (by simp [hy])) (fun y hy => hB y (by simp [hy])) x hx
      intro y hy
      rcases hy with rfl | hy
      · exact hk
      · exact hd y hy

/-- A spec-level topological order has the recursive form. -/
theorem topoFrom_of_order {s : List (Item κ)} {order : List κ} (hu : UniqueKeys s)
    (h : TopologicalOrder s order) : TopoFrom (predsOf s) ∅ order := by
  obtain ⟨hp, hb⟩ := h
  have hn : order.Nodup := hp.nodup_iff.2 hu
  -- generalise over a split
  have key : ∀ (pre post : List κ), order = pre ++ post →
      TopoFrom (predsOf s) {k | k ∈ pre} post := by
    intro pre post
    induction post generalizing pre with
    | nil => intro _; trivial
    | cons k ks ih =>
      intro he
      refine ⟨?_, ?_, ?_⟩
      · intro p hpk
        obtain ⟨c, hc, hr⟩ := mem_predsOf.1 hpk
        have hk : k ∈ s.map (·.key) := hp.mem_iff.1 (by rw [he]; simp)
        obtain ⟨it, hf⟩ := exists_findItem hk
        rw [consOf_find hf] at hc
        obtain ⟨i, j, hi, hj, hij⟩ := hb it (findItem_some hf).1 c hc p hr
        rw [(findItem_some hf).2] at hj
        have hj' : j = pre.length := by
          have hjl : j < order.length := by
            by_contra hnn; rw [List.getElem?_eq_none (by omega)] at hj; cases hj
          have hpl : pre.length < order.length := by rw [he]; simp
          rw [List.getElem?_eq_getElem hjl, Option.some.injEq] at hj
          have : order[pre.length] = k := by simp [he]
          exact (List.Nodup.getElem_inj_iff hn).1 (hj.trans this.symm)
        rw [he, List.getElem?_append_left (by omega)] at hi
        exact List.mem_iff_getElem?.2 ⟨i, hi⟩
      · intro hk
        rw [he] at hn
        exact (List.disjoint_of_nodup_append hn) hk (by simp)
      · have := ih (pre ++ [k]) (by simp [he])
        convert this using 1
        ext x; simp [or_comm]
  have := key [] order rfl
  simpa using this

/-- The head of a topological order of an explicit schedule sits at an index without neighbour. -/
theorem explicit_root {strat : Strategy} {s s' : List (Item κ)} {k : κ} {ks : List κ}
    (hs' : makeExplicit strat s = .ok s') (hu' : UniqueKeys s')
    (hp : (k :: ks).Perm (s'.map (·.key))) (ht : TopoFrom (predsOf s') ∅ (k :: ks)) :
    ∃ i, (∃ it, s'[i]? = some it ∧ it.key = k) ∧ neighbour strat s i = none := by
  have hroot : predsOf s' k = [] := by
    rw [List.eq_nil_iff_forall_not_mem]; intro p hp'; exact ht.1 p hp'
  obtain ⟨itk, hmk, hkk⟩ := List.mem_map.1 (hp.mem_iff.1 (List.mem_cons_self (a := k) (l := ks)))
  obtain ⟨ik, hik'⟩ := List.mem_iff_getElem?.1 hmk
  exact ⟨ik, ⟨itk, hik', hkk⟩, root_index hs' hu' hik' (by rw [hkk]; exact hroot)⟩

theorem good_of_eqn {strat : Strategy} {s s' : List (Item κ)} {A : κ → Option Rat} {x : κ}
    (hs' : makeExplicit strat s = .ok s') (hu' : UniqueKeys s') (he : Eqn strat s' A x) :
    Good s' x := by
  obtain ⟨it, hf, he⟩ := he
  have hm := (findItem_some hf).1
  obtain ⟨i, hi⟩ := List.mem_iff_getElem?.1 hm
  obtain ⟨it0, h0, hone⟩ := makeExplicit_get' hs' i it hi
  have hne : consOf s' x ≠ [] := by
    rw [consOf_find hf]
    obtain ⟨-, c, cs, -, rfl⟩ := makeExplicitOne_ok hone; simp
  refine ⟨it, hf, hne, ?_⟩
  cases strat with
  | asap =>
    simp only at he
    intro c hc
    obtain ⟨t, ht, -⟩ := (asapFold_spec he).1 (addDelay (delayOf s') c) (List.mem_map.2 ⟨c, hc, rfl⟩)
    obtain ⟨ri, a, e1, -, -, e4, e5, -⟩ := getStartTime_ok ht
    exact ⟨by rw [e1]; simp, e4, e5⟩
  | alap =>
    obtain ⟨c, cs, t, hc, ht, -⟩ := he
    obtain ⟨hl, c0, cs0, e0, e1⟩ := makeExplicitOne_ok hone
    have hl := hl rfl
    rw [e0] at hl
    simp only [List.length_cons, Nat.add_eq_right, List.length_eq_zero_iff] at hl
    subst hl
    rw [consOf_find hf, e1] at hc
    simp only [List.cons.injEq] at hc
    intro c' hc'
    rw [consOf_find hf, e1] at hc'
    simp only [List.mem_singleton] at hc'
    rw [hc.1] at hc'
    subst hc'
    obtain ⟨ri, a, e1, -, -, e4, e5, -⟩ := getStartTime_ok ht
    exact ⟨by rw [e1]; simp, e4, e5⟩

end Verif.Timing
