import Verif.Timing.Lemmas

set_option linter.unusedSectionVars false
set_option linter.unusedSimpArgs false

namespace Verif.Timing

variable {κ : Type} [DecidableEq κ]

@[simp] theorem upd_same {α : Type} (f : κ → α) (k : κ) (v : α) : upd f k v k = v := by simp [upd]
theorem upd_ne {α : Type} (f : κ → α) {k x : κ} (v : α) (h : x ≠ k) : upd f k v x = f x := by
  simp [upd, h]

/-- The delay each label's operation imposes. -/
def delayOf (s : List (Item κ)) (k : κ) : Option Rat := (findItem s k).bind (·.delay)

/-- The constraint list of a label, before delays. -/
def consOf (s : List (Item κ)) (k : κ) : List (Constraint κ) := (initSt s).cons k

/-- `abs_time` entry before the pass. -/
def staleOf (s : List (Item κ)) (k : κ) : Option Rat := (findItem s k).bind (·.abs)

theorem getStartTime_congr {s : List (Item κ)} {abs abs' : κ → Option Rat} {c : Constraint κ}
    {d : Rat} (h : ∀ r, c.ref = some r → abs r = abs' r) :
    getStartTime s abs c d = getStartTime s abs' c d := by
  unfold getStartTime
  cases hr : c.ref with
  | none => rfl
  | some r => simp only [h r hr]

theorem asapFold_congr {s : List (Item κ)} {abs abs' : κ → Option Rat} {d : Rat}
    {cs : List (Constraint κ)} {cur : Option Rat}
    (h : ∀ c ∈ cs, ∀ r, c.ref = some r → abs r = abs' r) :
    asapFold s abs d cs cur = asapFold s abs' d cs cur := by
  induction cs generalizing cur with
  | nil => rfl
  | cons c cs ih =>
    simp only [asapFold]
    rw [getStartTime_congr (h c (by simp))]
    cases getStartTime s abs' c d with
    | error e => rfl
    | ok t => exact ih (fun c' hc' => h c' (by simp [hc']))

theorem addDelay_ref (D : κ → Option Rat) (c : Constraint κ) : (addDelay D c).ref = c.ref := by
  unfold addDelay
  cases h : c.ref with
  | none => simp [h]
  | some r => cases hd : D r <;> simp [h, hd]

theorem addDelay_congr {D D' : κ → Option Rat} {c : Constraint κ}
    (h : ∀ r, c.ref = some r → D r = D' r) : addDelay D c = addDelay D' c := by
  unfold addDelay
  cases hr : c.ref with
  | none => rfl
  | some r => simp only [h r hr]

theorem mem_predsOf {s : List (Item κ)} {k r : κ} :
    r ∈ predsOf s k ↔ ∃ c ∈ consOf s k, c.ref = some r := by
  unfold predsOf consOf initSt
  cases hf : findItem s k with
  | none => simp [hf]
  | some it => simp [hf, Item.refs, List.mem_filterMap]

/-- The equation the pass establishes for label `k`, in terms of the final times `A`. -/
def Eqn (strat : Strategy) (s : List (Item κ)) (A : κ → Option Rat) (k : κ) : Prop :=
  ∃ it, findItem s k = some it ∧
    match strat with
    | .asap => asapFold s A it.dur ((consOf s k).map (addDelay (delayOf s))) (staleOf s k) = .ok (A k)
    | .alap => ∃ c cs t, consOf s k = c :: cs ∧
        getStartTime s A (addDelay (delayOf s) c) it.dur = .ok t ∧ A k = some t

/-- Invariant of the loop: `done` labels are final, the others untouched. -/
structure Inv (s : List (Item κ)) (done : Set κ) (st : St κ) : Prop where
  delDone : ∀ k ∈ done, st.delays k = delayOf s k
  delRest : ∀ k, k ∉ done → st.delays k = none
  absRest : ∀ k, k ∉ done → st.abs k = staleOf s k
  consRest : ∀ k, k ∉ done → st.cons k = consOf s k

theorem step_ok {strat : Strategy} {s : List (Item κ)} {first : Bool} {st st' : St κ} {k : κ}
    {done : Set κ} (hi : Inv s done st) (hk : k ∉ done) (hp : ∀ p ∈ predsOf s k, p ∈ done)
    (h : step strat s first st k = .ok st') :
    Inv s (insert k done) st' ∧ (∀ x, x ≠ k → st'.abs x = st.abs x ∧ st'.cons x = st.cons x) ∧
    st'.cons k = (consOf s k).map (addDelay (delayOf s)) ∧
    (∃ it, findItem s k = some it) ∧
    (first = true → st'.abs k = some 0) ∧
    (first = false → Eqn strat s st'.abs k) := by
  unfold step at h
  cases hf : findItem s k with
  | none => simp [hf] at h
  | some it =>
    simp only [hf] at h
    -- the new delays
    have hdel : ∀ x, noteDelay st.delays k it.delay x = if x = k then delayOf s k else st.delays x := by
      intro x
      by_cases hx : x = k
      · subst hx
        simp only [if_true, delayOf, hf, Option.bind]
        cases hd : it.delay with
        | none => simpa [noteDelay] using hi.delRest x hk
        | some d => simp [noteDelay]
      · simp only [hx, if_false]
        cases it.delay with
        | none => rfl
        | some d => exact upd_ne _ _ hx
    generalize hD : noteDelay st.delays k it.delay = D at h hdel
    have hcs : (st.cons k).map (addDelay D) = (consOf s k).map (addDelay (delayOf s)) := by
      rw [hi.consRest k hk]
      apply List.map_congr_left
      intro c hc
      apply addDelay_congr
      intro r hr
      have hrd : r ∈ done := hp r (mem_predsOf.2 ⟨c, hc, hr⟩)
      rw [hdel]
      have : r ≠ k := fun e => hk (e ▸ hrd)
      simp [this, hi.delDone r hrd]
    rw [hcs] at h
    have hinv : ∀ (A : κ → Option Rat), (∀ x, x ≠ k → A x = st.abs x) →
        Inv s (insert k done)
          { abs := A, delays := D,
            cons := upd st.cons k ((consOf s k).map (addDelay (delayOf s))) } := by
      intro A hA
      refine ⟨?_, ?_, ?_, ?_⟩
      · intro x hx
        show D x = _
        rw [hdel]
        rcases hx with rfl | hx
        · simp
        · have : x ≠ k := fun e => hk (e ▸ hx)
          simp [this, hi.delDone x hx]
      · intro x hx
        simp only [Set.mem_insert_iff, not_or] at hx
        show D x = _
        rw [hdel]; simp [hx.1, hi.delRest x hx.2]
      · intro x hx
        simp only [Set.mem_insert_iff, not_or] at hx
        show A x = _
        rw [hA x hx.1, hi.absRest x hx.2]
      · intro x hx
        simp only [Set.mem_insert_iff, not_or] at hx
        show upd _ _ _ x = _
        rw [upd_ne _ _ hx.1, hi.consRest x hx.2]
    have hrefs : ∀ v, ∀ c ∈ (consOf s k).map (addDelay (delayOf s)), ∀ r, c.ref = some r →
        st.abs r = upd st.abs k v r := by
      intro v c hc r hr
      obtain ⟨c0, hc0, rfl⟩ := List.mem_map.1 hc
      rw [addDelay_ref] at hr
      have hrd : r ∈ done := hp r (mem_predsOf.2 ⟨c0, hc0, hr⟩)
      rw [upd_ne]; exact fun e => hk (e ▸ hrd)
    cases first with
    | true =>
      simp only [if_true, Except.ok.injEq] at h
      subst h
      refine ⟨hinv _ (fun x hx => upd_ne _ _ hx), fun x hx => ⟨upd_ne _ _ hx, upd_ne _ _ hx⟩,
        by simp, ⟨it, rfl⟩, by simp, by simp⟩
    | false =>
      simp only [Bool.false_eq_true, if_false] at h
      cases strat with
      | asap =>
        simp only at h
        split at h
        · cases h
        · rename_i a ha
          simp only [Except.ok.injEq] at h
          subst h
          refine ⟨hinv _ (fun x hx => upd_ne _ _ hx), fun x hx => ⟨upd_ne _ _ hx, upd_ne _ _ hx⟩,
            by simp, ⟨it, rfl⟩, by simp, fun _ => ⟨it, hf, ?_⟩⟩
          simp only [upd_same]
          rw [← ha, hi.absRest k hk]
          exact (asapFold_congr (hrefs a)).symm
      | alap =>
        simp only at h
        split at h
        · cases h
        · rename_i c cs hcc
          split at h
          · cases h
          · rename_i t ht
            simp only [Except.ok.injEq] at h
            subst h
            refine ⟨hinv _ (fun x hx => upd_ne _ _ hx), fun x hx => ⟨upd_ne _ _ hx, upd_ne _ _ hx⟩,
              by simp, ⟨it, rfl⟩, by simp, fun _ => ⟨it, hf, ?_⟩⟩
            cases hc0 : consOf s k with
            | nil => simp [hc0] at hcc
            | cons c0 cs0 =>
              simp only [hc0, List.map_cons, List.cons.injEq] at hcc
              refine ⟨c0, cs0, t, rfl, ?_, by simp⟩
              rw [hcc.1, ← ht]
              refine (getStartTime_congr (hrefs (some t) c ?_)).symm
              rw [hc0, List.map_cons, hcc.1]; simp

theorem Eqn_congr {strat : Strategy} {s : List (Item κ)} {A A' : κ → Option Rat} {k : κ}
    (hk : A k = A' k) (h : ∀ r ∈ predsOf s k, A r = A' r) (he : Eqn strat s A k) :
    Eqn strat s A' k := by
  have hr : ∀ c ∈ consOf s k, ∀ r, (addDelay (delayOf s) c).ref = some r → A r = A' r := by
    intro c hc r hr
    rw [addDelay_ref] at hr
    exact h r (mem_predsOf.2 ⟨c, hc, hr⟩)
  obtain ⟨it, hf, he⟩ := he
  refine ⟨it, hf, ?_⟩
  cases strat with
  | asap =>
    simp only at he ⊢
    rw [← hk, ← he]
    refine (asapFold_congr ?_).symm
    intro c hc r hcr
    obtain ⟨c0, hc0, rfl⟩ := List.mem_map.1 hc
    exact hr c0 hc0 r hcr
  | alap =>
    obtain ⟨c, cs, t, hc, ht, hA⟩ := he
    refine ⟨c, cs, t, hc, ?_, by rw [← hk, hA]⟩
    rw [← ht]
    exact (getStartTime_congr (hr c (by simp [hc]))).symm

theorem run_ok {strat : Strategy} {s : List (Item κ)} {order : List κ} {first : Bool}
    {st st' : St κ} {done : Set κ} (hi : Inv s done st)
    (ht : TopoFrom (predsOf s) done order)
    (hclosed : ∀ k ∈ done, ∀ p ∈ predsOf s k, p ∈ done)
    (h : run strat s first st order = .ok st') :
    Inv s (done ∪ {k | k ∈ order}) st' ∧
    (∀ x, x ∉ order → st'.abs x = st.abs x ∧ st'.cons x = st.cons x) ∧
    (∀ k ∈ order, st'.cons k = (consOf s k).map (addDelay (delayOf s)) ∧
        ∃ it, findItem s k = some it) ∧
    (∀ k ks, order = k :: ks → first = true →
        st'.abs k = some 0 ∧ ∀ x ∈ ks, Eqn strat s st'.abs x) ∧
    (first = false → ∀ x ∈ order, Eqn strat s st'.abs x) := by
  induction order generalizing first st done with
  | nil =>
    simp only [run, Except.ok.injEq] at h
    subst h
    refine ⟨by simpa using hi, by simp, by simp, by simp, by simp⟩
  | cons k ks ih =>
    simp only [run] at h
    split at h
    · cases h
    · rename_i st1 hst1
      obtain ⟨hi1, hx1, hc1, hit, hf1, he1⟩ := step_ok hi ht.2.1 ht.1 hst1
      obtain ⟨i2, x2, c2, -, e2⟩ := ih hi1 ht.2.2
        (by
          intro x hx p hp
          rcases hx with rfl | hx
          · exact Or.inr (ht.1 p hp)
          · exact Or.inr (hclosed x hx p hp)) h
      have hnk : k ∉ ks := fun hk => (ht.2.2.nodup).2 k hk (Or.inl rfl)
      have hkabs : st'.abs k = st1.abs k := (x2 k hnk).1
      refine ⟨?_, ?_, ?_, ?_, ?_⟩
      · have : done ∪ {x | x ∈ k :: ks} = insert k done ∪ {x | x ∈ ks} := by
          ext x; simp [or_assoc, or_left_comm]
        rw [this]; exact i2
      · intro x hx
        simp only [List.mem_cons, not_or] at hx
        obtain ⟨a1, a2⟩ := x2 x hx.2
        obtain ⟨b1, b2⟩ := hx1 x hx.1
        exact ⟨a1.trans b1, a2.trans b2⟩
      · intro x hx
        rcases List.mem_cons.1 hx with rfl | hx
        · exact ⟨(x2 _ hnk).2.trans hc1, hit⟩
        · exact c2 x hx
      · intro k' ks' he hft
        simp only [List.cons.injEq] at he
        obtain ⟨rfl, rfl⟩ := he
        exact ⟨hkabs.trans (hf1 hft), e2 rfl⟩
      · intro hff x hx
        rcases List.mem_cons.1 hx with rfl | hx
        · refine Eqn_congr hkabs.symm ?_ (he1 hff)
          intro r hr
          have hrd := ht.1 r hr
          have : r ∉ ks := fun hr' => ht.2.2.nodup.2 r hr' (Or.inr hrd)
          exact (x2 r this).1.symm
        · exact e2 rfl x hx

theorem inv_init (s : List (Item κ)) : Inv s ∅ (initSt s) :=
  ⟨by simp, by simp [initSt], by simp [initSt, staleOf], by simp [consOf]⟩

/-- Summary of a successful run along a full topological order. -/
theorem run_init {strat : Strategy} {s : List (Item κ)} {k : κ} {ks : List κ} {st' : St κ}
    (ht : TopoFrom (predsOf s) ∅ (k :: ks))
    (h : run strat s true (initSt s) (k :: ks) = .ok st') :
    st'.abs k = some 0 ∧ (∀ x ∈ ks, Eqn strat s st'.abs x) ∧
    (∀ x ∈ k :: ks, st'.cons x = (consOf s x).map (addDelay (delayOf s))) := by
  obtain ⟨-, -, h3, h4, -⟩ := run_ok (inv_init s) ht (by simp) h
  obtain ⟨h5, h6⟩ := h4 k ks rfl rfl
  exact ⟨h5, h6, fun x hx => (h3 x hx).1⟩

/-! ### reading the equations -/

theorem asapFold_spec {s : List (Item κ)} {A : κ → Option Rat} {d : Rat}
    {cs : List (Constraint κ)} {cur res : Option Rat} (h : asapFold s A d cs cur = .ok res) :
    (∀ c ∈ cs, ∃ t, getStartTime s A c d = .ok t ∧ ∃ r, res = some r ∧ t ≤ r) ∧
    (∀ a, cur = some a → ∃ r, res = some r ∧ a ≤ r) ∧
    (res = cur ∨ ∃ c ∈ cs, ∃ t, getStartTime s A c d = .ok t ∧ res = some t) := by
  induction cs generalizing cur with
  | nil =>
    simp only [asapFold, Except.ok.injEq] at h
    subst h
    exact ⟨by simp, fun a h => ⟨a, h, le_refl _⟩, Or.inl rfl⟩
  | cons c cs ih =>
    simp only [asapFold] at h
    split at h
    · cases h
    · rename_i t ht
      obtain ⟨h1, h2, h3⟩ := ih h
      have hnew : ∃ b, (match cur with
         | none => some t
         | some a => if t > a then some t else some a) = some b ∧ t ≤ b ∧
           (∀ a, cur = some a → a ≤ b) ∧ (some b = cur ∨ b = t) := by
        cases cur with
        | none => exact ⟨t, rfl, le_refl _, by simp, Or.inr rfl⟩
        | some a =>
          by_cases hta : t > a
          · exact ⟨t, by simp [hta], le_refl _, by rintro _ ⟨⟩; exact le_of_lt hta, Or.inr rfl⟩
          · exact ⟨a, by simp [hta], not_lt.1 hta, by rintro _ ⟨⟩; exact le_refl _, Or.inl rfl⟩
      obtain ⟨b, hb, htb, hcb, heq⟩ := hnew
      obtain ⟨r, hr, hbr⟩ := h2 b hb
      refine ⟨?_, ?_, ?_⟩
      · intro c' hc'
        rcases List.mem_cons.1 hc' with rfl | hc'
        · exact ⟨t, ht, r, hr, htb.trans hbr⟩
        · exact h1 c' hc'
      · intro a ha
        exact ⟨r, hr, (hcb a ha).trans hbr⟩
      · rcases h3 with h3 | ⟨c', hc', t', ht', hres⟩
        · have h3' := h3.trans hb
          rw [h3']
          rcases heq with e | e
          · exact Or.inl e
          · exact Or.inr ⟨c, by simp, t, ht, by rw [e]⟩
        · exact Or.inr ⟨c', by simp [hc'], t', ht', hres⟩

theorem offset_ok {d : Rat} {p : RefPt} {o : Rat} (h : offset d p = .ok o) :
    o = p.frac * d ∧ p ≠ .other := by
  cases p <;> simp [offset] at h <;> subst h <;> simp [RefPt.frac] <;> ring

theorem offset_frac {d : Rat} {p : RefPt} (h : p ≠ .other) : offset d p = .ok (p.frac * d) := by
  cases p <;> simp [offset, RefPt.frac] at h ⊢ <;> ring

theorem getStartTime_ok {s : List (Item κ)} {A : κ → Option Rat} {c : Constraint κ} {d t : Rat}
    (h : getStartTime s A (addDelay (delayOf s) c) d = .ok t) :
    ∃ ri a, c.ref = some ri.key ∧ findItem s ri.key = some ri ∧ A ri.key = some a ∧
      c.refPt ≠ some .other ∧ c.refPtNew ≠ some .other ∧
      t = a + (c.refPt.getD .stop).frac * ri.dur + c.rel + ri.delay.getD 0
        - (c.refPtNew.getD .start).frac * d := by
  unfold getStartTime at h
  rw [addDelay_ref] at h
  cases hr : c.ref with
  | none => simp [hr] at h
  | some r =>
    simp only [hr] at h
    cases hf : findItem s r with
    | none => simp [hf] at h
    | some ri =>
      simp only [hf] at h
      cases ha : A r with
      | none => simp [ha] at h
      | some a =>
        simp only [ha] at h
        have hrk := (findItem_some hf).2
        have e1 : (addDelay (delayOf s) c).refPt = c.refPt := by
          unfold addDelay; rw [hr]; simp only; cases delayOf s r <;> rfl
        have e2 : (addDelay (delayOf s) c).refPtNew = c.refPtNew := by
          unfold addDelay; rw [hr]; simp only; cases delayOf s r <;> rfl
        have e3 : (addDelay (delayOf s) c).rel = c.rel + ri.delay.getD 0 := by
          unfold addDelay; rw [hr]
          simp only [delayOf, hf, Option.bind]
          cases ri.delay <;> simp
        rw [e1, e2, e3] at h
        split at h
        · cases h
        · rename_i o ho
          split at h
          · cases h
          · rename_i o' ho'
            simp only [Except.ok.injEq] at h
            obtain ⟨ho, hno⟩ := offset_ok ho
            obtain ⟨ho', hno'⟩ := offset_ok ho'
            refine ⟨ri, a, by rw [hrk], by rw [hrk]; exact hf, by rw [hrk]; exact ha, ?_, ?_, ?_⟩
            · intro e; rw [e] at hno; exact hno rfl
            · intro e; rw [e] at hno'; exact hno' rfl
            · rw [← h, ho, ho']; ring

theorem getStartTime_of {s : List (Item κ)} {A : κ → Option Rat} {c : Constraint κ} {d : Rat}
    {ri : Item κ} {a : Rat} (hr : c.ref = some ri.key) (hf : findItem s ri.key = some ri)
    (ha : A ri.key = some a) (h1 : c.refPt ≠ some .other) (h2 : c.refPtNew ≠ some .other) :
    getStartTime s A (addDelay (delayOf s) c) d =
      .ok (a + (c.refPt.getD .stop).frac * ri.dur + c.rel + ri.delay.getD 0
        - (c.refPtNew.getD .start).frac * d) := by
  unfold getStartTime
  rw [addDelay_ref]
  have e1 : (addDelay (delayOf s) c).refPt = c.refPt := by
    unfold addDelay; rw [hr]; simp only; cases delayOf s ri.key <;> rfl
  have e2 : (addDelay (delayOf s) c).refPtNew = c.refPtNew := by
    unfold addDelay; rw [hr]; simp only; cases delayOf s ri.key <;> rfl
  have e3 : (addDelay (delayOf s) c).rel = c.rel + ri.delay.getD 0 := by
    unfold addDelay; rw [hr]
    simp only [delayOf, hf, Option.bind]
    cases ri.delay <;> simp
  simp only [hr, hf, ha, e1, e2, e3]
  have n1 : c.refPt.getD .stop ≠ .other := by
    cases h : c.refPt with
    | none => simp
    | some p => intro e; apply h1; rw [h]; simpa using e
  have n2 : c.refPtNew.getD .start ≠ .other := by
    cases h : c.refPtNew with
    | none => simp
    | some p => intro e; apply h2; rw [h]; simpa using e
  rw [offset_frac n1, offset_frac n2]
  simp only
  congr 1; ring

end Verif.Timing
