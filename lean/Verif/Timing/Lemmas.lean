import Verif.Timing.Spec
import Mathlib.Data.Fintype.Basic
import Mathlib.Data.Fintype.EquivFin
import Mathlib.Order.WellFounded
import Mathlib.Order.Preorder.Finite
import Mathlib.Data.Set.Finite.Basic
import Mathlib.Tactic.Linarith
import Mathlib.Tactic.Ring
import Mathlib.Data.List.Nodup

set_option linter.unusedSectionVars false
set_option linter.unusedSimpArgs false
set_option linter.style.haveILetI false

namespace Verif.Timing

variable {κ : Type} [DecidableEq κ]

/-! ### lookups -/

theorem findItem_some {s : List (Item κ)} {k : κ} {it : Item κ} (h : findItem s k = some it) :
    it ∈ s ∧ it.key = k := by
  unfold findItem at h
  have h1 := List.mem_of_find?_eq_some h
  have h2 := List.find?_some h
  exact ⟨h1, by simpa using h2⟩

theorem findItem_mem {s : List (Item κ)} (hu : UniqueKeys s) {it : Item κ} (h : it ∈ s) :
    findItem s it.key = some it := by
  induction s with
  | nil => cases h
  | cons a l ih =>
    simp only [UniqueKeys, List.map_cons, List.nodup_cons, List.mem_map, not_exists, not_and] at hu
    rcases List.mem_cons.1 h with rfl | h
    · simp [findItem]
    · have hne : a.key ≠ it.key := fun e => hu.1 it h e.symm
      have := ih hu.2 h
      simp only [findItem] at this ⊢
      rw [List.find?_cons_of_neg (by simpa using hne)]
      exact this

theorem findItem_none {s : List (Item κ)} {k : κ} (h : findItem s k = none) :
    k ∉ s.map (·.key) := by
  intro hk
  obtain ⟨it, hit, rfl⟩ := List.mem_map.1 hk
  unfold findItem at h
  rw [List.find?_eq_none] at h
  exact h it hit (by simp)

theorem exists_findItem {s : List (Item κ)} {k : κ} (h : k ∈ s.map (·.key)) :
    ∃ it, findItem s k = some it := by
  cases h' : findItem s k with
  | none => exact absurd h (findItem_none h')
  | some it => exact ⟨it, rfl⟩

/-! ### topological orders -/

/-- `l` lists keys so that the predecessors of each are in `done` or earlier in `l`. -/
def TopoFrom (preds : κ → List κ) (done : Set κ) : List κ → Prop
  | [] => True
  | k :: ks => (∀ p ∈ preds k, p ∈ done) ∧ k ∉ done ∧ TopoFrom preds (insert k done) ks

theorem TopoFrom.append {preds : κ → List κ} {done : Set κ} {a b : List κ}
    (ha : TopoFrom preds done a) (hb : TopoFrom preds (done ∪ {k | k ∈ a}) b) :
    TopoFrom preds done (a ++ b) := by
  induction a generalizing done with
  | nil => simpa [TopoFrom] using hb
  | cons k ks ih =>
    refine ⟨ha.1, ha.2.1, ih ha.2.2 ?_⟩
    convert hb using 1
    ext x; simp [or_assoc, or_comm, or_left_comm]

theorem topoFrom_ready {preds : κ → List κ} {done : Set κ} {l : List κ} (hn : l.Nodup)
    (hp : ∀ k ∈ l, ∀ p ∈ preds k, p ∈ done) (hd : ∀ k ∈ l, k ∉ done) :
    TopoFrom preds done l := by
  induction l generalizing done with
  | nil => trivial
  | cons k ks ih =>
    rw [List.nodup_cons] at hn
    refine ⟨hp k (by simp), hd k (by simp), ih hn.2 ?_ ?_⟩
    · intro x hx p hpx; exact Or.inr (hp x (by simp [hx]) p hpx)
    · intro x hx hxd
      rcases hxd with rfl | hxd
      · exact hn.1 hx
      · exact hd x (by simp [hx]) hxd

theorem TopoFrom.nodup {preds : κ → List κ} {done : Set κ} {l : List κ}
    (h : TopoFrom preds done l) : l.Nodup ∧ ∀ k ∈ l, k ∉ done := by
  induction l generalizing done with
  | nil => simp
  | cons k ks ih =>
    obtain ⟨h1, h2⟩ := ih h.2.2
    refine ⟨List.nodup_cons.2 ⟨fun hk => h2 k hk (Or.inl rfl), h1⟩, ?_⟩
    intro x hx
    rcases List.mem_cons.1 hx with rfl | hx
    · exact h.2.1
    · exact fun hd => h2 x hx (Or.inr hd)

theorem topoAux_some {preds : κ → List κ} {fuel : Nat} {rem l : List κ} {done : Set κ}
    (h : topoAux preds fuel rem = some l) (hn : rem.Nodup)
    (hp : ∀ k ∈ rem, ∀ p ∈ preds k, p ∈ done ∨ p ∈ rem) (hd : ∀ k ∈ rem, k ∉ done) :
    l.Perm rem ∧ TopoFrom preds done l := by
  induction fuel generalizing rem l done with
  | zero =>
    cases rem with
    | nil => simp only [topoAux, Option.some.injEq] at h; subst h; exact ⟨.refl _, trivial⟩
    | cons a as => simp [topoAux] at h
  | succ fuel ih =>
    cases rem with
    | nil => simp only [topoAux, Option.some.injEq] at h; subst h; exact ⟨.refl _, trivial⟩
    | cons a as =>
      generalize hrem : a :: as = rem at *
      simp only [topoAux, ← hrem] at h
      rw [hrem] at h
      set ready := rem.filter (fun k => (preds k).all (fun p => p ∉ rem)) with hready
      split at h
      · cases h
      · split at h
        · cases h
        · rename_i l' hl'
          simp only [Option.some.injEq] at h
          subst h
          have hsub : ∀ k ∈ ready, k ∈ rem := fun k hk => (List.mem_filter.1 hk).1
          have hnr : ready.Nodup := hn.filter _
          have hrp : ∀ k ∈ ready, ∀ p ∈ preds k, p ∈ done := by
            intro k hk p hpk
            have h2 := (List.mem_filter.1 hk).2
            simp only [List.all_eq_true, decide_eq_true_eq] at h2
            rcases hp k (hsub k hk) p hpk with h | h
            · exact h
            · exact absurd h (h2 p hpk)
          have := ih (done := done ∪ {k | k ∈ ready}) hl' (hn.filter _)
            (by
              intro k hk p hpk
              have hk' := (List.mem_filter.1 hk).1
              rcases hp k hk' p hpk with h | h
              · exact Or.inl (Or.inl h)
              · by_cases hpr : p ∈ ready
                · exact Or.inl (Or.inr hpr)
                · exact Or.inr (List.mem_filter.2 ⟨h, by simpa using hpr⟩))
            (by
              intro k hk hkd
              have hk' := List.mem_filter.1 hk
              rcases hkd with h | h
              · exact hd k hk'.1 h
              · exact (by simpa using hk'.2 : k ∉ ready) h)
          refine ⟨?_, (topoFrom_ready hnr hrp (fun k hk => hd k (hsub k hk))).append this.2⟩
          have hperm := List.filter_append_perm (fun k => decide (k ∈ ready)) rem
          have e1 : rem.filter (fun k => decide (k ∈ ready)) = ready := by
            conv_rhs => rw [hready]
            apply List.filter_congr
            intro x hx
            simp only [hready, List.mem_filter, hx, true_and]
            cases h : ((preds x).all fun p => decide (p ∉ rem)) <;> simp [h]
          have e2 : rem.filter (fun k => !decide (k ∈ ready)) = rem.filter (fun k => k ∉ ready) := by
            apply List.filter_congr; intro x _; simp
          rw [e1, e2] at hperm
          exact (List.Perm.append_left _ this.1).trans hperm

/-- If every node of a nonempty finite list has a predecessor in the list there is a cycle. -/
theorem exists_cycle {R : κ → κ → Prop} {rem : List κ} (hne : rem ≠ [])
    (h : ∀ k ∈ rem, ∃ p ∈ rem, R p k) : ∃ k, Relation.TransGen R k k := by
  by_contra hno
  push Not at hno
  let S := {x // x ∈ rem}
  have : Finite S := List.finite_toSet rem
  let r : S → S → Prop := fun a b => Relation.TransGen R a.1 b.1
  haveI : IsTrans S r := ⟨fun a b c hab hbc => hab.trans hbc⟩
  haveI : Std.Irrefl r := ⟨fun a ha => hno _ ha⟩
  have wf : WellFounded r := Finite.wellFounded_of_trans_of_irrefl r
  obtain ⟨a, ha⟩ := List.exists_mem_of_ne_nil _ hne
  obtain ⟨m, -, hm⟩ := wf.has_min Set.univ ⟨⟨a, ha⟩, trivial⟩
  obtain ⟨p, hp, hR⟩ := h m.1 m.2
  exact hm ⟨p, hp⟩ trivial (.single hR)

theorem topoAux_none {preds : κ → List κ} {fuel : Nat} {rem : List κ}
    (hf : rem.length ≤ fuel) (h : topoAux preds fuel rem = none) :
    ∃ k, Relation.TransGen (fun a b => a ∈ preds b) k k := by
  induction fuel generalizing rem with
  | zero =>
    cases rem with
    | nil => simp [topoAux] at h
    | cons a as => simp at hf
  | succ fuel ih =>
    cases rem with
    | nil => simp [topoAux] at h
    | cons a as =>
      generalize hrem : a :: as = rem at *
      simp only [topoAux, ← hrem] at h
      rw [hrem] at h
      set ready := rem.filter (fun k => (preds k).all (fun p => p ∉ rem)) with hready
      split at h
      · rename_i he
        apply exists_cycle (rem := rem) (by rw [← hrem]; simp)
        intro k hk
        by_contra hno
        push Not at hno
        have : k ∈ ready := by
          rw [hready, List.mem_filter]
          refine ⟨hk, ?_⟩
          simp only [List.all_eq_true, decide_eq_true_eq]
          intro p hp hpr
          exact hno p hpr hp
        rw [he] at this; cases this
      · rename_i hne
        split at h
        · rename_i hn
          apply ih _ hn
          obtain ⟨x, hx⟩ := List.exists_mem_of_ne_nil _ hne
          have hlt : (rem.filter (fun k => k ∉ ready)).length < rem.length := by
            apply List.length_filter_lt_length_iff_exists.2
            exact ⟨x, (List.mem_filter.1 hx).1, by simpa using hx⟩
          omega
        · cases h

theorem TopoFrom.mem_closed {preds : κ → List κ} {done : Set κ} {l : List κ}
    (h : TopoFrom preds done l) : ∀ k ∈ l, ∀ p ∈ preds k, p ∈ done ∨ p ∈ l := by
  induction l generalizing done with
  | nil => simp
  | cons a l ih =>
    intro k hk p hp
    rcases List.mem_cons.1 hk with rfl | hk
    · exact Or.inl (h.1 p hp)
    · rcases ih h.2.2 k hk p hp with h | h
      · rcases h with rfl | h
        · exact Or.inr (by simp)
        · exact Or.inl h
      · exact Or.inr (by simp [h])

/-- Along a topological order there is no cycle. -/
theorem TopoFrom.no_cycle {preds : κ → List κ} {l : List κ}
    (h : TopoFrom preds ∅ l) (hall : ∀ a b, a ∈ preds b → b ∈ l) :
    ¬ ∃ k, Relation.TransGen (fun a b => a ∈ preds b) k k := by
  have key : ∀ (l : List κ) (done : Set κ), TopoFrom preds done l →
      (∀ a b, a ∈ preds b → b ∈ done → a ∈ done) →
      (∀ k ∈ done, ¬ Relation.TransGen (fun a b => a ∈ preds b) k k) →
      ∀ k, k ∈ done ∨ k ∈ l → ¬ Relation.TransGen (fun a b => a ∈ preds b) k k := by
    intro l
    induction l with
    | nil => intro done _ _ h3 k hk; exact h3 k (by simpa using hk)
    | cons x l ih =>
      intro done h1 h2 h3 k hk
      have hback : ∀ a b, Relation.TransGen (fun a b => a ∈ preds b) a b → b ∈ done → a ∈ done := by
        intro a b hab
        induction hab using Relation.TransGen.head_induction_on with
        | single h => exact fun hb => h2 _ _ h hb
        | head h _ ih => exact fun hb => h2 _ _ h (ih hb)
      apply ih (insert x done) h1.2.2
      · intro a b hab hb
        rcases hb with rfl | hb
        · exact Or.inr (h1.1 a hab)
        · exact Or.inr (h2 a b hab hb)
      · intro k hk hc
        rcases hk with rfl | hk
        · obtain ⟨y, hy1, hy2⟩ := (Relation.TransGen.tail'_iff).1 hc
          have hyd : y ∈ done := h1.1 y hy2
          rcases Relation.reflTransGen_iff_eq_or_transGen.1 hy1 with e | ht
          · exact h1.2.1 (e ▸ hyd)
          · exact h1.2.1 (hback _ _ ht hyd)
        · exact h3 k hk hc
      · rcases hk with hk | hk
        · exact Or.inl (Or.inr hk)
        · rcases List.mem_cons.1 hk with rfl | hk
          · exact Or.inl (Or.inl rfl)
          · exact Or.inr hk
  rintro ⟨k, hk⟩
  obtain ⟨y, _, hy2⟩ := (Relation.TransGen.tail'_iff).1 hk
  exact key l ∅ h (by simp) (by simp) k (Or.inr (hall _ _ hy2)) hk

end Verif.Timing
