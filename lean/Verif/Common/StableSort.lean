/-
Stable sorting by a key: uniqueness, sorting by two keys one after the other, and sorting a
concatenation of blocks.
-/
import Mathlib.Order.Defs.LinearOrder
import Mathlib.Data.Prod.Lex

namespace Verif.StableSort

variable {α β K : Type} [LinearOrder K]

/-- Stable sort by a key (Python's `sorted(l, key=key)`). -/
def sortBy (key : α → K) (l : List α) : List α := l.mergeSort (fun a b => decide (key a ≤ key b))

/-- Elements with a given key. -/
def withKey (key : α → K) (c : K) (l : List α) : List α := l.filter (fun a => decide (key a = c))

theorem sortBy_perm (key : α → K) (l : List α) : (sortBy key l).Perm l := List.mergeSort_perm _ _

theorem mem_sortBy {key : α → K} {l : List α} {a : α} : a ∈ sortBy key l ↔ a ∈ l :=
  List.mem_mergeSort

theorem sortBy_sorted (key : α → K) (l : List α) :
    (sortBy key l).Pairwise (fun a b => key a ≤ key b) := by
  have h := List.pairwise_mergeSort (le := fun a b => decide (key a ≤ key b))
    (fun a b c hab hbc => by
      simp only [decide_eq_true_eq] at *; exact le_trans hab hbc)
    (fun a b => by simp only [Bool.or_eq_true, decide_eq_true_eq]; exact le_total _ _) l
  simpa [sortBy] using h

theorem withKey_append (key : α → K) (c : K) (l m : List α) :
    withKey key c (l ++ m) = withKey key c l ++ withKey key c m := List.filter_append ..

theorem withKey_flatMap (key : α → K) (c : K) (l : List β) (f : β → List α) :
    withKey key c (l.flatMap f) = l.flatMap (fun b => withKey key c (f b)) := by
  induction l with
  | nil => rfl
  | cons b l ih => simp [withKey_append, ih]

theorem mem_withKey {key : α → K} {c : K} {l : List α} {a : α} :
    a ∈ withKey key c l ↔ a ∈ l ∧ key a = c := by simp [withKey]

/-- The sort is stable. -/
theorem withKey_sortBy (key : α → K) (c : K) (l : List α) :
    withKey key c (sortBy key l) = withKey key c l := by
  have hsub : (withKey key c l).Sublist (sortBy key l) := by
    apply List.sublist_mergeSort
    · intro a b c' hab hbc
      simp only [decide_eq_true_eq] at *; exact le_trans hab hbc
    · intro a b
      simp only [Bool.or_eq_true, decide_eq_true_eq]; exact le_total _ _
    · rw [List.pairwise_iff_forall_sublist]
      intro a b hab
      have ha : a ∈ withKey key c l := hab.subset (by simp)
      have hb : b ∈ withKey key c l := hab.subset (by simp)
      rw [mem_withKey] at ha hb
      simp [ha.2, hb.2]
    · exact List.filter_sublist
  have h2 : (withKey key c (withKey key c l)).Sublist (withKey key c (sortBy key l)) :=
    hsub.filter _
  have h3 : withKey key c (withKey key c l) = withKey key c l := by simp [withKey]
  rw [h3] at h2
  exact (h2.eq_of_length (((sortBy_perm key l).filter _).length_eq).symm).symm

/-- Two sorted lists with the same elements for each key, in the same order, are equal. -/
theorem sorted_unique (key : α → K) : ∀ (l m : List α),
    l.Pairwise (fun a b => key a ≤ key b) → m.Pairwise (fun a b => key a ≤ key b) →
    (∀ c, withKey key c l = withKey key c m) → l = m
  | [], [], _, _, _ => rfl
  | [], b :: m, _, _, h => by
    have := h (key b); simp [withKey] at this
  | a :: l, [], _, _, h => by
    have := h (key a); simp [withKey] at this
  | a :: l, b :: m, hl, hm, h => by
    have ha : a ∈ b :: m := by
      have : a ∈ withKey key (key a) (b :: m) := by rw [← h]; simp [withKey]
      exact (mem_withKey.mp this).1
    have hb : b ∈ a :: l := by
      have : b ∈ withKey key (key b) (a :: l) := by rw [h]; simp [withKey]
      exact (mem_withKey.mp this).1
    have hab : key b ≤ key a := by
      rcases List.mem_cons.mp ha with rfl | ha
      · exact le_refl _
      · exact (List.pairwise_cons.mp hm).1 a ha
    have hba : key a ≤ key b := by
      rcases List.mem_cons.mp hb with rfl | hb
      · exact le_refl _
      · exact (List.pairwise_cons.mp hl).1 b hb
    have hk : key a = key b := le_antisymm hba hab
    have heq : a = b := by
      have := h (key a)
      simp [withKey, hk] at this
      exact this.1
    subst heq
    congr 1
    refine sorted_unique key l m (List.pairwise_cons.mp hl).2 (List.pairwise_cons.mp hm).2 ?_
    intro c
    have := h c
    unfold withKey at this ⊢
    by_cases hc : key a = c
    · simpa [hc] using this
    · simpa [hc] using this

/-- The stable sort is characterised by being sorted and keeping the order of equal keys. -/
theorem eq_sortBy (key : α → K) (l m : List α) (hm : m.Pairwise (fun a b => key a ≤ key b))
    (h : ∀ c, withKey key c m = withKey key c l) : sortBy key l = m :=
  sorted_unique key _ _ (sortBy_sorted key l) hm
    (fun c => (withKey_sortBy key c l).trans (h c).symm)

/-- Sorting a sorted list changes nothing. -/
theorem sortBy_of_sorted (key : α → K) (l : List α)
    (h : l.Pairwise (fun a b => key a ≤ key b)) : sortBy key l = l := eq_sortBy key l l h (fun _ => rfl)

/-- Sorting commutes with filtering. -/
theorem sortBy_filter (key : α → K) (p : α → Bool) (l : List α) :
    (sortBy key l).filter p = sortBy key (l.filter p) := by
  symm
  apply eq_sortBy
  · exact (sortBy_sorted key l).filter _
  · intro c
    have := congrArg (List.filter p) (withKey_sortBy key c l)
    unfold withKey at this ⊢
    simpa [List.filter_filter, Bool.and_comm] using this

/-- Sorting commutes with replacing each element by elements with the same key. -/
theorem sortBy_flatMap (key : α → K) (key' : β → K) (f : α → List β) (l : List α)
    (h : ∀ a ∈ l, ∀ b ∈ f a, key' b = key a) :
    (sortBy key l).flatMap f = sortBy key' (l.flatMap f) := by
  symm
  apply eq_sortBy
  · rw [List.pairwise_flatMap]
    refine ⟨?_, ?_⟩
    · intro a ha
      rw [List.pairwise_iff_forall_sublist]
      intro x y hxy
      have hx := h a (mem_sortBy.mp ha) x (hxy.subset (by simp))
      have hy := h a (mem_sortBy.mp ha) y (hxy.subset (by simp))
      rw [hx, hy]
    · have := sortBy_sorted key l
      rw [List.pairwise_iff_forall_sublist] at this ⊢
      intro a b hab x hx y hy
      have ha : a ∈ l := mem_sortBy.mp (hab.subset (by simp))
      have hb : b ∈ l := mem_sortBy.mp (hab.subset (by simp))
      rw [h a ha x hx, h b hb y hy]
      exact this hab
  · intro c
    have key_f : ∀ m : List α, (∀ a ∈ m, a ∈ l) →
        withKey key' c (m.flatMap f) = (withKey key c m).flatMap f := by
      intro m
      induction m with
      | nil => intro _; rfl
      | cons a m ih =>
        intro hm
        have ihm := ih (fun b hb => hm b (List.mem_cons_of_mem _ hb))
        have ha := h a (hm a (by simp))
        rw [List.flatMap_cons, withKey_append, ihm]
        by_cases hc : key a = c
        · have h1 : withKey key' c (f a) = f a := by
            unfold withKey
            rw [List.filter_eq_self]
            intro b hb
            simp [ha b hb, hc]
          have h2 : withKey key c (a :: m) = a :: withKey key c m := by simp [withKey, hc]
          rw [h1, h2, List.flatMap_cons]
        · have h1 : withKey key' c (f a) = [] := by
            unfold withKey
            rw [List.filter_eq_nil_iff]
            intro b hb
            simp [ha b hb, hc]
          have h2 : withKey key c (a :: m) = withKey key c m := by simp [withKey, hc]
          rw [h1, h2, List.nil_append]
    rw [key_f _ (fun a ha => mem_sortBy.mp ha), key_f _ (fun a ha => ha), withKey_sortBy]

/-- Sorting by one key and then by another is sorting by the pair. -/
theorem sortBy_sortBy {K' : Type} [LinearOrder K'] (k1 : α → K) (k2 : α → K') (l : List α) :
    sortBy k2 (sortBy k1 l) = sortBy (fun a => toLex (k2 a, k1 a)) l := by
  have hA := sortBy_sorted (fun a => toLex (k2 a, k1 a)) l
  apply eq_sortBy
  · refine hA.imp ?_
    intro a b hab
    rw [Prod.Lex.le_iff] at hab
    rcases hab with h | ⟨h, _⟩
    · exact le_of_lt h
    · exact le_of_eq h
  · intro c
    apply sorted_unique k1
    · have h' : (withKey k2 c (sortBy (fun a => toLex (k2 a, k1 a)) l)).Pairwise
          (fun a b => toLex (k2 a, k1 a) ≤ toLex (k2 b, k1 b)) := hA.filter _
      rw [List.pairwise_iff_forall_sublist] at h' ⊢
      intro a b hab
      have ha := (mem_withKey.mp (hab.subset (List.mem_cons_self))).2
      have hb := (mem_withKey.mp (hab.subset (List.mem_cons_of_mem _ (List.mem_cons_self)))).2
      have := h' hab
      rw [Prod.Lex.le_iff] at this
      rcases this with h | ⟨_, h⟩
      · simp only [ofLex_toLex, ha, hb] at h; exact absurd h (lt_irrefl _)
      · exact h
    · exact (sortBy_sorted k1 l).filter _
    · intro d
      have e : ∀ m : List α, withKey k1 d (withKey k2 c m) =
          withKey (fun a => toLex (k2 a, k1 a)) (toLex (c, d)) m := by
        intro m
        unfold withKey
        rw [List.filter_filter]
        congr 1
        funext a
        rw [← Bool.decide_and, decide_eq_decide, toLex_inj, Prod.mk.injEq]
        exact and_comm
      have e2 : ∀ m : List α, withKey k1 d (withKey k2 c m) = withKey k2 c (withKey k1 d m) := by
        intro m
        unfold withKey
        rw [List.filter_filter, List.filter_filter]
        congr 1
        funext a
        rw [Bool.and_comm]
      rw [e, withKey_sortBy, ← e, e2 l, e2 (sortBy k1 l), withKey_sortBy]

/-- Two blocks of which the first was written first: they do not overlap. -/
def Apart (key : α → K) (a b : List α) : Prop :=
  (∀ x ∈ a, ∀ y ∈ b, key x ≤ key y) ∨ (∀ x ∈ a, ∀ y ∈ b, key y < key x)

/-- Sorting non-overlapping blocks: the blocks are ordered by the key of any element of each, and
each block is sorted. -/
theorem sortBy_blocks (key : α → K) (blk : β → List α) (rep : β → K) (items : List β)
    (hrep : ∀ b ∈ items, ∃ x ∈ blk b, key x = rep b)
    (hap : items.Pairwise (fun a b => Apart key (blk a) (blk b))) :
    sortBy key (items.flatMap blk) =
      (sortBy rep items).flatMap (fun b => sortBy key (blk b)) := by
  have main : ((sortBy rep items).flatMap (fun b => sortBy key (blk b))).Pairwise
        (fun a b => key a ≤ key b) ∧
      ∀ c, withKey key c ((sortBy rep items).flatMap (fun b => sortBy key (blk b))) =
        withKey key c (items.flatMap blk) := by
    induction items with
    | nil => simp [sortBy]
    | cons a l ih =>
      obtain ⟨hal, hl⟩ := List.pairwise_cons.mp hap
      obtain ⟨ih1, ih2⟩ := ih (fun b hb => hrep b (List.mem_cons_of_mem _ hb)) hl
      obtain ⟨l₁, l₂, e1, e2, h1⟩ := List.mergeSort_cons
        (le := fun a b : β => decide (rep a ≤ rep b))
        (fun a b c hab hbc => by
          simp only [decide_eq_true_eq] at *; exact le_trans hab hbc)
        (fun a b => by simp only [Bool.or_eq_true, decide_eq_true_eq]; exact le_total _ _) a l
      have e1' : sortBy rep (a :: l) = l₁ ++ a :: l₂ := e1
      have e2' : sortBy rep l = l₁ ++ l₂ := e2
      have hsort := sortBy_sorted rep (a :: l)
      rw [e1'] at hsort ⊢
      rw [e2'] at ih1 ih2
      have hmem : ∀ b ∈ l₁ ++ l₂, b ∈ l := fun b hb => by rw [← e2'] at hb; exact mem_sortBy.mp hb
      obtain ⟨xa, hxa, hra⟩ := hrep a (by simp)
      have before : ∀ b ∈ l₁, ∀ x ∈ blk a, ∀ y ∈ blk b, key y < key x := by
        intro b hb
        have hbl := hmem b (by simp [hb])
        rcases hal b hbl with h | h
        · exfalso
          obtain ⟨xb, hxb, hrb⟩ := hrep b (List.mem_cons_of_mem _ hbl)
          have := h xa hxa xb hxb
          have h1' := h1 b hb
          simp only [Bool.not_eq_true', decide_eq_false_iff_not] at h1'
          rw [hra, hrb] at this
          exact h1' this
        · exact h
      have after : ∀ b ∈ l₂, ∀ x ∈ blk a, ∀ y ∈ blk b, key x ≤ key y := by
        intro b hb
        have hbl := hmem b (by simp [hb])
        rcases hal b hbl with h | h
        · exact h
        · exfalso
          obtain ⟨xb, hxb, hrb⟩ := hrep b (List.mem_cons_of_mem _ hbl)
          have := h xa hxa xb hxb
          rw [List.pairwise_append] at hsort
          have h2 := (List.pairwise_cons.mp hsort.2.1).1 b hb
          rw [hra, hrb] at this
          exact absurd h2 (not_le.mpr this)
      refine ⟨?_, ?_⟩
      · rw [List.flatMap_append, List.flatMap_cons, List.pairwise_append, List.pairwise_append]
        rw [List.flatMap_append, List.pairwise_append] at ih1
        refine ⟨ih1.1, ⟨sortBy_sorted _ _, ih1.2.1, ?_⟩, ?_⟩
        · intro x hx y hy
          obtain ⟨b, hb, hyb⟩ := List.mem_flatMap.mp hy
          exact after b hb x (mem_sortBy.mp hx) y (mem_sortBy.mp hyb)
        · intro x hx y hy
          obtain ⟨b, hb, hxb⟩ := List.mem_flatMap.mp hx
          rcases List.mem_append.mp hy with hy | hy
          · exact le_of_lt (before b hb y (mem_sortBy.mp hy) x (mem_sortBy.mp hxb))
          · exact ih1.2.2 x hx y hy
      · intro c
        have ih2c := ih2 c
        rw [List.flatMap_append, withKey_append] at ih2c
        rw [List.flatMap_append, List.flatMap_cons, withKey_append, withKey_append,
          List.flatMap_cons, withKey_append, withKey_sortBy, ← ih2c]
        by_cases hne : withKey key c (blk a) = []
        · simp [hne]
        · have hl1 : withKey key c (l₁.flatMap (fun b => sortBy key (blk b))) = [] := by
            by_contra hcon
            obtain ⟨y, hy⟩ := List.exists_mem_of_ne_nil _ hcon
            obtain ⟨x, hx⟩ := List.exists_mem_of_ne_nil _ hne
            obtain ⟨hy1, hyc⟩ := mem_withKey.mp hy
            obtain ⟨hx1, hxc⟩ := mem_withKey.mp hx
            obtain ⟨b, hb, hyb⟩ := List.mem_flatMap.mp hy1
            have := before b hb x hx1 y (mem_sortBy.mp hyb)
            rw [hyc, hxc] at this
            exact absurd this (lt_irrefl _)
          rw [hl1]; simp
  exact eq_sortBy key _ _ main.1 main.2

/-- Sorting commutes with a map that keeps the keys. -/
theorem sortBy_map (key : α → K) (key' : β → K) (f : α → β) (l : List α)
    (h : ∀ a ∈ l, key' (f a) = key a) : (sortBy key l).map f = sortBy key' (l.map f) := by
  have := sortBy_flatMap key key' (fun a => [f a]) l (fun a ha b hb => by
    simp only [List.mem_singleton] at hb; rw [hb]; exact h a ha)
  have e : ∀ m : List α, m.flatMap (fun a => [f a]) = m.map f := by
    intro m
    induction m with
    | nil => rfl
    | cons a m ih => rw [List.flatMap_cons, ih]; rfl
  rwa [e, e] at this

/-- Insertion in front of the first element whose key is not smaller. -/
def insertBy (key : α → K) (a : α) : List α → List α
  | [] => [a]
  | b :: l => if key a ≤ key b then a :: b :: l else b :: insertBy key a l

/-- A sort by structural recursion, for evaluating examples. -/
def insSort (key : α → K) : List α → List α
  | [] => []
  | a :: l => insertBy key a (insSort key l)

theorem mem_insertBy {key : α → K} {a x : α} : ∀ {l : List α},
    x ∈ insertBy key a l ↔ x = a ∨ x ∈ l
  | [] => by simp [insertBy]
  | b :: l => by
    unfold insertBy
    split
    · simp
    · simp [mem_insertBy (l := l)]; tauto

theorem insertBy_sorted (key : α → K) (a : α) : ∀ (l : List α),
    l.Pairwise (fun a b => key a ≤ key b) → (insertBy key a l).Pairwise (fun a b => key a ≤ key b)
  | [], _ => by simp [insertBy]
  | b :: l, h => by
    obtain ⟨h1, h2⟩ := List.pairwise_cons.mp h
    unfold insertBy
    split
    · rename_i hab
      refine List.pairwise_cons.mpr ⟨?_, h⟩
      intro x hx
      rcases List.mem_cons.mp hx with rfl | hx
      · exact hab
      · exact le_trans hab (h1 x hx)
    · rename_i hab
      refine List.pairwise_cons.mpr ⟨?_, insertBy_sorted key a l h2⟩
      intro x hx
      rcases mem_insertBy.mp hx with rfl | hx
      · exact le_of_lt (not_le.mp hab)
      · exact h1 x hx

theorem withKey_insertBy (key : α → K) (c : K) (a : α) : ∀ (l : List α),
    withKey key c (insertBy key a l) = withKey key c (a :: l)
  | [] => rfl
  | b :: l => by
    unfold insertBy
    split
    · rfl
    · rename_i hab
      have ih := withKey_insertBy key c a l
      unfold withKey at ih ⊢
      rw [List.filter_cons, ih, List.filter_cons, List.filter_cons, List.filter_cons]
      by_cases ha : key a = c
      · have hb : ¬ key b = c := by
          intro hb; apply hab; rw [ha, hb]
        simp [ha, hb]
      · simp [ha]

theorem sortBy_eq_insSort (key : α → K) (l : List α) : sortBy key l = insSort key l := by
  have : (insSort key l).Pairwise (fun a b => key a ≤ key b) ∧
      ∀ c, withKey key c (insSort key l) = withKey key c l := by
    induction l with
    | nil => exact ⟨List.Pairwise.nil, fun _ => rfl⟩
    | cons a l ih =>
      refine ⟨insertBy_sorted key a _ ih.1, ?_⟩
      intro c
      unfold insSort
      rw [withKey_insertBy]
      have := ih.2 c
      unfold withKey at this ⊢
      rw [List.filter_cons, List.filter_cons, this]
  exact eq_sortBy key l _ this.1 this.2

end Verif.StableSort
