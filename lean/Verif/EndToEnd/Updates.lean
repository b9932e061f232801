/-
C70, updates: a parameter instruction in a program takes effect.
-/
import Verif.EndToEnd.Content
import Verif.Redundant.Lemmas

set_option linter.unusedSimpArgs false
set_option linter.unusedVariables false

namespace Verif.Redundant

variable {S : Type}

/-- Does it set parameters that an update is to apply? -/
def Op.isParam (o : Op S) : Prop := ∃ f, o.kind = .param f

/-- Every parameter instruction is directly followed by an update at the same time. -/
def Adj : List (Op S) → Prop
  | [] => True
  | [x] => ¬ x.isParam
  | x :: y :: r => (x.isParam → y.isUpd = true ∧ y.time = x.time) ∧ Adj (y :: r)

/-- Every parameter instruction is followed by an update or play at the same time, with no control flow before
it. -/
def Applied : List (Op S) → Prop
  | [] => True
  | x :: r => (x.isParam → ∃ b y c, r = b ++ y :: c ∧ y.updates = true ∧ y.time = x.time ∧
      ∀ o ∈ b, o.isControl = false) ∧ Applied r

theorem Adj.cons {x : Op S} {l : List (Op S)} (hx : ¬ x.isParam) (h : Adj l) : Adj (x :: l) := by
  cases l with
  | nil => exact hx
  | cons y r => exact ⟨fun hp => absurd hp hx, h⟩

theorem Adj.tail {x : Op S} {l : List (Op S)} (h : Adj (x :: l)) : Adj l := by
  cases l with
  | nil => trivial
  | cons y r => exact h.2

theorem keep_adj : ∀ (l : List (Op S)) (last : Option Int), Adj l → Adj (keep false last l)
  | [], _, _ => trivial
  | x :: l, last, h => by
    rw [keep]
    split
    · exact keep_adj l last h.tail
    · by_cases hp : x.isParam
      · obtain ⟨f, hf⟩ := hp
        cases l with
        | nil => exact absurd ⟨f, hf⟩ h
        | cons y r =>
          obtain ⟨h1, h2⟩ := h
          obtain ⟨hy, ht⟩ := h1 ⟨f, hf⟩
          have hn : next false last x = none := by simp [next, Op.updates, Op.resets, hf]
          rw [hn]
          have ih := keep_adj (y :: r) none h2
          have hd : drops none y = false := by simp [drops]
          rw [keep, if_neg (by simp [hd])] at ih ⊢
          exact ⟨fun _ => ⟨hy, ht⟩, ih⟩
      · exact Adj.cons hp (keep_adj l _ h.tail)

theorem keepR_last : ∀ (l : List (Op S)) (t : Int), (keepR l).2 = some t →
    ∃ b y c, (keepR l).1 = b ++ y :: c ∧ y.updates = true ∧ y.time = t ∧ ∀ o ∈ b, o.isControl = false
  | [], t, h => by simp [keepR] at h
  | o :: l, t, h => by
    rw [keepR] at h ⊢
    split at h
    · rename_i hd
      rw [if_pos hd]
      exact keepR_last l t h
    · rename_i hd
      rw [if_neg hd]
      simp only at h ⊢
      unfold next at h
      split at h
      · rename_i hu
        exact ⟨[], o, (keepR l).1, rfl, hu, by simpa using h, by simp⟩
      · rename_i hu
        split at h
        · simp at h
        · rename_i hr
          obtain ⟨b, y, c, h1, h2, h3, h4⟩ := keepR_last l t h
          refine ⟨o :: b, y, c, by rw [h1]; rfl, h2, h3, ?_⟩
          intro x hx
          rcases List.mem_cons.mp hx with rfl | hx
          · unfold Op.resets at hr
            unfold Op.isControl
            cases hk : x.kind <;> rw [hk] at hr <;> simp_all
          · exact h4 x hx

theorem keepR_applied : ∀ (l : List (Op S)), Adj l → Applied (keepR l).1
  | [], _ => trivial
  | x :: l, h => by
    have ih := keepR_applied l h.tail
    rw [keepR]
    split
    · exact ih
    · refine ⟨?_, ih⟩
      intro hp
      cases l with
      | nil => exact absurd hp h
      | cons y r =>
        obtain ⟨hy, ht⟩ := h.1 hp
        have hl : (keepR (y :: r)).2 = some x.time := by
          rw [keepR]
          split
          · rename_i hd
            unfold drops at hd
            simp only [Bool.and_eq_true, beq_iff_eq] at hd
            rw [hd.2.2, ht]
          · unfold next
            rw [if_pos (isUpd_updates hy), ht]
        exact keepR_last _ _ hl

theorem Applied.of_append : ∀ (a : List (Op S)) {l : List (Op S)}, Applied (a ++ l) → Applied l
  | [], _, h => h
  | _ :: a, _, h => Applied.of_append a h.2

end Verif.Redundant

namespace Verif.EndToEnd

open Verif.Flatten (Info ns onGrid)
open Verif.StableSort (sortBy)

variable {D : Type}

theorem added_time (o x : Q1.Op) (h : x ∈ added o) : timeOf x = timeOf o := by
  cases o with
  | leaf l =>
    simp only [added] at h
    split at h
    · simp only [List.mem_cons, List.not_mem_nil, or_false] at h
      rcases h with rfl | rfl <;> rfl
    · simp only [List.mem_singleton] at h; rw [h]
  | loop => simp only [added, List.mem_singleton] at h; rw [h]
  | cond => simp only [added, List.mem_singleton] at h; rw [h]
  | ret => simp only [added, List.mem_singleton] at h; rw [h]

theorem view_time (o : Q1.Op) : (view o).time = timeOf o := by cases o <;> rfl

theorem not_param_upd {o : Redundant.Op Unit} (h : o.kind = .upd) : ¬ o.isParam := by
  rintro ⟨f, hf⟩; rw [h] at hf; cases hf

theorem adj_strategies (F : Factory D) : ∀ L : List (Info D),
    Redundant.Adj ((L.flatMap (fun i => added (F.strategy i))).map view)
  | [] => trivial
  | i :: L => by
    have ih := adj_strategies F L
    rw [List.flatMap_cons, List.map_append]
    cases hs : F.strategy i with
    | leaf l =>
      rw [added]
      split
      · rename_i hp
        exact ⟨fun _ => ⟨rfl, rfl⟩, Redundant.Adj.cons (not_param_upd rfl) ih⟩
      · rename_i hp
        refine Redundant.Adj.cons ?_ ih
        rintro ⟨f, hf⟩
        have hp' : l.isParam = false := by simpa using hp
        by_cases h1 : l.strat = .updParam
        · simp [view, h1] at hf
        · by_cases h2 : l.isRT = true
          · simp [view, h1, h2, hp'] at hf
          · simp [view, h1, h2, hp'] at hf
    | loop => exact Redundant.Adj.cons (by rintro ⟨f, hf⟩; cases hf) ih
    | cond => exact Redundant.Adj.cons (by rintro ⟨f, hf⟩; cases hf) ih
    | ret => exact Redundant.Adj.cons (by rintro ⟨f, hf⟩; cases hf) ih

theorem programOps_view {F : Factory D} {infos : List (Info D)} {ops : List Q1.Op}
    (h : programOps F infos = .ok ops) : ops.map view =
      (Redundant.keepR (Redundant.keep false none
        (((sortBy (fun i => ns i.timing) infos).flatMap (fun i => added (F.strategy i))).map view))).1 := by
  unfold programOps at h
  split at h
  · simp only [Except.ok.injEq] at h
    rw [← h, StableSort.sortBy_map (key' := Redundant.Op.time) _ _ _ (fun o _ => view_time o),
      removalPass_view, removalPass_view]
    have := Redundant.ordered_removeRedundant ((infos.flatMap (fun i => added (F.strategy i))).map view)
    unfold Redundant.ordered Redundant.removeRedundant at this
    rw [this, ← StableSort.sortBy_map (key' := Redundant.Op.time) _ _ _ (fun o _ => view_time o),
      ← StableSort.sortBy_flatMap (fun i => ns i.timing) timeOf]
    intro i _ x hx
    rw [added_time _ _ hx, strategy_time]
  · simp at h

/-- What comes from the factories or was added for a parameter instruction. -/
theorem mem_programOps {F : Factory D} {infos : List (Info D)} {ops : List Q1.Op}
    (h : programOps F infos = .ok ops) {o : Q1.Op} (ho : o ∈ ops) :
    (∃ i ∈ infos, o = F.strategy i) ∨ ∃ i ∈ infos, ∃ l, F.strategy i = .leaf l ∧ l.isParam = true ∧
      o = .leaf ⟨l.t, false, false, true, .updParam, none⟩ := by
  unfold programOps at h
  split at h
  · simp only [Except.ok.injEq] at h
    rw [← h] at ho
    have ho := StableSort.mem_sortBy.mp ho
    have hmem : ∀ {rev : Bool} {l : List Q1.Op}, o ∈ removalPass rev l → o ∈ l := by
      intro rev l h
      unfold removalPass at h
      obtain ⟨x, hx, rfl⟩ := List.mem_map.mp h
      exact List.mem_of_getElem? (List.mem_zipIdx_iff_getElem?.mp (List.mem_filter.mp hx).1)
    obtain ⟨i, hi, hx⟩ := List.mem_flatMap.mp (hmem (hmem ho))
    cases hs : F.strategy i with
    | leaf l =>
      rw [hs, added] at hx
      split at hx
      · rename_i hp
        simp only [List.mem_cons, List.not_mem_nil, or_false] at hx
        rcases hx with hx | hx
        · exact .inl ⟨i, hi, by rw [hs, hx]⟩
        · exact .inr ⟨i, hi, l, hs, hp, hx⟩
      · simp only [List.mem_singleton] at hx
        exact .inl ⟨i, hi, by rw [hs, hx]⟩
    | loop => rw [hs] at hx; simp only [added, List.mem_singleton] at hx; exact .inl ⟨i, hi, by rw [hs, hx]⟩
    | cond => rw [hs] at hx; simp only [added, List.mem_singleton] at hx; exact .inl ⟨i, hi, by rw [hs, hx]⟩
    | ret => rw [hs] at hx; simp only [added, List.mem_singleton] at hx; exact .inl ⟨i, hi, by rw [hs, hx]⟩
  · simp at h

/-- **C70, for parameters.** Wherever a parameter instruction (a phase, a frequency, an offset) is in a program, it is
followed, before any loop or conditional begins or ends and at the same time, by an operation that applies it:
an update of the parameters, of no duration but its instruction, or a pulse or acquisition. -/
theorem parameter_applied {F : Factory D} (hF : ∀ i, (F.leaf i).strat ≠ .updParam) {infos : List (Info D)}
    {ops : List Q1.Op} (h : programOps F infos = .ok ops) {a r : List Q1.Op} {l : Q1.Leaf}
    (hl : ops = a ++ .leaf l :: r) (hp : l.isParam = true) :
    ∃ (b : List Q1.Leaf) (u : Q1.Leaf) (c : List Q1.Op), r = b.map Q1.Op.leaf ++ .leaf u :: c ∧ u.t = l.t ∧
      (∀ x ∈ b, x.t = l.t) ∧
      (u = ⟨l.t, false, false, true, .updParam, none⟩ ∨ (u.isRT = true ∧ u.isParam = false)) := by
  have hv := programOps_view h
  have happ := Redundant.keepR_applied _ (Redundant.keep_adj _ none
    (adj_strategies F (sortBy (fun i => ns i.timing) infos)))
  rw [← hv, hl, List.map_append, List.map_cons] at happ
  have hstrat : ∀ x : Q1.Leaf, Q1.Op.leaf x ∈ ops → x.strat = .updParam →
      x = ⟨x.t, false, false, true, .updParam, none⟩ := by
    intro x hx hs
    rcases mem_programOps h hx with ⟨i, _, hi⟩ | ⟨i, _, l', _, _, hi⟩
    · exfalso
      unfold Factory.strategy at hi
      split at hi
      · split at hi <;> cases hi
      · cases hi
      · rw [Q1.Op.leaf.injEq] at hi
        rw [hi] at hs
        exact hF i hs
    · rw [Q1.Op.leaf.injEq] at hi
      rw [hi]
  have hlm : Q1.Op.leaf l ∈ ops := by rw [hl]; simp
  have hns : l.strat ≠ .updParam := by
    intro hs
    have := hstrat l hlm hs
    rw [this] at hp; simp at hp
  have hpar : (view (.leaf l)).isParam := ⟨id, by simp [view, hns, hp]⟩
  obtain ⟨b, y, c, h1, h2, h3, h4⟩ := (Redundant.Applied.of_append _ happ).1 hpar
  rw [List.map_eq_append_iff] at h1
  obtain ⟨b', r', rfl, hb', hr'⟩ := h1
  rw [List.map_eq_cons_iff] at hr'
  obtain ⟨y', c', rfl, rfl, rfl⟩ := hr'
  have hleaf : ∀ o ∈ b', ∃ x, o = Q1.Op.leaf x := by
    intro o ho
    have hc := h4 (view o) (by rw [← hb']; exact List.mem_map_of_mem ho)
    cases o with
    | leaf x => exact ⟨x, rfl⟩
    | loop => simp [view, Redundant.Op.isControl] at hc
    | cond => simp [view, Redundant.Op.isControl] at hc
    | ret => simp [view, Redundant.Op.isControl] at hc
  obtain ⟨u, rfl⟩ : ∃ u, y' = Q1.Op.leaf u := by
    cases y' with
    | leaf x => exact ⟨x, rfl⟩
    | loop => simp [view, Redundant.Op.updates] at h2
    | cond => simp [view, Redundant.Op.updates] at h2
    | ret => simp [view, Redundant.Op.updates] at h2
  have hut : u.t = l.t := h3
  have hsorted : ops.Pairwise (fun x y => timeOf x ≤ timeOf y) := by
    unfold programOps at h
    split at h
    · simp only [Except.ok.injEq] at h
      rw [← h]
      exact StableSort.sortBy_sorted _ _
    · simp at h
  rw [hl] at hsorted
  have hs2 := (List.pairwise_append.mp hsorted).2.1
  obtain ⟨hs3, hs4⟩ := List.pairwise_cons.mp hs2
  have hs5 := (List.pairwise_append.mp hs4).2.2
  have hb : ∃ bs : List Q1.Leaf, b' = bs.map Q1.Op.leaf := by
    clear hs3 hs4 hs5 hs2 hsorted happ hl hb' hlm
    induction b' with
    | nil => exact ⟨[], rfl⟩
    | cons o b' ih =>
      obtain ⟨x, hx⟩ := hleaf o (by simp)
      obtain ⟨bs, hbs⟩ := ih (fun o ho => hleaf o (by simp [ho]))
      exact ⟨x :: bs, by rw [hx, hbs]; rfl⟩
  obtain ⟨bs, rfl⟩ := hb
  refine ⟨bs, u, c', rfl, hut, ?_, ?_⟩
  · intro x hx
    have hx' : Q1.Op.leaf x ∈ bs.map Q1.Op.leaf := List.mem_map_of_mem hx
    have e1 : l.t ≤ x.t := hs3 (.leaf x) (List.mem_append_left _ hx')
    have e2 : x.t ≤ u.t := hs5 (.leaf x) hx' (.leaf u) (by simp)
    omega
  · by_cases hus : u.strat = .updParam
    · left
      rw [hstrat u (by rw [hl]; simp) hus, hut]
    · right
      simp only [view, Redundant.Op.updates, hus, if_false] at h2
      by_cases h5 : u.isParam = true
      · rw [if_pos h5] at h2; simp at h2
      · by_cases h6 : u.isRT = true
        · exact ⟨h6, by simpa using h5⟩
        · rw [if_neg h5, if_neg h6] at h2; simp at h2

/-- And every parameter instruction of the schedule is in the program. -/
theorem parameter_kept {F : Factory D} (hF : ∀ i, (F.leaf i).strat ≠ .updParam) {infos : List (Info D)}
    {ops : List Q1.Op} (h : programOps F infos = .ok ops) {i : Info D} (hi : i ∈ infos) {l : Q1.Leaf}
    (hl : F.strategy i = .leaf l) : Q1.Op.leaf l ∈ ops := by
  obtain ⟨L, hL, hf⟩ := programOps_others h
  have hmem : i ∈ L := by
    unfold Flatten.ordered at hL
    split at hL
    · simp only [Except.ok.injEq] at hL
      rw [← hL]
      exact StableSort.mem_sortBy.mpr hi
    · simp at hL
  have hn : notUpd (.leaf l) = true := by
    have : l.strat ≠ .updParam := by
      rw [strategy_leaf hl]
      exact hF i
    simp [notUpd, this]
  have : Q1.Op.leaf l ∈ (L.map F.strategy).filter notUpd :=
    List.mem_filter.mpr ⟨by rw [← hl]; exact List.mem_map_of_mem hmem, hn⟩
  rw [← hf] at this
  exact (List.mem_filter.mp this).1

end Verif.EndToEnd
