/-
Lemmas for C70: the operations given to code generation, and their structure.
-/
import Verif.EndToEnd.Spec
import Verif.Flatten.Props
import Verif.Redundant.Props

set_option linter.unusedSimpArgs false
set_option linter.unusedVariables false

namespace Verif.EndToEnd

open Verif.Flatten (Info ns onGrid Forest Elem)
open Verif.StableSort (sortBy)
open Spec

variable {D : Type}

/-! ### Updates aside -/

/-- Is an operation anything but an update of the parameters? -/
def notUpd : Q1.Op → Bool
  | .leaf l => decide (l.strat ≠ .updParam)
  | _ => true

theorem view_isUpd (o : Q1.Op) : (view o).isUpd = !notUpd o := by
  cases o with
  | leaf l =>
    simp only [view, notUpd, Redundant.Op.isUpd]
    by_cases h : l.strat = .updParam
    · simp [h]
    · rw [if_neg h]
      by_cases h1 : l.isParam = true
      · simp [h1, h]
      · by_cases h2 : l.isRT = true <;> simp [h1, h2, h]
  | loop => rfl
  | cond => rfl
  | ret => rfl

theorem scan_upd {S : Type} (rev : Bool) : ∀ (l : List (Redundant.Op S × Nat)) (last : Option Int) (i : Nat),
    i ∈ Redundant.scan rev last l → ∃ o, (o, i) ∈ l ∧ o.isUpd = true
  | [], last, i, h => by simp [Redundant.scan] at h
  | (o, j) :: l, last, i, h => by
    have ih := fun last h => scan_upd rev l last i h
    rw [Redundant.scan] at h
    split at h
    · split at h
      · rename_i hu hc
        rcases List.mem_cons.mp h with rfl | h
        · exact ⟨o, List.mem_cons_self, by simp only [Bool.and_eq_true] at hc; exact hc.1⟩
        · obtain ⟨o', h1, h2⟩ := ih _ h
          exact ⟨o', List.mem_cons_of_mem _ h1, h2⟩
      · obtain ⟨o', h1, h2⟩ := ih _ h
        exact ⟨o', List.mem_cons_of_mem _ h1, h2⟩
    · split at h <;>
      · obtain ⟨o', h1, h2⟩ := ih _ h
        exact ⟨o', List.mem_cons_of_mem _ h1, h2⟩

theorem removed_upd {rev : Bool} {l : List Q1.Op} {o : Q1.Op} {i : Nat} (ho : (o, i) ∈ l.zipIdx)
    (h : i ∈ removed rev l) : notUpd o = false := by
  unfold removed at h
  simp only at h
  obtain ⟨o', h1, h2⟩ := scan_upd rev _ _ _ h
  have h3 : (o', i) ∈ (l.map view).zipIdx := by
    split at h1
    · exact StableSort.mem_sortBy.mp (List.mem_reverse.mp h1)
    · exact StableSort.mem_sortBy.mp h1
  rw [List.mem_zipIdx_iff_getElem?] at ho h3
  simp only [List.getElem?_map] at h3
  rw [ho] at h3
  simp only [Option.map_some, Option.some.injEq] at h3
  rw [← h3, view_isUpd] at h2
  simpa using h2

/-- Nothing but updates are removed. -/
theorem removalPass_others (rev : Bool) (l : List Q1.Op) :
    (removalPass rev l).filter notUpd = l.filter notUpd := by
  unfold removalPass
  rw [List.filter_map, List.filter_filter]
  have : l.zipIdx.filter (fun a => (notUpd ∘ Prod.fst) a && decide (a.2 ∉ removed rev l)) =
      l.zipIdx.filter (notUpd ∘ Prod.fst) := by
    apply List.filter_congr
    intro x hx
    by_cases h : notUpd x.1 = true
    · have : x.2 ∉ removed rev l := by
        intro hr
        rw [removed_upd (o := x.1) (i := x.2) hx hr] at h
        simp at h
      simp [h, this]
    · simp [h]
  rw [this, ← List.filter_map]
  congr 1
  simp

/-- The removal is that of C20. -/
theorem removalPass_view (rev : Bool) (l : List Q1.Op) :
    (removalPass rev l).map view = Redundant.removalPass rev (l.map view) := by
  unfold removalPass Redundant.removalPass
  simp only
  have h : (l.map view).zipIdx = l.zipIdx.map (fun e => (view e.1, e.2)) := by
    rw [List.zipIdx_map]
    rfl
  have hr : removed rev l = Redundant.scan rev none (if rev = true then
      (sortBy (fun e : Redundant.Op Unit × Nat => e.1.time) (l.map view).zipIdx).reverse else
      sortBy (fun e : Redundant.Op Unit × Nat => e.1.time) (l.map view).zipIdx) := rfl
  rw [← hr]
  rw [h, List.filter_map, List.map_map, List.map_map]
  rfl

theorem added_others (o : Q1.Op) : (added o).filter notUpd = [o].filter notUpd := by
  cases o with
  | leaf l =>
    simp only [added]
    split
    · simp [List.filter_cons, notUpd, update]
    · rfl
  | loop => rfl
  | cond => rfl
  | ret => rfl

theorem strategy_time (F : Factory D) (i : Info D) : timeOf (F.strategy i) = ns i.timing := by
  unfold Factory.strategy
  split
  · split <;> rfl
  · rfl
  · rfl

/-- Updates aside, the program is generated from the operations of the sequencer, in order. -/
theorem programOps_others {F : Factory D} {infos : List (Info D)} {ops : List Q1.Op}
    (h : programOps F infos = .ok ops) : ∃ L, Flatten.ordered infos = .ok L ∧
      ops.filter notUpd = (L.map F.strategy).filter notUpd := by
  unfold programOps at h
  split at h
  · rename_i hg
    simp only [Except.ok.injEq] at h
    refine ⟨sortBy (fun i => ns i.timing) infos, by unfold Flatten.ordered; rw [if_pos hg], ?_⟩
    rw [← h, StableSort.sortBy_filter, removalPass_others, removalPass_others,
      StableSort.sortBy_map (key' := timeOf) _ _ _ (fun i _ => strategy_time F i),
      StableSort.sortBy_filter]
    congr 1
    induction infos with
    | nil => rfl
    | cons i l ih =>
      have hl : (l.all fun i => (onGrid i.timing).isOk) = true := by
        simp only [List.all_cons, Bool.and_eq_true] at hg; exact hg.2
      have : ∀ l : List (Info D), (l.flatMap (fun i => added (F.strategy i))).filter notUpd =
          (l.map F.strategy).filter notUpd := by
        intro l
        induction l with
        | nil => rfl
        | cons i l ih =>
          rw [List.flatMap_cons, List.filter_append, ih, added_others, List.map_cons,
            ← List.filter_append]
          rfl
      exact this (i :: l)
  · simp at h

/-! ### Brackets -/

/-- The brackets of a structure are the starts and ends of control flow; conditionals have no control flow in
them. -/
def Typed (F : Factory D) : Forest (Info D) → Prop
  | .nil => True
  | .leaf a f => (∃ l, F.strategy a = .leaf l) ∧ Typed F f
  | .node b g e f => ((∃ t n, F.strategy b = .loop t n) ∨
      ((∃ t c, F.strategy b = .cond t c) ∧ ∀ x ∈ g.elems, x.bracketed = false)) ∧
      (∃ t, F.strategy e = .ret t) ∧ Typed F g ∧ Typed F f

/-- Plain operations in front. -/
def leavesQ : List Q1.Leaf → Q1.Forest → Q1.Forest
  | [], f => f
  | l :: ls, f => .leaf l (leavesQ ls f)

/-- A structure of operations and a program with the same structure, updates aside. -/
inductive Rel (F : Factory D) : Forest (Info D) → Q1.Forest → Prop
  | nil : Rel F .nil .nil
  | leaf {a l f g} : F.strategy a = .leaf l → Rel F f g → Rel F (.leaf a f) (.leaf l g)
  /-- an update that is not made -/
  | drop {a l f g} : F.strategy a = .leaf l → l.strat = .updParam → Rel F f g → Rel F (.leaf a f) g
  /-- an update that was added -/
  | extra {l f g} : l.strat = .updParam → l.debug = none → Rel F f g → Rel F f (.leaf l g)
  | loop {b body e f t n bd te g} : F.strategy b = .loop t n → F.strategy e = .ret te → Rel F body bd →
      Rel F f g → Rel F (.node b body e f) (.loop t n bd te g)
  | cond {b body e f t c ls te g} : F.strategy b = .cond t c → F.strategy e = .ret te →
      Rel F body (leavesQ ls .nil) → Rel F f g → Rel F (.node b body e f) (.cond t c ls te g)

theorem leavesQ_flatten : ∀ (ls : List Q1.Leaf) (g : Q1.Forest),
    (leavesQ ls g).flatten = ls.map Q1.Op.leaf ++ g.flatten
  | [], g => rfl
  | l :: ls, g => by simp [leavesQ, Q1.Forest.flatten, leavesQ_flatten ls g]

theorem leavesQ_append : ∀ (a b : List Q1.Leaf) (g : Q1.Forest),
    leavesQ (a ++ b) g = leavesQ a (leavesQ b g)
  | [], b, g => rfl
  | l :: a, b, g => by simp [leavesQ, leavesQ_append a b g]

theorem Rel.extras {F : Factory D} {f : Forest (Info D)} {g : Q1.Forest} : ∀ (ls : List Q1.Leaf),
    (∀ l ∈ ls, l.strat = .updParam ∧ l.debug = none) → Rel F f g → Rel F f (leavesQ ls g)
  | [], _, h => h
  | l :: ls, hl, h => .extra (hl l List.mem_cons_self).1 (hl l List.mem_cons_self).2
      (Rel.extras ls (fun x hx => hl x (List.mem_cons_of_mem _ hx)) h)

theorem Rel.plain {F : Factory D} {f : Forest (Info D)} {g : Q1.Forest} (h : Rel F f g)
    (hf : ∀ x ∈ f.elems, x.bracketed = false) : ∃ ls, g = leavesQ ls .nil := by
  induction h with
  | nil => exact ⟨[], rfl⟩
  | leaf ha _ ih =>
    obtain ⟨ls, rfl⟩ := ih (fun x hx => hf x (by simp [Forest.elems, hx]))
    exact ⟨_ :: ls, rfl⟩
  | drop ha hu _ ih => exact ih (fun x hx => hf x (by simp [Forest.elems, hx]))
  | extra _ _ _ ih =>
    obtain ⟨ls, rfl⟩ := ih hf
    exact ⟨_ :: ls, rfl⟩
  | loop => 
    have := hf _ (by simp only [Forest.elems]; exact List.mem_cons_self)
    simp [Elem.bracketed] at this
  | cond => 
    have := hf _ (by simp only [Forest.elems]; exact List.mem_cons_self)
    simp [Elem.bracketed] at this

/-- Updates at the front are leaves. -/
theorem upds_leaves {U : List Q1.Op} (h : ∀ o ∈ U, notUpd o = false)
    (hd : ∀ l, Q1.Op.leaf l ∈ U → l.debug = none) :
    ∃ ls : List Q1.Leaf, U = ls.map Q1.Op.leaf ∧ ∀ l ∈ ls, l.strat = .updParam ∧ l.debug = none := by
  induction U with
  | nil => exact ⟨[], rfl, by simp⟩
  | cons o U ih =>
    obtain ⟨ls, rfl, h2⟩ := ih (fun x hx => h x (List.mem_cons_of_mem _ hx))
      (fun l hl => hd l (List.mem_cons_of_mem _ hl))
    have ho := h o List.mem_cons_self
    cases o with
    | leaf l =>
      refine ⟨l :: ls, rfl, ?_⟩
      intro x hx
      rcases List.mem_cons.mp hx with rfl | hx
      · exact ⟨by simpa [notUpd] using ho, hd _ List.mem_cons_self⟩
      · exact h2 x hx
    | loop => simp [notUpd] at ho
    | cond => simp [notUpd] at ho
    | ret => simp [notUpd] at ho

/-- The rest of a list after its first element that is no update. -/
theorem split_upds {G : List Q1.Op} (hd : ∀ l, Q1.Op.leaf l ∈ G → l.debug = none) {o : Q1.Op}
    {R : List Q1.Op} (h : G.filter notUpd = o :: R) :
    ∃ (ls : List Q1.Leaf) (G' : List Q1.Op), G = ls.map Q1.Op.leaf ++ o :: G' ∧
      (∀ l ∈ ls, l.strat = .updParam ∧ l.debug = none) ∧ G'.filter notUpd = R := by
  rw [List.filter_eq_cons_iff] at h
  obtain ⟨U, G', rfl, h1, h2, h3⟩ := h
  obtain ⟨ls, rfl, h4⟩ := upds_leaves (U := U) (fun o ho => by simpa using h1 o ho)
    (fun l hl => hd l (List.mem_append_left _ hl))
  exact ⟨ls, G', rfl, h4, h3⟩

/-- Nothing follows, or the end of a body. -/
def AtEnd (X : List Q1.Op) : Prop := X = [] ∨ ∃ t X', X = .ret t :: X'

/-- The structure of the program is that of the operations. -/
theorem parse_rel (F : Factory D) : ∀ (f : Forest (Info D)) (X G : List Q1.Op), Typed F f → AtEnd X →
    (∀ l, Q1.Op.leaf l ∈ G → l.debug = none) →
    G.filter notUpd = (f.flatten.map F.strategy ++ X).filter notUpd →
    ∃ g Y, G = g.flatten ++ Y ∧ Rel F f g ∧ Y.filter notUpd = X.filter notUpd ∧ AtEnd Y := by
  intro f
  induction f with
  | nil =>
    intro X G _ hX hd h
    simp only [Forest.flatten, List.map_nil, List.nil_append] at h
    rcases hX with rfl | ⟨t, X', rfl⟩
    · simp only [List.filter_nil, List.filter_eq_nil_iff, Bool.not_eq_true] at h
      obtain ⟨ls, rfl, h1⟩ := upds_leaves h hd
      exact ⟨leavesQ ls .nil, [], by simp [leavesQ_flatten, Q1.Forest.flatten],
        Rel.extras ls h1 .nil, rfl, .inl rfl⟩
    · rw [List.filter_cons_of_pos (by rfl)] at h
      obtain ⟨ls, G', rfl, h1, h2⟩ := split_upds hd h
      exact ⟨leavesQ ls .nil, .ret t :: G', by simp [leavesQ_flatten, Q1.Forest.flatten],
        Rel.extras ls h1 .nil, by rw [List.filter_cons_of_pos (by rfl), List.filter_cons_of_pos (by rfl), h2],
        .inr ⟨t, G', rfl⟩⟩
  | leaf a f ih =>
    intro X G ht hX hd h
    obtain ⟨⟨l, hl⟩, ht⟩ := ht
    simp only [Forest.flatten, List.map_cons, List.cons_append, hl] at h
    by_cases hu : l.strat = .updParam
    · rw [List.filter_cons_of_neg (by simp [notUpd, hu])] at h
      obtain ⟨g, Y, h1, h2, h3, h4⟩ := ih X G ht hX hd h
      exact ⟨g, Y, h1, .drop hl hu h2, h3, h4⟩
    · rw [List.filter_cons_of_pos (by simp [notUpd, hu])] at h
      obtain ⟨ls, G', rfl, h1, h2⟩ := split_upds hd h
      obtain ⟨g, Y, rfl, h4, h5, h6⟩ := ih X G' ht hX
        (fun l hl => hd l (List.mem_append_right _ (List.mem_cons_of_mem _ hl))) h2
      exact ⟨leavesQ ls (.leaf l g), Y, by simp [leavesQ_flatten, Q1.Forest.flatten],
        Rel.extras ls h1 (.leaf hl h4), h5, h6⟩
  | node b body e f ihb ihf =>
    intro X G ht hX hd h
    obtain ⟨hb, ⟨te, he⟩, htb, htf⟩ := ht
    simp only [Forest.flatten, List.map_cons, List.cons_append, List.map_append, List.append_assoc, he] at h
    -- the first bracket is no update
    obtain ⟨ls, G', rfl, h1, h2⟩ : ∃ (ls : List Q1.Leaf) (G' : List Q1.Op),
        G = ls.map Q1.Op.leaf ++ F.strategy b :: G' ∧
        (∀ l ∈ ls, l.strat = .updParam ∧ l.debug = none) ∧ G'.filter notUpd =
          (body.flatten.map F.strategy ++ (.ret te :: (f.flatten.map F.strategy ++ X))).filter notUpd := by
      rw [List.filter_cons_of_pos (by
        rcases hb with ⟨t, n, hb⟩ | ⟨⟨t, c, hb⟩, _⟩ <;> rw [hb] <;> rfl)] at h
      exact split_upds hd h
    have hd' : ∀ l, Q1.Op.leaf l ∈ G' → l.debug = none :=
      fun l hl => hd l (List.mem_append_right _ (List.mem_cons_of_mem _ hl))
    obtain ⟨gb, Y, rfl, h4, h5, h6⟩ := ihb _ G' htb (.inr ⟨te, _, rfl⟩) hd' h2
    rw [List.filter_cons_of_pos (by rfl)] at h5
    obtain ⟨Y', rfl, h7⟩ : ∃ Y', Y = .ret te :: Y' ∧
        Y'.filter notUpd = (f.flatten.map F.strategy ++ X).filter notUpd := by
      rcases h6 with rfl | ⟨t, Y', rfl⟩
      · simp at h5
      · rw [List.filter_cons_of_pos (by rfl)] at h5
        simp only [List.cons.injEq, Q1.Op.ret.injEq] at h5
        exact ⟨Y', by rw [h5.1], h5.2⟩
    obtain ⟨gf, Z, rfl, h9, h10, h11⟩ := ihf X Y' htf hX
      (fun l hl => hd' l (List.mem_append_right _ (List.mem_cons_of_mem _ hl))) h7
    rcases hb with ⟨t, n, hb⟩ | ⟨⟨t, c, hb⟩, hp⟩
    · exact ⟨leavesQ ls (.loop t n gb te gf), Z, by simp [leavesQ_flatten, Q1.Forest.flatten, hb],
        Rel.extras ls h1 (.loop hb he h4 h9), h10, h11⟩
    · obtain ⟨lb, rfl⟩ := h4.plain hp
      exact ⟨leavesQ ls (.cond t c lb te gf), Z, by simp [leavesQ_flatten, Q1.Forest.flatten, hb],
        Rel.extras ls h1 (.cond hb he h4 h9), h10, h11⟩

/-- A program is determined by the list of its operations. -/
theorem flatten_inj : ∀ (g g' : Q1.Forest) (Y Y' : List Q1.Op), AtEnd Y → AtEnd Y' →
    g.flatten ++ Y = g'.flatten ++ Y' → g = g' ∧ Y = Y' := by
  have leaves : ∀ (ls ls' : List Q1.Leaf) (t t' : Int) (Y Y' : List Q1.Op),
      ls.map Q1.Op.leaf ++ .ret t :: Y = ls'.map Q1.Op.leaf ++ .ret t' :: Y' → ls = ls' ∧ t = t' ∧ Y = Y' := by
    intro ls
    induction ls with
    | nil =>
      intro ls' t t' Y Y' h
      cases ls' with
      | nil => simpa using h
      | cons l ls' => simp at h
    | cons l ls ih =>
      intro ls' t t' Y Y' h
      cases ls' with
      | nil => simp at h
      | cons l' ls' =>
        simp only [List.map_cons, List.cons_append, List.cons.injEq, Q1.Op.leaf.injEq] at h
        obtain ⟨h1, h2, h3⟩ := ih _ _ _ _ _ h.2
        exact ⟨by rw [h.1, h1], h2, h3⟩
  have nilcase : ∀ (g' : Q1.Forest) (Y Y' : List Q1.Op), AtEnd Y → AtEnd Y' →
      Y = g'.flatten ++ Y' → g' = .nil ∧ Y = Y' := by
    intro g' Y Y' hY hY' h
    cases g' with
    | nil => exact ⟨rfl, by simpa [Q1.Forest.flatten] using h⟩
    | leaf l f => rcases hY with rfl | ⟨t, X, rfl⟩ <;> simp [Q1.Forest.flatten] at h
    | loop t n b e f => rcases hY with rfl | ⟨t, X, rfl⟩ <;> simp [Q1.Forest.flatten] at h
    | cond t n b e f => rcases hY with rfl | ⟨t, X, rfl⟩ <;> simp [Q1.Forest.flatten] at h
  intro g
  induction g with
  | nil =>
    intro g' Y Y' hY hY' h
    obtain ⟨h1, h2⟩ := nilcase g' Y Y' hY hY' (by simpa [Q1.Forest.flatten] using h)
    exact ⟨h1.symm, h2⟩
  | leaf l f ih =>
    intro g' Y Y' hY hY' h
    cases g' with
    | nil => rcases hY' with rfl | ⟨t, X, rfl⟩ <;> simp [Q1.Forest.flatten] at h
    | leaf l' f' =>
      simp only [Q1.Forest.flatten, List.cons_append, List.cons.injEq, Q1.Op.leaf.injEq] at h
      obtain ⟨h1, h2⟩ := ih _ _ _ hY hY' h.2
      exact ⟨by rw [h.1, h1], h2⟩
    | loop => simp [Q1.Forest.flatten] at h
    | cond => simp [Q1.Forest.flatten] at h
  | loop t n b e f ihb ihf =>
    intro g' Y Y' hY hY' h
    cases g' with
    | nil => rcases hY' with rfl | ⟨t, X, rfl⟩ <;> simp [Q1.Forest.flatten] at h
    | leaf => simp [Q1.Forest.flatten] at h
    | cond => simp [Q1.Forest.flatten] at h
    | loop t' n' b' e' f' =>
      simp only [Q1.Forest.flatten, List.cons_append, List.append_assoc, List.cons.injEq,
        Q1.Op.loop.injEq] at h
      obtain ⟨h1, h2⟩ := ihb _ _ _ (.inr ⟨e, _, rfl⟩) (.inr ⟨e', _, rfl⟩) h.2
      simp only [List.cons.injEq, Q1.Op.ret.injEq] at h2
      obtain ⟨h3, h4⟩ := ihf _ _ _ hY hY' h2.2
      exact ⟨by rw [h.1.1, h.1.2, h1, h2.1, h3], h4⟩
  | cond t c b e f ihf =>
    intro g' Y Y' hY hY' h
    cases g' with
    | nil => rcases hY' with rfl | ⟨t, X, rfl⟩ <;> simp [Q1.Forest.flatten] at h
    | leaf => simp [Q1.Forest.flatten] at h
    | loop => simp [Q1.Forest.flatten] at h
    | cond t' c' b' e' f' =>
      simp only [Q1.Forest.flatten, List.cons_append, List.append_assoc, List.cons.injEq,
        Q1.Op.cond.injEq] at h
      obtain ⟨h1, h2, h2'⟩ := leaves _ _ _ _ _ _ h.2
      obtain ⟨h3, h4⟩ := ihf _ _ _ hY hY' h2'
      exact ⟨by rw [h.1.1, h.1.2, h1, h2, h3], h4⟩

end Verif.EndToEnd
