/-
The removal passes on the ordered list, on the structured program, and what they do to an
execution.
-/
import Verif.Redundant.Spec
import Mathlib.Data.List.Basic
import Mathlib.Data.List.Nodup

set_option linter.unusedSimpArgs false
set_option linter.unusedVariables false

namespace Verif.Redundant

open Verif.StableSort (sortBy)
open Verif.Flatten (Forest)

variable {S : Type}

/-! ### Passes on lists -/

/-- State after an operation. -/
def next (rev : Bool) (last : Option Int) (o : Op S) : Option Int :=
  if o.updates then some o.time else if o.resets rev then none else last

/-- Is it removed? -/
def drops (last : Option Int) (o : Op S) : Bool := o.updates && (o.isUpd && last == some o.time)

/-- What is kept. -/
def keep (rev : Bool) : Option Int → List (Op S) → List (Op S)
  | _, [] => []
  | last, o :: rest =>
    if drops last o then keep rev last rest else o :: keep rev (next rev last o) rest

theorem drops_next {rev : Bool} {last : Option Int} {o : Op S} (h : drops last o = true) :
    next rev last o = last := by
  unfold drops at h
  simp only [Bool.and_eq_true, beq_iff_eq] at h
  unfold next
  rw [if_pos h.1, h.2.2]

theorem isUpd_updates {o : Op S} (h : o.isUpd = true) : o.updates = true := by
  unfold Op.isUpd at h
  unfold Op.updates
  cases hk : o.kind <;> rw [hk] at h <;> simp_all

theorem scan_cons (rev : Bool) (last : Option Int) (o : Op S) (i : Nat) (rest : List (Op S × Nat)) :
    scan rev last ((o, i) :: rest) =
      if drops last o then i :: scan rev last rest else scan rev (next rev last o) rest := by
  rw [scan]
  unfold drops next
  by_cases h1 : o.updates
  · by_cases h2 : (o.isUpd && last == some o.time) = true
    · simp [h1, h2]
    · simp only [h1, h2, if_true]
      simp
  · by_cases h3 : o.resets rev
    · simp [h1, h3]
    · simp [h1, h3]

theorem scan_subset (rev : Bool) : ∀ (l : List (Op S × Nat)) (last : Option Int),
    ∀ i ∈ scan rev last l, i ∈ l.map Prod.snd
  | [], _, i, h => by simp [scan] at h
  | (o, j) :: l, last, i, h => by
    rw [scan_cons] at h
    split at h
    · rcases List.mem_cons.mp h with rfl | h
      · simp
      · exact List.mem_cons_of_mem _ (scan_subset rev l _ i h)
    · exact List.mem_cons_of_mem _ (scan_subset rev l _ i h)

theorem scan_keep (rev : Bool) : ∀ (l : List (Op S × Nat)) (last : Option Int),
    (l.map Prod.snd).Nodup →
    (l.filter (fun e => decide (e.2 ∉ scan rev last l))).map Prod.fst =
      keep rev last (l.map Prod.fst)
  | [], _, _ => rfl
  | (o, j) :: l, last, hn => by
    simp only [List.map_cons, List.nodup_cons] at hn
    have hj : ∀ last, j ∉ scan rev last l := fun last h => hn.1 (scan_subset rev l last j h)
    rw [scan_cons, List.map_cons, keep]
    by_cases hd : drops last o = true
    · rw [if_pos hd, if_pos hd, ← scan_keep rev l last hn.2]
      rw [List.filter_cons]
      simp only [List.mem_cons, true_or, not_true, decide_false, Bool.false_eq_true, if_false]
      congr 1
      apply List.filter_congr
      intro e he
      have : e.2 ≠ j := by
        intro h
        apply hn.1
        rw [← h]
        exact List.mem_map_of_mem he
      simp [this]
    · simp only [hd, Bool.false_eq_true, if_false]
      rw [List.filter_cons]
      simp only [hj, not_false_eq_true, decide_true, if_true, List.map_cons]
      rw [scan_keep rev l _ hn.2]

theorem zipIdx_snd_nodup (l : List (Op S)) : (l.zipIdx.map Prod.snd).Nodup := by
  rw [List.zipIdx_map_snd]
  exact List.nodup_range'

theorem ordered_eq (ops : List (Op S)) :
    ordered ops = (sortBy (fun e : Op S × Nat => e.1.time) ops.zipIdx).map Prod.fst := by
  rw [StableSort.sortBy_map _ Op.time Prod.fst _ (fun _ _ => rfl), List.zipIdx_map_fst]
  rfl

theorem ordered_removal (rev : Bool) (ops : List (Op S)) :
    ordered (removalPass rev ops) =
      if rev then (keep true none (ordered ops).reverse).reverse
      else keep false none (ordered ops) := by
  set sorted := sortBy (fun e : Op S × Nat => e.1.time) ops.zipIdx with hs
  have hnd : (sorted.map Prod.snd).Nodup := by
    have := (StableSort.sortBy_perm (fun e : Op S × Nat => e.1.time) ops.zipIdx).map Prod.snd
    exact this.nodup_iff.mpr (zipIdx_snd_nodup ops)
  have h1 : ∀ p : Op S × Nat → Bool, ordered ((ops.zipIdx.filter p).map Prod.fst) =
      (sorted.filter p).map Prod.fst := by
    intro p
    unfold ordered
    rw [← StableSort.sortBy_map (fun e : Op S × Nat => e.1.time) Op.time Prod.fst _
      (fun _ _ => rfl), ← StableSort.sortBy_filter]
  unfold removalPass
  simp only [← hs]
  rw [h1, ordered_eq]
  cases rev with
  | false =>
    simp only [Bool.false_eq_true, if_false]
    exact scan_keep false sorted none hnd
  | true =>
    simp only [if_true]
    have := scan_keep true sorted.reverse none (by rw [List.map_reverse]; simpa using hnd)
    rw [List.map_reverse, List.filter_reverse, List.map_reverse] at this
    rw [← hs, ← this, List.reverse_reverse]

theorem keep_append (rev : Bool) : ∀ (a b : List (Op S)) (last : Option Int),
    keep rev last (a ++ b) = keep rev last a ++ keep rev (a.foldl (next rev) last) b
  | [], b, last => rfl
  | o :: a, b, last => by
    rw [List.cons_append, keep, keep, List.foldl_cons]
    by_cases hd : drops last o = true
    · rw [if_pos hd, if_pos hd, keep_append rev a b last, drops_next hd]
    · simp only [hd, Bool.false_eq_true, if_false]
      rw [keep_append rev a b, List.cons_append]

/-- The reverse pass, from the right: what is kept, and the state. -/
def keepR : List (Op S) → List (Op S) × Option Int
  | [] => ([], none)
  | o :: rest =>
    if drops (keepR rest).2 o then keepR rest
    else (o :: (keepR rest).1, next true (keepR rest).2 o)

theorem keepR_eq : ∀ l : List (Op S),
    (keepR l).1 = (keep true none l.reverse).reverse ∧
    (keepR l).2 = l.reverse.foldl (next true) none
  | [] => ⟨rfl, rfl⟩
  | o :: l => by
    obtain ⟨h1, h2⟩ := keepR_eq l
    rw [List.reverse_cons, keep_append, List.foldl_append, keepR, ← h2]
    by_cases hd : drops (keepR l).2 o = true
    · simp [hd, keep, drops_next hd, h1]
    · simp [hd, keep, h1]

/-- The whole. -/
theorem ordered_removeRedundant (ops : List (Op S)) :
    ordered (removeRedundant ops) = (keepR (keep false none (ordered ops))).1 := by
  unfold removeRedundant
  rw [ordered_removal true, if_pos rfl, ordered_removal false, (keepR_eq _).1]
  simp

/-! ### Only updates are removed -/

theorem drops_isUpd {last : Option Int} {o : Op S} (h : drops last o = true) : o.isUpd = true := by
  unfold drops at h
  simp only [Bool.and_eq_true] at h
  exact h.2.1

theorem keep_sublist (rev : Bool) : ∀ (l : List (Op S)) (last : Option Int),
    (keep rev last l).Sublist l
  | [], _ => List.Sublist.refl _
  | o :: l, last => by
    rw [keep]
    split
    · exact (keep_sublist rev l _).cons _
    · exact (keep_sublist rev l _).cons_cons _

theorem keep_others (rev : Bool) : ∀ (l : List (Op S)) (last : Option Int),
    (keep rev last l).filter (fun o => !o.isUpd) = l.filter (fun o => !o.isUpd)
  | [], _ => rfl
  | o :: l, last => by
    rw [keep]
    split
    · rename_i h
      rw [keep_others rev l, List.filter_cons, drops_isUpd h]
      rfl
    · rw [List.filter_cons, List.filter_cons, keep_others rev l]

theorem removal_others (ops : List (Op S)) :
    (ordered (removeRedundant ops)).filter (fun o => !o.isUpd) =
      (ordered ops).filter (fun o => !o.isUpd) := by
  rw [ordered_removeRedundant, (keepR_eq _).1, List.filter_reverse, keep_others,
    ← List.filter_reverse, List.reverse_reverse, keep_others]

theorem removal_sublist (ops : List (Op S)) :
    (ordered (removeRedundant ops)).Sublist (ordered ops) := by
  rw [ordered_removeRedundant, (keepR_eq _).1]
  refine List.Sublist.trans ?_ (keep_sublist false _ none)
  have := (keep_sublist true (keep false none (ordered ops)).reverse none).reverse
  rwa [List.reverse_reverse] at this

/-! ### Passes on the structured program -/

/-- Forward pass. -/
def keepF : Option Int → Forest (Op S) → Forest (Op S) × Option Int
  | last, .nil => (.nil, last)
  | last, .leaf o rest =>
    if drops last o then keepF last rest
    else (.leaf o (keepF (next false last o) rest).1, (keepF (next false last o) rest).2)
  | last, .node b body e rest =>
    (.node b (keepF (next false last b) body).1 e (keepF none rest).1, (keepF none rest).2)

theorem drops_control {last : Option Int} {o : Op S} (h : o.isControl = true) :
    drops last o = false := by
  unfold Op.isControl at h
  unfold drops Op.updates
  cases hk : o.kind <;> rw [hk] at h <;> simp_all

theorem next_ret (rev : Bool) (last : Option Int) {o : Op S} (h : o.kind = .ret) :
    next rev last o = none := by
  simp [next, Op.updates, Op.resets, h]

theorem next_begin {o : Op S} (h : (∃ n d, o.kind = .loop n d) ∨ o.kind = .cond)
    (last : Option Int) : next true last o = none := by
  rcases h with ⟨n, d, h⟩ | h <;> simp [next, Op.updates, Op.resets, h]

theorem isControl_begin {o : Op S} (h : (∃ n d, o.kind = .loop n d) ∨ o.kind = .cond) :
    o.isControl = true := by
  rcases h with ⟨n, d, h⟩ | h <;> simp [Op.isControl, h]

theorem isControl_ret {o : Op S} (h : o.kind = .ret) : o.isControl = true := by
  simp [Op.isControl, h]

theorem keepF_flatten : ∀ (f : Forest (Op S)) (last : Option Int), Bracketed f →
    Bracketed (keepF last f).1 ∧ (keepF last f).1.flatten = keep false last f.flatten ∧
    (keepF last f).2 = f.flatten.foldl (next false) last
  | .nil, last, _ => ⟨trivial, rfl, rfl⟩
  | .leaf o rest, last, hb => by
    by_cases hd : drops last o = true
    · have ih := keepF_flatten rest last hb.2
      simp only [keepF, Forest.flatten, keep, hd, if_true, List.foldl_cons, drops_next hd]
      exact ih
    · have ih := keepF_flatten rest (next false last o) hb.2
      simp only [keepF, Forest.flatten, keep, hd, Bool.false_eq_true, if_false, List.foldl_cons]
      exact ⟨⟨hb.1, ih.1⟩, by rw [ih.2.1], ih.2.2⟩
  | .node b body e rest, last, hb => by
    have ihb := keepF_flatten body (next false last b) hb.2.2.1
    have ihr := keepF_flatten rest none hb.2.2.2
    have h1 : drops last b = false := drops_control (isControl_begin hb.1)
    have h2 : ∀ l, drops l e = false := fun l => drops_control (isControl_ret hb.2.1)
    simp only [keepF, Forest.flatten, keep, h1, Bool.false_eq_true, if_false, List.foldl_cons,
      keep_append, h2, next_ret false _ hb.2.1, List.foldl_append]
    exact ⟨⟨hb.1, hb.2.1, ihb.1, ihr.1⟩, by rw [ihb.2.1, ihr.2.1], ihr.2.2⟩

/-- Reverse pass; `last` is the state of what follows. -/
def keepRF (last : Option Int) : Forest (Op S) → Forest (Op S) × Option Int
  | .nil => (.nil, last)
  | .leaf o rest =>
    if drops (keepRF last rest).2 o then keepRF last rest
    else (.leaf o (keepRF last rest).1, next true (keepRF last rest).2 o)
  | .node b body e rest =>
    (.node b (keepRF none body).1 e (keepRF last rest).1, none)

theorem keepRF_flatten : ∀ (f : Forest (Op S)) (r : List (Op S)), Bracketed f →
    Bracketed (keepRF (keepR r).2 f).1 ∧
    (keepRF (keepR r).2 f).1.flatten ++ (keepR r).1 = (keepR (f.flatten ++ r)).1 ∧
    (keepRF (keepR r).2 f).2 = (keepR (f.flatten ++ r)).2
  | .nil, r, _ => ⟨trivial, rfl, rfl⟩
  | .leaf o rest, r, hb => by
    obtain ⟨ih1, ih2, ih3⟩ := keepRF_flatten rest r hb.2
    simp only [keepRF, Forest.flatten, List.cons_append, keepR]
    by_cases hd : drops (keepRF (keepR r).2 rest).2 o = true
    · rw [if_pos hd, ← ih3, if_pos hd]
      exact ⟨ih1, ih2, ih3⟩
    · rw [if_neg hd, ← ih3, if_neg hd]
      refine ⟨⟨hb.1, ih1⟩, ?_, rfl⟩
      simp only [Forest.flatten, List.cons_append, ih2]
  | .node b body e rest, r, hb => by
    obtain ⟨ih1, ih2, ih3⟩ := keepRF_flatten rest r hb.2.2.2
    have he : ∀ l, drops l e = false := fun l => drops_control (isControl_ret hb.2.1)
    have hbb : ∀ l, drops l b = false := fun l => drops_control (isControl_begin hb.1)
    have hR : keepR (e :: (rest.flatten ++ r)) = (e :: (keepR (rest.flatten ++ r)).1, none) := by
      simp only [keepR, he, Bool.false_eq_true, if_false, next_ret true _ hb.2.1]
    obtain ⟨jh1, jh2, jh3⟩ := keepRF_flatten body (e :: (rest.flatten ++ r)) hb.2.2.1
    rw [hR] at jh1 jh2 jh3
    simp only at jh1 jh2 jh3
    have e1 : (Forest.node b body e rest).flatten ++ r =
        b :: (body.flatten ++ e :: (rest.flatten ++ r)) := by
      simp [Forest.flatten]
    rw [e1]
    simp only [keepRF, keepR, hbb, Bool.false_eq_true, if_false, next_begin hb.1]
    refine ⟨⟨hb.1, hb.2.1, jh1, ih1⟩, ?_, trivial⟩
    simp only [Forest.flatten, List.cons_append, List.append_assoc]
    rw [← jh2, ih2]

/-! ### Unique structure -/

/-- A bracketed program, possibly followed by the end of the bracket it is in. -/
theorem flatten_unique : ∀ (f g : Forest (Op S)) (r s : List (Op S)), Bracketed f → Bracketed g →
    (r = [] ∨ ∃ e r', r = e :: r' ∧ e.kind = .ret) →
    (s = [] ∨ ∃ e s', s = e :: s' ∧ e.kind = .ret) →
    f.flatten ++ r = g.flatten ++ s → f = g ∧ r = s
  | .nil, .nil, r, s, _, _, _, _, h => ⟨rfl, h⟩
  | .nil, .leaf o g, r, s, _, hg, hr, _, h => by
    exfalso
    simp only [Forest.flatten, List.nil_append, List.cons_append] at h
    rcases hr with rfl | ⟨e, r', rfl, he⟩
    · simp at h
    · injection h with h1 _
      subst h1
      simp [Op.isControl, he, Bracketed] at hg
  | .nil, .node b body e g, r, s, _, hg, hr, _, h => by
    exfalso
    simp only [Forest.flatten, List.nil_append, List.cons_append] at h
    rcases hr with rfl | ⟨e', r', rfl, he⟩
    · simp at h
    · injection h with h1 _
      subst h1
      rcases hg.1 with ⟨n, d, hk⟩ | hk <;> rw [he] at hk <;> cases hk
  | .leaf o f, .nil, r, s, hf, _, _, hs, h => by
    exfalso
    simp only [Forest.flatten, List.nil_append, List.cons_append] at h
    rcases hs with rfl | ⟨e, r', rfl, he⟩
    · simp at h
    · injection h with h1 _
      subst h1
      simp [Op.isControl, he, Bracketed] at hf
  | .node b body e f, .nil, r, s, hf, _, _, hs, h => by
    exfalso
    simp only [Forest.flatten, List.nil_append, List.cons_append] at h
    rcases hs with rfl | ⟨e', r', rfl, he⟩
    · simp at h
    · injection h with h1 _
      subst h1
      rcases hf.1 with ⟨n, d, hk⟩ | hk <;> rw [he] at hk <;> cases hk
  | .leaf o f, .leaf o' g, r, s, hf, hg, hr, hs, h => by
    simp only [Forest.flatten, List.cons_append] at h
    injection h with h1 h2
    obtain ⟨e1, e2⟩ := flatten_unique f g r s hf.2 hg.2 hr hs h2
    exact ⟨by rw [h1, e1], e2⟩
  | .leaf o f, .node b body e g, r, s, hf, hg, hr, hs, h => by
    exfalso
    simp only [Forest.flatten, List.cons_append] at h
    injection h with h1 h2
    have := hf.1
    rw [h1, isControl_begin hg.1] at this
    cases this
  | .node b body e f, .leaf o g, r, s, hf, hg, hr, hs, h => by
    exfalso
    simp only [Forest.flatten, List.cons_append] at h
    injection h with h1 h2
    have := hg.1
    rw [← h1, isControl_begin hf.1] at this
    cases this
  | .node b body e f, .node b' body' e' g, r, s, hf, hg, hr, hs, h => by
    simp only [Forest.flatten, List.cons_append, List.append_assoc] at h
    injection h with h1 h2
    obtain ⟨e1, e2⟩ := flatten_unique body body' (e :: (f.flatten ++ r)) (e' :: (g.flatten ++ s))
      hf.2.2.1 hg.2.2.1 (Or.inr ⟨e, _, rfl, hf.2.1⟩) (Or.inr ⟨e', _, rfl, hg.2.1⟩) h2
    injection e2 with e3 e4
    obtain ⟨e5, e6⟩ := flatten_unique f g r s hf.2.2.2 hg.2.2.2 hr hs e4
    exact ⟨by rw [h1, e1, e3, e5], e6⟩

/-! ### Executions -/

/-- The part of an execution at given times. -/
def vis (v : Int → Bool) (t : Trace S) : Trace S := t.filter (fun e => v e.1)

theorem vis_append (v : Int → Bool) (a b : Trace S) : vis v (a ++ b) = vis v a ++ vis v b :=
  List.filter_append ..

theorem after_append (p : Params S) (a b : Trace S) : p.after (a ++ b) = (p.after a).after b :=
  List.foldl_append ..

theorem played_append : ∀ (a b : Trace S) (p : Params S),
    played (a ++ b) p = played a p ++ played b (p.after a)
  | [], b, p => rfl
  | (t, o) :: a, b, p => by
    have ih := played_append a b (p.step o)
    have h : p.after ((t, o) :: a) = (p.step o).after a := rfl
    rw [List.cons_append, h]
    cases hk : o.kind <;> simp [played, hk, ih]

theorem step_control {o : Op S} (h : o.isControl = true) (p : Params S) : p.step o = p := by
  unfold Op.isControl at h
  unfold Params.step
  cases hk : o.kind <;> rw [hk] at h <;> simp_all

theorem after_control {o : Op S} (h : o.isControl = true) (v : Int → Bool) (t : Int)
    (p : Params S) : p.after (vis v [(t, o)]) = p := by
  unfold vis
  rw [List.filter_cons]
  split
  · simp [Params.after, step_control h]
  · rfl

theorem played_control {o : Op S} (h : o.isControl = true) (v : Int → Bool) (t : Int)
    (p : Params S) : played (vis v [(t, o)]) p = [] := by
  unfold vis
  rw [List.filter_cons]
  split
  · unfold Op.isControl at h
    cases hk : o.kind <;> rw [hk] at h <;> simp_all [played]
  · rfl

/-- A relation between the traces of two programs: from states related by `A`, to states related by
`B`, playing the same. -/
def Same (A B : Params S → Params S → Prop) (s t : Trace S) : Prop :=
  ∀ p q, A p q → B (p.after s) (q.after t) ∧ played s p = played t q

theorem Same.append {A B C : Params S → Params S → Prop} {s t s' t' : Trace S}
    (h : Same A B s t) (h' : Same B C s' t') : Same A C (s ++ s') (t ++ t') := by
  intro p q hpq
  obtain ⟨h1, h2⟩ := h p q hpq
  obtain ⟨h3, h4⟩ := h' _ _ h1
  rw [after_append, after_append, played_append, played_append]
  exact ⟨h3, by rw [h2, h4]⟩

theorem Same.mono {A A' B B' : Params S → Params S → Prop} {s t : Trace S}
    (h : Same A B s t) (hA : ∀ p q, A' p q → A p q) (hB : ∀ p q, B p q → B' p q) :
    Same A' B' s t := fun p q hpq => ⟨hB _ _ (h p q (hA p q hpq)).1, (h p q (hA p q hpq)).2⟩

theorem Same.nil (A : Params S → Params S → Prop) : Same A A [] [] := fun p q h => ⟨h, rfl⟩

theorem Same.control {A : Params S → Params S → Prop} {o : Op S} (h : o.isControl = true)
    (v : Int → Bool) (t : Int) : Same A A (vis v [(t, o)]) (vis v [(t, o)]) := by
  intro p q hpq
  rw [after_control h, after_control h, played_control h, played_control h]
  exact ⟨hpq, rfl⟩

theorem Same.bracket {A B : Params S → Params S → Prop} {b e : Op S} (hb : b.isControl = true)
    (he : e.isControl = true) (v : Int → Bool) (tb te : Int) {s t : Trace S}
    (h : Same A B (vis v s) (vis v t)) :
    Same A B (vis v ((tb, b) :: (s ++ [(te, e)]))) (vis v ((tb, b) :: (t ++ [(te, e)]))) := by
  have e0 : ∀ s : Trace S, vis v ((tb, b) :: (s ++ [(te, e)])) =
      vis v [(tb, b)] ++ (vis v s ++ vis v [(te, e)]) := by
    intro s
    rw [← vis_append, ← vis_append]
    rfl
  rw [e0, e0]
  exact (Same.control hb v tb).append (h.append (Same.control he v te))

theorem Same.repeat {A : Params S → Params S → Prop} (v : Int → Bool) (f g : Nat → Trace S)
    (h : ∀ i, Same A A (vis v (f i)) (vis v (g i))) : ∀ (n i : Nat),
    Same A A (vis v (repeatFrom f i n)) (vis v (repeatFrom g i n))
  | 0, _ => Same.nil A
  | n + 1, i => by
    unfold repeatFrom
    rw [vis_append, vis_append]
    exact (h i).append (Same.repeat v f g h n (i + 1))

/-- Forward invariant: the same state, and, if the last update is at a visible time, there is
nothing pending. -/
def Fwd (v : Int → Bool) (shift : Int) (last : Option Int) (p q : Params S) : Prop :=
  p = q ∧ ∀ t, last = some t → v (shift + t) = true → p.pending = p.applied

theorem Fwd.weaken {v : Int → Bool} {shift : Int} {last : Option Int} {p q : Params S}
    (h : Fwd v shift last p q) {shift' : Int} : Fwd v shift' none p q :=
  ⟨h.1, fun t ht => by cases ht⟩

/-- No bad assembly in a program. -/
def Harmless (f : Forest (Op S)) : Prop := AsmHarmless f.flatten

theorem fwd_leaf (v : Int → Bool) (shift : Int) (last : Option Int) (o : Op S)
    (hc : o.isControl = false) (ha : ∀ f, o.kind = .asm f → f = id) :
    Same (Fwd v shift last) (Fwd v shift (next false last o))
      (vis v [(shift + o.time, o)])
      (vis v (if drops last o then [] else [(shift + o.time, o)])) := by
  intro p q hpq
  obtain ⟨rfl, hcl⟩ := hpq
  by_cases hv : v (shift + o.time) = true
  · by_cases hd : drops last o = true
    · rw [if_pos hd, drops_next hd]
      have hu := drops_isUpd hd
      have hl : last = some o.time := by
        unfold drops at hd
        simp only [Bool.and_eq_true, beq_iff_eq] at hd
        exact hd.2.2
      have hk : o.kind = .upd := by
        unfold Op.isUpd at hu
        cases hk : o.kind <;> rw [hk] at hu <;> simp_all
      have hcl' := hcl _ hl hv
      have hst : p.step o = p := by
        simp only [Params.step, hk]
        cases p
        simp only at hcl'
        simp [hcl']
      have e1 : vis v [(shift + o.time, o)] = [(shift + o.time, o)] := by simp [vis, hv]
      rw [e1]
      have e2 : p.after [(shift + o.time, o)] = p := hst
      have e3 : played [(shift + o.time, o)] p = [] := by simp [played, hk]
      rw [e2, e3]
      exact ⟨⟨rfl, hcl⟩, rfl⟩
    · simp only [hd, Bool.false_eq_true, if_false]
      refine ⟨⟨rfl, ?_⟩, trivial⟩
      intro t ht hvt
      have e1 : vis v [(shift + o.time, o)] = [(shift + o.time, o)] := by simp [vis, hv]
      rw [e1]
      have e2 : p.after [(shift + o.time, o)] = p.step o := rfl
      rw [e2]
      unfold next Op.updates Op.resets at ht
      unfold Params.step
      cases hk : o.kind with
      | param f => rw [hk] at ht; simp at ht
      | upd => rfl
      | io i f => rfl
      | loop n d => rw [hk] at ht; simp at ht
      | cond => simp [Op.isControl, hk] at hc
      | ret => rw [hk] at ht; simp at ht
      | asm f =>
        rw [hk] at ht
        simp only [Bool.false_eq_true, if_false] at ht
        rw [ha f hk]
        exact hcl t ht hvt
      | idle =>
        rw [hk] at ht
        simp only [Bool.false_eq_true, if_false] at ht
        exact hcl t ht hvt
  · have e0 : ∀ b : Bool, vis v (if b then [] else [(shift + o.time, o)]) = [] := by
      intro b
      cases b <;> simp [vis, hv]
    have e1 : vis v [(shift + o.time, o)] = [] := by simp [vis, hv]
    rw [e0, e1]
    refine ⟨⟨rfl, ?_⟩, rfl⟩
    intro t ht hvt
    unfold next at ht
    split at ht
    · injection ht with ht
      rw [← ht] at hvt
      exact absurd hvt hv
    · split at ht
      · cases ht
      · exact hcl t ht hvt

theorem next_cond (last : Option Int) {o : Op S} (h : o.kind = .cond) :
    next false last o = last := by
  simp [next, Op.updates, Op.resets, h]

theorem next_loop (rev : Bool) (last : Option Int) {o : Op S} {n : Nat} {d : Int}
    (h : o.kind = .loop n d) : next rev last o = none := by
  simp [next, Op.updates, Op.resets, h]

theorem fwd_exec (v : Int → Bool) (env : List Nat → Bool) : ∀ (f : Forest (Op S)) (shift : Int)
    (path : List Nat) (k : Nat) (last : Option Int), Bracketed f → Harmless f →
    Same (Fwd v shift last) (Fwd v shift (keepF last f).2)
      (vis v (exec env f shift path k)) (vis v (exec env (keepF last f).1 shift path k))
  | .nil, shift, path, k, last, _, _ => Same.nil _
  | .leaf o rest, shift, path, k, last, hb, ha => by
    have ha' : Harmless rest := fun x hx => ha x (List.mem_cons_of_mem _ hx)
    have hl := fwd_leaf v shift last o hb.1 (fun f hf => ha o (List.mem_cons_self) f hf)
    have e1 : exec env (.leaf o rest) shift path k =
        [(shift + o.time, o)] ++ exec env rest shift path k := rfl
    rw [e1, vis_append]
    by_cases hd : drops last o = true
    · have ih := fwd_exec v env rest shift path k last hb.2 ha'
      rw [if_pos hd, drops_next hd] at hl
      have e2 : keepF last (.leaf o rest) = keepF last rest := by
        simp only [keepF, hd, if_true]
      rw [e2]
      exact hl.append ih
    · have ih := fwd_exec v env rest shift path k (next false last o) hb.2 ha'
      rw [if_neg hd] at hl
      have e2 : keepF last (.leaf o rest) =
          (.leaf o (keepF (next false last o) rest).1, (keepF (next false last o) rest).2) := by
        simp only [keepF, hd, Bool.false_eq_true, if_false]
      rw [e2]
      have e3 : exec env (.leaf o (keepF (next false last o) rest).1) shift path k =
        [(shift + o.time, o)] ++ exec env (keepF (next false last o) rest).1 shift path k := rfl
      rw [e3, vis_append]
      exact hl.append ih
  | .node b body e rest, shift, path, k, last, hb, ha => by
    have har : Harmless rest := by
      intro x hx
      exact ha x (by simp [Forest.flatten, hx])
    have hab : Harmless body := by
      intro x hx
      exact ha x (by simp [Forest.flatten, hx])
    have ihr := fwd_exec v env rest shift path (k + 1) none hb.2.2.2 har
    have hcb := isControl_begin hb.1
    have hce := isControl_ret hb.2.1
    simp only [keepF, exec]
    rw [vis_append, vis_append]
    refine Same.append (B := Fwd v shift none) ?_ ihr
    rcases hb.1 with ⟨n, d, hk⟩ | hk
    · simp only [hk]
      rw [next_loop false last hk]
      refine Same.mono (A := Fwd v shift none) ?_ (fun p q h => h.weaken) (fun p q h => h)
      apply Same.repeat
      intro i
      have ihb := fwd_exec v env body (shift + i * d) (path ++ [k, i]) 0 none hb.2.2.1 hab
      apply Same.bracket hcb hce
      exact ihb.mono (fun p q h => h.weaken) (fun p q h => h.weaken)
    · simp only [hk]
      rw [next_cond last hk]
      apply Same.bracket hcb hce
      have ihb := fwd_exec v env body shift (path ++ [k]) 0 last hb.2.2.1 hab
      split
      · exact ihb.mono (fun p q h => h) (fun p q h => h.weaken)
      · exact (Same.nil _).mono (fun p q h => h.weaken) (fun p q h => h)

/-- Backward invariant: the same pending parameters, and the applied ones are the same or are going
to be overwritten at a visible time before anything else happens. -/
def Bwd (v : Int → Bool) (shift : Int) (last : Option Int) (p q : Params S) : Prop :=
  p.pending = q.pending ∧ (p.applied = q.applied ∨ ∃ t, last = some t ∧ v (shift + t) = true)

theorem Bwd.none {v : Int → Bool} {shift : Int} {p q : Params S} (h : Bwd v shift none p q)
    {shift' : Int} {last : Option Int} : Bwd v shift' last p q := by
  refine ⟨h.1, ?_⟩
  rcases h.2 with h | ⟨t, ht, _⟩
  · exact Or.inl h
  · cases ht

theorem bwd_leaf (v : Int → Bool) (shift : Int) (last : Option Int) (o : Op S)
    (hc : o.isControl = false) :
    Same (Bwd v shift (next true last o)) (Bwd v shift last)
      (vis v [(shift + o.time, o)])
      (vis v (if drops last o then [] else [(shift + o.time, o)])) := by
  intro p q hpq
  by_cases hv : v (shift + o.time) = true
  · have e1 : vis v [(shift + o.time, o)] = [(shift + o.time, o)] := by simp [vis, hv]
    by_cases hd : drops last o = true
    · rw [if_pos hd, e1]
      have hu := drops_isUpd hd
      have hl : last = some o.time := by
        unfold drops at hd
        simp only [Bool.and_eq_true, beq_iff_eq] at hd
        exact hd.2.2
      have hk : o.kind = .upd := by
        unfold Op.isUpd at hu
        cases hk : o.kind <;> rw [hk] at hu <;> simp_all
      have e2 : p.after [(shift + o.time, o)] = ⟨p.pending, p.pending⟩ := by
        simp [Params.after, Params.step, hk]
      have e3 : played [(shift + o.time, o)] p = [] := by simp [played, hk]
      rw [e2, e3]
      exact ⟨⟨hpq.1, Or.inr ⟨_, hl, hv⟩⟩, rfl⟩
    · simp only [hd, Bool.false_eq_true, if_false, e1]
      have e2 : ∀ p : Params S, p.after [(shift + o.time, o)] = p.step o := fun _ => rfl
      rw [e2, e2]
      obtain ⟨h1, h2⟩ := hpq
      unfold next Op.updates Op.resets at h2
      cases hk : o.kind with
      | param f =>
        rw [hk] at h2
        simp only [Bool.false_eq_true, if_false, Bool.not_true] at h2
        simp only [Params.step, hk, played]
        exact ⟨⟨by simp only [h1], h2⟩, trivial⟩
      | upd =>
        simp only [Params.step, hk, played]
        exact ⟨⟨h1, Or.inl h1⟩, trivial⟩
      | io i f =>
        simp only [Params.step, hk, played, h1]
        exact ⟨⟨rfl, Or.inl rfl⟩, trivial⟩
      | loop n d => simp [Op.isControl, hk] at hc
      | cond => simp [Op.isControl, hk] at hc
      | ret => simp [Op.isControl, hk] at hc
      | asm f =>
        rw [hk] at h2
        simp only [Bool.false_eq_true, if_false] at h2
        simp only [Params.step, hk, played]
        exact ⟨⟨by simp only [h1], h2⟩, trivial⟩
      | idle =>
        rw [hk] at h2
        simp only [Bool.false_eq_true, if_false] at h2
        simp only [Params.step, hk, played]
        exact ⟨⟨h1, h2⟩, trivial⟩
  · have e0 : ∀ b : Bool, vis v (if b then [] else [(shift + o.time, o)]) = [] := by
      intro b
      cases b <;> simp [vis, hv]
    have e1 : vis v [(shift + o.time, o)] = [] := by simp [vis, hv]
    rw [e0, e1]
    refine ⟨?_, rfl⟩
    obtain ⟨h1, h2⟩ := hpq
    refine ⟨h1, ?_⟩
    rcases h2 with h2 | ⟨t, ht, hvt⟩
    · exact Or.inl h2
    · unfold next at ht
      split at ht
      · injection ht with ht
        rw [← ht] at hvt
        exact absurd hvt hv
      · split at ht
        · cases ht
        · exact Or.inr ⟨t, ht, hvt⟩

theorem bwd_exec (v : Int → Bool) (env : List Nat → Bool) : ∀ (f : Forest (Op S)) (shift : Int)
    (path : List Nat) (k : Nat) (last : Option Int), Bracketed f →
    Same (Bwd v shift (keepRF last f).2) (Bwd v shift last)
      (vis v (exec env f shift path k)) (vis v (exec env (keepRF last f).1 shift path k))
  | .nil, shift, path, k, last, _ => Same.nil _
  | .leaf o rest, shift, path, k, last, hb => by
    have hl := bwd_leaf v shift (keepRF last rest).2 o hb.1
    have ih := bwd_exec v env rest shift path k last hb.2
    have e1 : exec env (.leaf o rest) shift path k =
        [(shift + o.time, o)] ++ exec env rest shift path k := rfl
    rw [e1, vis_append]
    by_cases hd : drops (keepRF last rest).2 o = true
    · rw [if_pos hd, drops_next hd] at hl
      have e2 : keepRF last (.leaf o rest) = keepRF last rest := by
        simp only [keepRF, hd, if_true]
      rw [e2]
      exact hl.append ih
    · rw [if_neg hd] at hl
      have e2 : keepRF last (.leaf o rest) =
          (.leaf o (keepRF last rest).1, next true (keepRF last rest).2 o) := by
        simp only [keepRF, hd, Bool.false_eq_true, if_false]
      rw [e2]
      have e3 : exec env (.leaf o (keepRF last rest).1) shift path k =
        [(shift + o.time, o)] ++ exec env (keepRF last rest).1 shift path k := rfl
      rw [e3, vis_append]
      exact hl.append ih
  | .node b body e rest, shift, path, k, last, hb => by
    have ihr := bwd_exec v env rest shift path (k + 1) last hb.2.2.2
    have hcb := isControl_begin hb.1
    have hce := isControl_ret hb.2.1
    simp only [keepRF, exec]
    rw [vis_append, vis_append]
    refine Same.append (B := Bwd v shift none) ?_ (ihr.mono (fun p q h => h.none) (fun p q h => h))
    rcases hb.1 with ⟨n, d, hk⟩ | hk
    · simp only [hk]
      apply Same.repeat
      intro i
      have ihb := bwd_exec v env body (shift + i * d) (path ++ [k, i]) 0 none hb.2.2.1
      apply Same.bracket hcb hce
      exact ihb.mono (fun p q h => h.none) (fun p q h => h.none)
    · simp only [hk]
      apply Same.bracket hcb hce
      have ihb := bwd_exec v env body shift (path ++ [k]) 0 none hb.2.2.1
      split
      · exact ihb.mono (fun p q h => h.none) (fun p q h => h)
      · exact (Same.nil _).mono (fun p q h => h.none) (fun p q h => h)

theorem keep_harmless {ops : List (Op S)} (h : AsmHarmless ops) (rev : Bool) (last : Option Int) :
    AsmHarmless (keep rev last ops) :=
  fun o ho => h o ((keep_sublist rev ops last).subset ho)

/-- Both passes together: a structured program with the same execution at all times. -/
theorem removal_exec (ops : List (Op S)) (f : Forest (Op S)) (hf : ordered ops = f.flatten)
    (hb : Bracketed f) (ha : AsmHarmless ops) :
    ∃ g, ordered (removeRedundant ops) = g.flatten ∧ Bracketed g ∧
      ∀ (v : Int → Bool) (env : List Nat → Bool) (p : Params S),
        p.after (vis v (exec env f 0 [] 0)) = p.after (vis v (exec env g 0 [] 0)) ∧
        played (vis v (exec env f 0 [] 0)) p = played (vis v (exec env g 0 [] 0)) p := by
  have ha' : Harmless f := by
    intro o ho
    rw [← hf] at ho
    exact ha o (StableSort.mem_sortBy.mp ho)
  obtain ⟨b1, fl1, _⟩ := keepF_flatten f none hb
  obtain ⟨b2, fl2, _⟩ := keepRF_flatten (keepF none f).1 [] b1
  refine ⟨(keepRF none (keepF none f).1).1, ?_, b2, ?_⟩
  · rw [ordered_removeRedundant, hf, ← fl1]
    simp only [keepR, List.append_nil] at fl2
    exact fl2.symm
  · intro v env p
    have h1 := fwd_exec v env f 0 [] 0 none hb ha' p p ⟨rfl, fun t ht => by cases ht⟩
    have h2 := bwd_exec v env (keepF none f).1 0 [] 0 none b1 p p ⟨rfl, Or.inl rfl⟩
    obtain ⟨⟨e1, _⟩, e2⟩ := h1
    obtain ⟨⟨e3, e4⟩, e5⟩ := h2
    rw [e1, e2]
    refine ⟨?_, e5⟩
    rcases e4 with e4 | ⟨t, ht, _⟩
    · cases h : p.after (vis v (exec env (keepF none f).1 0 [] 0))
      cases h' : p.after (vis v (exec env (keepRF none (keepF none f).1).1 0 [] 0))
      rw [h, h'] at e3 e4
      simp only at e3 e4
      rw [e3, e4]
    · cases ht

/-! ### Nothing redundant is left -/

/-- The forward pass finds nothing. -/
def FreeF : Option Int → List (Op S) → Prop
  | _, [] => True
  | last, o :: rest => drops last o = false ∧ FreeF (next false last o) rest

/-- The reverse pass finds nothing. -/
def FreeR : List (Op S) → Prop
  | [] => True
  | o :: rest => drops (keepR rest).2 o = false ∧ FreeR rest

theorem keep_free : ∀ (l : List (Op S)) (last : Option Int), FreeF last (keep false last l)
  | [], _ => trivial
  | o :: l, last => by
    rw [keep]
    by_cases hd : drops last o = true
    · rw [if_pos hd]; exact keep_free l last
    · rw [if_neg hd]
      exact ⟨by simpa using hd, keep_free l _⟩

theorem keepR_idem : ∀ l : List (Op S), (keepR (keepR l).1).2 = (keepR l).2 ∧ FreeR (keepR l).1
  | [] => ⟨rfl, trivial⟩
  | o :: l => by
    obtain ⟨h1, h2⟩ := keepR_idem l
    by_cases hd : drops (keepR l).2 o = true
    · have e : keepR (o :: l) = keepR l := by simp [keepR, hd]
      rw [e]
      exact ⟨h1, h2⟩
    · have e : keepR (o :: l) = (o :: (keepR l).1, next true (keepR l).2 o) := by simp [keepR, hd]
      rw [e]
      refine ⟨?_, by rw [h1]; simpa using hd, h2⟩
      simp only [keepR, h1, hd, Bool.false_eq_true, if_false]

theorem drops_iff {last : Option Int} {o : Op S} :
    drops last o = true ↔ o.isUpd = true ∧ last = some o.time := by
  unfold drops
  simp only [Bool.and_eq_true, beq_iff_eq]
  exact ⟨fun h => h.2, fun h => ⟨isUpd_updates h.1, h⟩⟩

theorem keepR_free : ∀ (l : List (Op S)) (s : Option Int), FreeF s l →
    FreeF s (keepR l).1 ∧
    ∀ t, (keepR l).2 = some t → s = some t → ∀ s', s' ≠ some t → FreeF s' (keepR l).1
  | [], s, _ => ⟨trivial, fun t h => by cases h⟩
  | o :: l, s, ⟨hd, hf⟩ => by
    obtain ⟨ih1, ih2⟩ := keepR_free l _ hf
    unfold keepR
    by_cases hr : drops (keepR l).2 o = true
    · rw [if_pos hr]
      obtain ⟨hu, hl⟩ := drops_iff.mp hr
      have hn : next false s o = some o.time := by
        unfold next; rw [if_pos (isUpd_updates hu)]
      have hs : s ≠ some o.time := by
        intro h
        rw [drops_iff.mpr ⟨hu, h⟩] at hd
        cases hd
      rw [hn] at ih2
      refine ⟨ih2 _ hl rfl s hs, ?_⟩
      intro t ht hst
      rw [hl] at ht
      injection ht with ht
      rw [hst, ht] at hs
      exact absurd rfl hs
    · rw [if_neg hr]
      refine ⟨⟨hd, ih1⟩, ?_⟩
      intro t ht hst s' hs'
      simp only at ht
      unfold next at ht
      by_cases hu : o.updates = true
      · rw [if_pos hu] at ht
        injection ht with ht
        have e : ∀ x, next false x o = some o.time := by
          intro x; unfold next; rw [if_pos hu]
        refine ⟨?_, ?_⟩
        · by_contra hc
          have hc' : drops s' o = true := by simpa using hc
          have := (drops_iff.mp hc').2
          rw [ht] at this
          exact hs' this
        · rw [e]; rw [e] at ih1; exact ih1
      · rw [if_neg hu] at ht
        have hnd : drops s' o = false := by
          unfold drops
          simp only [Bool.and_eq_false_iff]
          exact Or.inl (by simpa using hu)
        by_cases hrt : o.resets true = true
        · rw [if_pos hrt] at ht; cases ht
        · rw [if_neg hrt] at ht
          by_cases hrf : o.resets false = true
          · have e : ∀ x, next false x o = none := by
              intro x; unfold next; rw [if_neg hu, if_pos hrf]
            refine ⟨hnd, ?_⟩
            simp only [e] at ih1 ⊢
            exact ih1
          · have e : ∀ x, next false x o = x := by
              intro x; unfold next; rw [if_neg hu, if_neg hrf]
            refine ⟨hnd, ?_⟩
            simp only [e] at ih2 ⊢
            exact ih2 t ht hst s' hs'

theorem final_free (ops : List (Op S)) :
    FreeF none (ordered (removeRedundant ops)) ∧ FreeR (ordered (removeRedundant ops)) := by
  rw [ordered_removeRedundant]
  exact ⟨(keepR_free _ none (keep_free _ none)).1, (keepR_idem _).2⟩

theorem FreeF_append : ∀ (a b : List (Op S)) (s : Option Int), FreeF s (a ++ b) →
    FreeF (a.foldl (next false) s) b
  | [], _, _, h => h
  | _ :: a, b, _, h => FreeF_append a b _ h.2

theorem FreeR_append : ∀ (a b : List (Op S)), FreeR (a ++ b) → FreeR b
  | [], _, h => h
  | _ :: a, b, h => FreeR_append a b h.2

theorem foldl_next_quiet (rev : Bool) : ∀ (m : List (Op S)) (s : Option Int),
    (∀ o ∈ m, o.updates = false ∧ o.resets rev = false) → m.foldl (next rev) s = s
  | [], _, _ => rfl
  | o :: m, s, h => by
    obtain ⟨h1, h2⟩ := h o List.mem_cons_self
    have e : next rev s o = s := by simp [next, h1, h2]
    rw [List.foldl_cons, e]
    exact foldl_next_quiet rev m s (fun x hx => h x (List.mem_cons_of_mem _ hx))

theorem keepR_quiet : ∀ (m b : List (Op S)),
    (∀ o ∈ m, o.updates = false ∧ o.resets true = false) → (keepR (m ++ b)).2 = (keepR b).2
  | [], _, _ => rfl
  | o :: m, b, h => by
    obtain ⟨h1, h2⟩ := h o List.mem_cons_self
    have ih := keepR_quiet m b (fun x hx => h x (List.mem_cons_of_mem _ hx))
    rw [List.cons_append, keepR]
    split
    · exact ih
    · simp [next, h1, h2, ih]

/-! ### Alignment -/

theorem alignLoop_ok (total : Int) : ∀ (l : List (Op S)) (last : Option Int),
    alignLoop total last l = .ok () ↔
      ∀ a u b, l = a ++ u :: b → u.isUpd = true → u.time ≠ total ∧
        (a.foldl (fun s o => if o.isUpd then s else if o.isControl then some o.time else s) last)
          ≠ some u.time
  | [], last => by simp [alignLoop]
  | o :: l, last => by
    rw [alignLoop]
    by_cases hu : o.isUpd = true
    · rw [if_pos hu]
      by_cases ht : total = o.time
      · rw [if_pos ht]
        simp only [reduceCtorEq, false_iff]
        intro h
        exact (h [] o l rfl hu).1 ht.symm
      · rw [if_neg ht]
        by_cases hl : last = some o.time
        · rw [if_pos hl]
          simp only [reduceCtorEq, false_iff]
          intro h
          exact (h [] o l rfl hu).2 hl
        · rw [if_neg hl, alignLoop_ok total l last]
          constructor
          · intro h a u b hab hub
            cases a with
            | nil =>
              injection hab with h1 h2
              subst h1
              exact ⟨fun h => ht h.symm, hl⟩
            | cons x a =>
              injection hab with h1 h2
              subst h1
              rw [List.foldl_cons, if_pos hu]
              exact h a u b h2 hub
          · intro h a u b hab hub
            have := h (o :: a) u b (by rw [hab]; rfl) hub
            rw [List.foldl_cons, if_pos hu] at this
            exact this
    · rw [if_neg hu]
      have key : ∀ last', (if o.isUpd = true then last else if o.isControl = true then
          some o.time else last) = last' →
          (alignLoop total last' l = .ok () ↔ ∀ a u b, o :: l = a ++ u :: b → u.isUpd = true →
            u.time ≠ total ∧ (a.foldl (fun s o => if o.isUpd then s else if o.isControl then
              some o.time else s) last) ≠ some u.time) := by
        intro last' hlast
        rw [alignLoop_ok total l last']
        constructor
        · intro h a u b hab hub
          cases a with
          | nil =>
            injection hab with h1 h2
            subst h1
            exact absurd hub hu
          | cons x a =>
            injection hab with h1 h2
            subst h1
            rw [List.foldl_cons, hlast]
            exact h a u b h2 hub
        · intro h a u b hab hub
          have := h (o :: a) u b (by rw [hab]; rfl) hub
          rw [List.foldl_cons, hlast] at this
          exact this
      split
      · rename_i hc
        exact key _ (by rw [if_neg hu, if_pos hc])
      · rename_i hc
        exact key _ (by rw [if_neg hu, if_neg hc])

theorem isControl_not_upd {o : Op S} (h : o.isControl = true) : o.isUpd = false := by
  unfold Op.isControl at h
  unfold Op.isUpd
  cases hk : o.kind <;> rw [hk] at h <;> simp_all

/-- In a list sorted downwards, the last control operation has the smallest time. -/
theorem foldl_control : ∀ (a : List (Op S)) (s : Option Int) (t : Int),
    (∀ o ∈ a, t ≤ o.time) → a.Pairwise (fun x y => y.time ≤ x.time) →
    (∀ r, s = some r → ∀ o ∈ a, o.time ≤ r) → (∀ r, s = some r → t ≤ r) →
    ((a.foldl (fun s o => if o.isUpd then s else if o.isControl then some o.time else s) s) = some t
      ↔ s = some t ∨ ∃ o ∈ a, o.isControl = true ∧ o.time = t)
  | [], s, t, _, _, _, _ => by simp
  | o :: a, s, t, hge, hp, hs, hst => by
    obtain ⟨hp1, hp2⟩ := List.pairwise_cons.mp hp
    rw [List.foldl_cons]
    by_cases hc : o.isControl = true
    · simp only [isControl_not_upd hc, Bool.false_eq_true, if_false, hc, if_true]
      rw [foldl_control a (some o.time) t (fun x hx => hge x (List.mem_cons_of_mem _ hx)) hp2
        (fun r hr x hx => by injection hr with hr; rw [← hr]; exact hp1 x hx)
        (fun r hr => by injection hr with hr; rw [← hr]; exact hge o List.mem_cons_self)]
      constructor
      · rintro (h | ⟨x, hx, hxc, hxt⟩)
        · injection h with h
          exact Or.inr ⟨o, List.mem_cons_self, hc, h⟩
        · exact Or.inr ⟨x, List.mem_cons_of_mem _ hx, hxc, hxt⟩
      · rintro (h | ⟨x, hx, hxc, hxt⟩)
        · left
          have h1 := hs t h o List.mem_cons_self
          have h2 := hge o List.mem_cons_self
          rw [le_antisymm h1 h2]
        · rcases List.mem_cons.mp hx with rfl | hx
          · left; rw [hxt]
          · right; exact ⟨x, hx, hxc, hxt⟩
    · have e : (if o.isUpd = true then s else if o.isControl = true then some o.time else s) = s := by
        simp [hc]
      rw [e, foldl_control a s t (fun x hx => hge x (List.mem_cons_of_mem _ hx)) hp2
        (fun r hr x hx => hs r hr x (List.mem_cons_of_mem _ hx)) hst]
      constructor
      · rintro (h | ⟨x, hx, hxc, hxt⟩)
        · exact Or.inl h
        · exact Or.inr ⟨x, List.mem_cons_of_mem _ hx, hxc, hxt⟩
      · rintro (h | ⟨x, hx, hxc, hxt⟩)
        · exact Or.inl h
        · rcases List.mem_cons.mp hx with rfl | hx
          · exact absurd hxc hc
          · right; exact ⟨x, hx, hxc, hxt⟩

end Verif.Redundant
