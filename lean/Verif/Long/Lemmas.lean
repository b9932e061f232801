/-
Settings, and the builder.
-/
import Verif.Long.Spec
import Mathlib.Tactic.Linarith
import Mathlib.Tactic.Ring
import Mathlib.Data.List.TakeWhile

set_option linter.unusedSimpArgs false
set_option linter.unusedVariables false

namespace Verif.Long

open Verif.Numeric (isClose)

/-! ### Settings -/

theorem later_none_right (a : Option (Rat × V)) : later a none = a := by cases a <;> rfl

theorem later_assoc (a b c : Option (Rat × V)) : later (later a b) c = later a (later b c) := by
  cases a with
  | none => rfl
  | some a =>
    cases b with
    | none => rfl
    | some b =>
      cases c with
      | none => rw [later_none_right, later_none_right]
      | some c =>
        simp only [later]
        by_cases h1 : a.1 ≤ b.1
        · by_cases h2 : b.1 ≤ c.1
          · simp only [h1, h2, if_true, later, le_trans h1 h2]
          · simp only [h1, h2, if_true, if_false, later]
        · by_cases h2 : b.1 ≤ c.1
          · simp only [h1, h2, if_true, if_false, later]
          · simp only [h1, h2, if_false, later]
            have : ¬ a.1 ≤ c.1 := by
              push_neg at h1 h2 ⊢
              exact lt_trans h2 h1
            simp only [this, if_false]

theorem latest_append (t : Rat) : ∀ (a b : List (Rat × V)),
    latest t (a ++ b) = later (latest t a) (latest t b)
  | [], b => rfl
  | e :: a, b => by
    rw [List.cons_append, latest, latest, latest_append t a b, later_assoc]

theorem latest_mem {t : Rat} : ∀ {l : List (Rat × V)} {e : Rat × V}, latest t l = some e →
    e ∈ l ∧ e.1 ≤ t ∧ ∀ x ∈ l, x.1 ≤ t → x.1 ≤ e.1
  | [], e, h => by simp [latest] at h
  | a :: l, e, h => by
    rw [latest] at h
    by_cases ha : a.1 ≤ t
    · rw [if_pos ha] at h
      cases hl : latest t l with
      | none =>
        rw [hl] at h
        simp only [later, Option.some.injEq] at h
        subst h
        refine ⟨List.mem_cons_self, ha, ?_⟩
        intro x hx hxt
        rcases List.mem_cons.mp hx with rfl | hx
        · exact le_refl _
        · exfalso
          exact (latest_none hl x hx) hxt
      | some b =>
        rw [hl] at h
        obtain ⟨h1, h2, h3⟩ := latest_mem hl
        simp only [later] at h
        by_cases hab : a.1 ≤ b.1
        · rw [if_pos hab] at h
          simp only [Option.some.injEq] at h
          subst h
          refine ⟨List.mem_cons_of_mem _ h1, h2, ?_⟩
          intro x hx hxt
          rcases List.mem_cons.mp hx with rfl | hx
          · exact hab
          · exact h3 x hx hxt
        · rw [if_neg hab] at h
          simp only [Option.some.injEq] at h
          subst h
          refine ⟨List.mem_cons_self, ha, ?_⟩
          intro x hx hxt
          rcases List.mem_cons.mp hx with rfl | hx
          · exact le_refl _
          · push_neg at hab
            exact le_trans (h3 x hx hxt) (le_of_lt hab)
    · rw [if_neg ha] at h
      simp only [later] at h
      obtain ⟨h1, h2, h3⟩ := latest_mem h
      refine ⟨List.mem_cons_of_mem _ h1, h2, ?_⟩
      intro x hx hxt
      rcases List.mem_cons.mp hx with rfl | hx
      · exact absurd hxt ha
      · exact h3 x hx hxt
where
  latest_none {t : Rat} : ∀ {l : List (Rat × V)}, latest t l = none → ∀ x ∈ l, ¬ x.1 ≤ t
  | [], h, x, hx => by simp at hx
  | a :: l, h, x, hx => by
    rw [latest] at h
    by_cases ha : a.1 ≤ t
    · rw [if_pos ha] at h
      cases hl : latest t l with
      | none => rw [hl] at h; simp [later] at h
      | some b =>
        rw [hl] at h
        simp only [later] at h
        split at h <;> cases h
    · rw [if_neg ha] at h
      simp only [later] at h
      rcases List.mem_cons.mp hx with rfl | hx
      · exact ha
      · exact latest_none h x hx

theorem latest_none {t : Rat} {l : List (Rat × V)} : latest t l = none ↔ ∀ x ∈ l, t < x.1 := by
  constructor
  · intro h x hx
    exact not_le.mp (latest_mem.latest_none h x hx)
  · intro h
    cases hl : latest t l with
    | none => rfl
    | some e =>
      obtain ⟨h1, h2, _⟩ := latest_mem hl
      exact absurd h2 (not_le.mpr (h e h1))

/-- In a sorted list where all settings are made, the last one counts. -/
theorem latest_sorted {t : Rat} : ∀ {l : List (Rat × V)}, l.Pairwise (fun a b => a.1 ≤ b.1) →
    (∀ x ∈ l, x.1 ≤ t) → latest t l = l.getLast?
  | [], _, _ => rfl
  | a :: l, hs, ht => by
    rw [List.pairwise_cons] at hs
    rw [latest, if_pos (ht a List.mem_cons_self),
      latest_sorted hs.2 (fun x hx => ht x (List.mem_cons_of_mem _ hx))]
    cases hl : l.getLast? with
    | none =>
      rw [List.getLast?_eq_none_iff] at hl
      subst hl
      rfl
    | some b =>
      have hb : b ∈ l := List.mem_of_getLast? hl
      simp only [later, if_pos (hs.1 b hb)]
      rw [List.getLast?_cons, hl]
      rfl

theorem valueAt_nil (t : Rat) : valueAt [] t = 0 := rfl

theorem valueAt_before {l : List (Rat × V)} {t : Rat} (h : ∀ x ∈ l, t < x.1) : valueAt l t = 0 := by
  unfold valueAt
  rw [latest_none.mpr h]

/-- Settings after `t` do not count. -/
theorem valueAt_append_later {a b : List (Rat × V)} {t : Rat} (h : ∀ x ∈ b, t < x.1) :
    valueAt (a ++ b) t = valueAt a t := by
  unfold valueAt
  rw [latest_append, latest_none.mpr h, later_none_right]

/-- A setting at or after all others. -/
theorem valueAt_concat {a : List (Rat × V)} {e : Rat × V} {t : Rat} (h : e.1 ≤ t)
    (ha : ∀ x ∈ a, x.1 ≤ t → x.1 ≤ e.1) : valueAt (a ++ [e]) t = e.2 := by
  unfold valueAt
  rw [latest_append]
  have e1 : latest t [e] = some e := by simp [latest, h, later]
  rw [e1]
  cases hl : latest t a with
  | none => rfl
  | some x =>
    obtain ⟨h1, h2, _⟩ := latest_mem hl
    simp only [later, if_pos (ha x h1 h2)]

/-- Two lists of settings, one within an interval in which the other one is at rest and which ends
at 0. -/
theorem valueAt_add {a b : List (Rat × V)} {s e : Rat} (hse : s < e)
    (hb : ∀ x ∈ b, s ≤ x.1 ∧ x.1 < e)
    (ha : ∀ x ∈ a, x.1 < s ∨ e ≤ x.1) (ha0 : valueAt a s = 0)
    (hb0 : ∀ t, e ≤ t → valueAt b t = 0) (t : Rat) :
    valueAt (a ++ b) t = valueAt a t + valueAt b t := by
  unfold valueAt at *
  rw [latest_append]
  cases hlb : latest t b with
  | none => simp [later_none_right]
  | some y =>
    obtain ⟨hy1, hy2, hy3⟩ := latest_mem hlb
    have hyb := hb y hy1
    cases hla : latest t a with
    | none => simp [later]
    | some x =>
      obtain ⟨hx1, hx2, hx3⟩ := latest_mem hla
      simp only [later]
      by_cases hxy : x.1 ≤ y.1
      · rw [if_pos hxy]
        -- `x` is before the interval, and still the latest at its start
        have hxs : x.1 < s := by
          rcases ha x hx1 with h | h
          · exact h
          · exact absurd (lt_of_le_of_lt (le_trans h hxy) hyb.2) (lt_irrefl _)
        have : latest s a = some x ∨ ∃ z, latest s a = some z ∧ z.2 = x.2 := by
          left
          -- all settings of `a` until `t` are until `s`
          have e2 : latest s a = latest t a := by
            apply latest_congr
            intro z hz
            constructor
            · intro h
              rcases ha z hz with h' | h'
              · exact le_of_lt (lt_of_lt_of_le (lt_of_lt_of_le h' hyb.1) hy2)
              · exact absurd (lt_of_lt_of_le hse (le_trans h' h)) (lt_irrefl _)
            · intro h
              exact le_trans (hx3 z hz h) (le_of_lt hxs)
          rw [e2, hla]
        have hx0 : x.2 = 0 := by
          rcases this with h | ⟨z, h, hz⟩
          · rw [h] at ha0; exact ha0
          · rw [h] at ha0; rw [← hz]; exact ha0
        simp [hx0]
      · rw [if_neg hxy]
        push_neg at hxy
        have hxe : e ≤ x.1 := by
          rcases ha x hx1 with h | h
          · exact absurd (lt_of_lt_of_le (lt_of_lt_of_le h hyb.1) (le_of_lt hxy)) (lt_irrefl _)
          · exact h
        have := hb0 t (le_trans hxe hx2)
        rw [hlb] at this
        simp only at this ⊢
        rw [this]
        simp
where
  latest_congr {s t : Rat} : ∀ {l : List (Rat × V)}, (∀ z ∈ l, z.1 ≤ s ↔ z.1 ≤ t) →
      latest s l = latest t l
  | [], _ => rfl
  | a :: l, h => by
    rw [latest, latest, latest_congr (fun z hz => h z (List.mem_cons_of_mem _ hz))]
    congr 1
    have := h a List.mem_cons_self
    by_cases ha : a.1 ≤ s
    · rw [if_pos ha, if_pos (this.mp ha)]
    · rw [if_neg ha, if_neg (fun h' => ha (this.mpr h'))]

/-! ### `isClose` -/

theorem isClose_zero (a : Rat) : isClose a 0 = true ↔ a = 0 := by
  unfold isClose
  simp only [sub_zero, abs_zero, decide_eq_true_eq]
  have h := abs_nonneg a
  rw [max_eq_left h]
  constructor
  · intro h'
    have : |a| = 0 := by linarith
    exact abs_eq_zero.mp this
  · rintro rfl; simp

theorem isClose_self (a : Rat) : isClose a a = true := by
  unfold isClose
  have h := abs_nonneg a
  simp [h]

/-! ### The end of the operation -/

theorem foldl_max_le (l : List Rat) : ∀ (a m : Rat), a ≤ m → (∀ x ∈ l, x ≤ m) → l.foldl max a ≤ m := by
  induction l with
  | nil => intro a m h _; exact h
  | cons x l ih =>
    intro a m h hl
    rw [List.foldl_cons]
    exact ih _ _ (max_le h (hl x List.mem_cons_self)) (fun y hy => hl y (List.mem_cons_of_mem _ hy))

theorem le_foldl_max (l : List Rat) : ∀ (a : Rat), a ≤ l.foldl max a ∧ ∀ x ∈ l, x ≤ l.foldl max a := by
  induction l with
  | nil => intro a; simp
  | cons x l ih =>
    intro a
    rw [List.foldl_cons]
    obtain ⟨h1, h2⟩ := ih (max a x)
    refine ⟨le_trans (le_max_left _ _) h1, ?_⟩
    intro y hy
    rcases List.mem_cons.mp hy with rfl | hy
    · exact le_trans (le_max_right _ _) h1
    · exact h2 y hy

theorem maxDefault_ge {l : List Rat} {x : Rat} (h : x ∈ l) : x ≤ maxDefault l := by
  cases l with
  | nil => simp at h
  | cons a l =>
    simp only [maxDefault]
    obtain ⟨h1, h2⟩ := le_foldl_max l a
    rcases List.mem_cons.mp h with rfl | h
    · exact h1
    · exact h2 x h

theorem maxDefault_le {l : List Rat} {m : Rat} (h0 : 0 ≤ m) (h : ∀ x ∈ l, x ≤ m) :
    maxDefault l ≤ m := by
  cases l with
  | nil => exact h0
  | cons a l =>
    exact foldl_max_le l a m (h a List.mem_cons_self) (fun x hx => h x (List.mem_cons_of_mem _ hx))

theorem opEnd_ge_pulse (b : Builder) {p : Info} (h : p ∈ b.pulses) : p.t0 + p.dur ≤ b.opEnd :=
  le_trans (maxDefault_ge (List.mem_map_of_mem (f := fun p : Info => p.t0 + p.dur) h)) (le_max_left _ _)

/-! ### Offsets of the builder -/

/-- What holds of the offsets of a builder: they do not overlap, and are in order. -/
structure Inv (offs : List Off) : Prop where
  order : offs.Pairwise (fun a b => a.stop ≤ b.t0)
  dur : ∀ o ∈ offs, o.t0 ≤ o.stop

theorem inv_nil : Inv [] := ⟨List.Pairwise.nil, by simp⟩

theorem Inv.tail {o : Off} {l : List Off} (h : Inv (o :: l)) : Inv l :=
  ⟨(List.pairwise_cons.mp h.order).2, fun x hx => h.dur x (List.mem_cons_of_mem _ hx)⟩

theorem Inv.le_last {offs : List Off} (h : Inv offs) {o l : Off} (ho : o ∈ offs)
    (hl : offs.getLast? = some l) : o.stop ≤ l.stop := by
  induction offs with
  | nil => simp at ho
  | cons a offs ih =>
    have hp := List.pairwise_cons.mp h.order
    rw [List.getLast?_cons] at hl
    simp only [Option.some.injEq] at hl
    cases hl' : offs.getLast? with
    | none =>
      rw [List.getLast?_eq_none_iff] at hl'
      subst hl'
      simp at hl ho
      rw [ho, hl]
    | some l' =>
      rw [hl'] at hl
      simp only [Option.getD_some] at hl
      subst hl
      rcases List.mem_cons.mp ho with rfl | ho
      · have hm := List.mem_of_getLast? hl'
        exact le_trans (hp.1 _ hm) (h.tail.dur _ hm)
      · exact ih h.tail ho hl'

theorem opEnd_ge_off (b : Builder) (h : Inv b.offs) {o : Off} (ho : o ∈ b.offs) :
    o.stop ≤ b.opEnd := by
  unfold Builder.opEnd
  cases hl : b.offs.getLast? with
  | none =>
    rw [List.getLast?_eq_none_iff] at hl
    rw [hl] at ho
    simp at ho
  | some l => exact le_trans (h.le_last ho hl) (le_max_right _ _)

/-- A new offset that starts after all others is put at the end. -/
theorem insertionIndex_end {offs : List Off} (h : Inv offs) {o : Off}
    (hs : ∀ x ∈ offs, x.stop ≤ o.t0) : insertionIndex offs o = .ok offs.length := by
  unfold insertionIndex
  by_cases he : offs = []
  · subst he; rfl
  · rw [if_neg he]
    have htw : offs.takeWhile (fun x => decide (x.t0 ≤ o.t0)) = offs := by
      rw [List.takeWhile_eq_self_iff]
      intro x hx
      simp only [decide_eq_true_eq]
      exact le_trans (h.dur x hx) (hs x hx)
    have hl0 : offs.length ≠ 0 := by
      intro h0; exact he (List.length_eq_zero_iff.mp h0)
    simp only [htw, hl0, if_false, if_true]
    cases hl : offs.getLast? with
    | none => simp
    | some p =>
      have := hs p (List.mem_of_getLast? hl)
      simp [not_lt.mpr this]

theorem inv_concat {offs : List Off} (h : Inv offs) {o : Off} (hs : ∀ x ∈ offs, x.stop ≤ o.t0)
    (ho : o.t0 ≤ o.stop) : Inv (offs ++ [o]) := by
  refine ⟨?_, ?_⟩
  · rw [List.pairwise_append]
    refine ⟨h.order, List.pairwise_singleton _ _, ?_⟩
    intro x hx y hy
    rw [List.mem_singleton] at hy
    rw [hy]; exact hs x hx
  · intro x hx
    rcases List.mem_append.mp hx with hx | hx
    · exact h.dur x hx
    · rw [List.mem_singleton] at hx; rw [hx]; exact ho

/-- Appending an offset. -/
theorem addOffset_append (b : Builder) (h : Inv b.offs) (v : V) (dur : Option Rat) (rel : Rat)
    (minDur : Rat) (hrel : 0 ≤ rel) (hd : ∀ d, dur = some d → minDur ≤ d) :
    b.addOffset v dur rel true minDur =
      .ok { b with offs := b.offs ++ [⟨v, rel + b.opEnd, dur⟩] } := by
  have hs : ∀ x ∈ b.offs, x.stop ≤ (⟨v, rel + b.opEnd, dur⟩ : Off).t0 := by
    intro x hx
    have := opEnd_ge_off b h hx
    simp only
    linarith
  have hi := insertionIndex_end h hs
  unfold Builder.addOffset
  cases dur with
  | none =>
    simp only [if_true, hi, List.take_length, List.drop_length]
  | some d =>
    have := hd d rfl
    simp only [if_true, not_lt.mpr this, if_false, hi, List.take_length, List.drop_length]

/-- Inserting keeps the offsets apart. -/
theorem inv_insert {offs : List Off} (h : Inv offs) {o : Off} (ho : o.t0 ≤ o.stop) {i : Nat}
    (hi : insertionIndex offs o = .ok i) : Inv (offs.take i ++ o :: offs.drop i) := by
  have key : (∀ x ∈ offs.take i, x.stop ≤ o.t0) ∧ (∀ x ∈ offs.drop i, o.stop ≤ x.t0) := by
    unfold insertionIndex at hi
    by_cases he : offs = []
    · subst he; simp
    · rw [if_neg he] at hi
      -- the index
      have hsplit := List.takeWhile_append_dropWhile (p := fun x : Off => decide (x.t0 ≤ o.t0)) (l := offs)
      set tw := offs.takeWhile (fun x => decide (x.t0 ≤ o.t0)) with htw
      set dw := offs.dropWhile (fun x => decide (x.t0 ≤ o.t0)) with hdw
      simp only at hi
      -- elements before
      have hpre : ∀ p, tw.getLast? = some p → p.stop ≤ o.t0 → ∀ x ∈ tw, x.stop ≤ o.t0 := by
        intro p hp hps x hx
        have hInv : Inv tw := by
          refine ⟨?_, ?_⟩
          · have := h.order
            rw [← hsplit, List.pairwise_append] at this
            exact this.1
          · intro y hy
            exact h.dur y (by rw [← hsplit]; exact List.mem_append_left _ hy)
        exact le_trans (hInv.le_last hx hp) hps
      have hpost : ∀ n rest, dw = n :: rest → o.stop ≤ n.t0 → ∀ x ∈ dw, o.stop ≤ x.t0 := by
        intro n rest hn hns x hx
        rw [hn] at hx
        rcases List.mem_cons.mp hx with rfl | hx
        · exact hns
        · have := h.order
          rw [← hsplit, List.pairwise_append, hn, List.pairwise_cons] at this
          have hn' := h.dur n (by rw [← hsplit, hn]; simp)
          exact le_trans (le_trans hns hn') (this.2.1.1 x hx)
      have hlen : tw.length ≤ offs.length := by
        rw [← hsplit]; simp
      by_cases h0 : tw.length = 0
      · -- before all others
        have htw0 : tw = [] := List.length_eq_zero_iff.mp h0
        rw [htw0, List.nil_append] at hsplit
        simp only [h0, if_true] at hi
        cases hoff : offs with
        | nil => exact absurd hoff he
        | cons n rest =>
          rw [hoff] at hi
          simp only [List.head?_cons, decide_eq_true_eq] at hi
          by_cases hlt : n.t0 < o.stop
          · rw [if_pos hlt] at hi; cases hi
          · rw [if_neg hlt] at hi
            have := Except.ok.inj hi
            subst this
            simp only [List.take_zero, List.not_mem_nil, false_implies, implies_true, List.drop_zero,
              true_and]
            have := hpost n rest (by rw [hsplit, hoff]) (not_lt.mp hlt)
            rw [hsplit, hoff] at this
            exact this
      · simp only [h0, if_false] at hi
        by_cases hend : tw.length = offs.length
        · -- after all others
          have hdw0 : dw = [] := by
            have := congrArg List.length hsplit
            rw [List.length_append] at this
            apply List.length_eq_zero_iff.mp
            omega
          rw [hdw0, List.append_nil] at hsplit
          simp only [hend, if_true] at hi
          cases hl : offs.getLast? with
          | none => exact absurd (List.getLast?_eq_none_iff.mp hl) he
          | some p =>
            rw [hl] at hi
            simp only [decide_eq_true_eq] at hi
            by_cases hlt : o.t0 < p.stop
            · rw [if_pos hlt] at hi; cases hi
            · rw [if_neg hlt] at hi
              have := Except.ok.inj hi
              subst this
              simp only [List.take_length, List.drop_length, List.not_mem_nil, false_implies,
                implies_true, and_true]
              have := hpre p (by rw [hsplit]; exact hl) (not_lt.mp hlt)
              rw [hsplit] at this
              exact this
        · simp only [hend, if_false] at hi
          have hdwne : dw ≠ [] := by
            intro h0
            rw [h0, List.append_nil] at hsplit
            exact hend (by rw [hsplit])
          obtain ⟨n, rest, hn⟩ := List.exists_cons_of_ne_nil hdwne
          have hg1 : offs[tw.length]? = some n := by
            rw [← hsplit, List.getElem?_append_right (le_refl _), hn]
            simp
          obtain ⟨p, hp⟩ : ∃ p, tw.getLast? = some p := by
            cases hl : tw.getLast? with
            | none => rw [List.getLast?_eq_none_iff] at hl; exact absurd (by rw [hl]; rfl) h0
            | some p => exact ⟨p, rfl⟩
          have hg2 : offs[tw.length - 1]? = some p := by
            rw [← hsplit, List.getElem?_append_left (by omega)]
            rw [List.getLast?_eq_getElem?] at hp
            exact hp
          rw [hg1, hg2] at hi
          simp only [Bool.or_eq_true, decide_eq_true_eq] at hi
          by_cases hlt : n.t0 < o.stop ∨ o.t0 < p.stop
          · rw [if_pos hlt] at hi; cases hi
          · rw [if_neg hlt] at hi
            push_neg at hlt
            have := Except.ok.inj hi
            subst this
            have et : offs.take tw.length = tw := by
              conv_lhs => rw [← hsplit]
              simp
            have ed : offs.drop tw.length = dw := by
              conv_lhs => rw [← hsplit]
              simp
            rw [et, ed]
            exact ⟨hpre p hp hlt.2, hpost n rest hn hlt.1⟩
  have hord := h.order
  rw [← List.take_append_drop i offs, List.pairwise_append] at hord
  refine ⟨?_, ?_⟩
  · rw [List.pairwise_append, List.pairwise_cons]
    refine ⟨hord.1, ⟨key.2, hord.2.1⟩, ?_⟩
    intro x hx y hy
    rcases List.mem_cons.mp hy with rfl | hy
    · exact key.1 x hx
    · exact hord.2.2 x hx y hy
  · intro x hx
    rcases List.mem_append.mp hx with hx | hx
    · exact h.dur x (List.mem_of_mem_take hx)
    · rcases List.mem_cons.mp hx with rfl | hx
      · exact ho
      · exact h.dur x (List.mem_of_mem_drop hx)

end Verif.Long
