/-
What the user of a builder asked for.
-/
import Verif.Long.FactoryLemmas
import Mathlib.Data.List.Perm.Basic

set_option linter.unusedSimpArgs false
set_option linter.unusedVariables false

namespace Verif.Long

open Verif.Numeric (isClose)

/-- The builder holds what was asked for. -/
structure Rel (b : Builder) (a : Asked) : Prop where
  inv : Inv b.offs
  pulses : b.pulses = a.pulses
  opEnd : b.opEnd = a.stop
  no : NoOffsets b.pulses
  perm : b.offs.Perm a.offs
  covers : ∀ t, b.offs.find? (Off.covers t) = a.offs.find? (Off.covers t)
  nones : ∀ t, valueAt ((b.offs.filter (fun o => o.dur.isNone)).map (fun o => (o.t0, o.v))) t =
    valueAt ((a.offs.filter (fun o => o.dur.isNone)).map (fun o => (o.t0, o.v))) t
  latestNones : ∀ t, latest t ((b.offs.filter (fun o => o.dur.isNone)).map (fun o => (o.t0, o.v))) =
    latest t ((a.offs.filter (fun o => o.dur.isNone)).map (fun o => (o.t0, o.v)))
  nonneg : (∀ p ∈ b.pulses, 0 ≤ p.t0 + p.dur) ∧ (∀ o ∈ b.offs, 0 ≤ o.t0) ∧ 0 ≤ a.stop

theorem Rel.mem {b : Builder} {a : Asked} (h : Rel b a) {o : Off} : o ∈ b.offs ↔ o ∈ a.offs :=
  h.perm.mem_iff

theorem rel_empty : Rel Builder.empty ⟨[], [], 0⟩ :=
  ⟨inv_nil, rfl, opEnd_empty, by simp [NoOffsets, Builder.empty], List.Perm.refl _, fun _ => rfl,
    fun _ => rfl, fun _ => rfl, by simp [Builder.empty]⟩

theorem Rel.held_eq {b : Builder} {a : Asked} (h : Rel b a) (t : Rat) :
    held b.offs b.opEnd t = a.offsetAt t := by
  unfold held Asked.offsetAt
  rw [h.opEnd, h.covers, ← h.nones]
  split
  · rfl
  · split
    · rfl
    · -- in order of time, the last one that has started is the latest one
      have hs : ((b.offs.filter (fun o => o.dur.isNone)).map (fun o => (o.t0, o.v))).Pairwise
          (fun x y : Rat × V => x.1 ≤ y.1) := by
        rw [List.pairwise_map]
        have h1 : b.offs.Pairwise (fun x y => x.t0 ≤ y.t0) := by
          refine h.inv.order.imp_of_mem ?_
          intro x y hx hy hxy
          exact le_trans (h.inv.dur x hx) hxy
        exact h1.filter _
      rw [valueAt_filter hs]
      have e : ((b.offs.filter (fun o => o.dur.isNone)).map (fun o => (o.t0, o.v))).filter
          (fun e => decide (e.1 ≤ t)) =
          (b.offs.filter (fun o => decide (o.dur = none ∧ o.t0 ≤ t))).map (fun o => (o.t0, o.v)) := by
        rw [List.filter_map, List.filter_filter]
        congr 1
        apply List.filter_congr
        intro o _
        simp only [Function.comp, Option.isNone_iff_eq_none]
        cases o.dur <;> simp
      rw [e, List.getLast?_map]
      cases (b.offs.filter (fun o => decide (o.dur = none ∧ o.t0 ≤ t))).getLast? <;> rfl
where
  valueAt_filter {l : List (Rat × V)} {t : Rat} (hs : l.Pairwise (fun x y => x.1 ≤ y.1)) :
      valueAt l t = match (l.filter (fun e => decide (e.1 ≤ t))).getLast? with
        | some e => e.2
        | none => 0 := by
    have h1 : latest t l = latest t (l.filter (fun e => decide (e.1 ≤ t))) := by
      clear hs
      induction l with
      | nil => rfl
      | cons a l ih =>
        by_cases ha : a.1 ≤ t
        · rw [List.filter_cons, if_pos (by simpa using ha), latest, latest, ih]
        · rw [List.filter_cons, if_neg (by simpa using ha), latest, if_neg ha, ih]
          rfl
    unfold valueAt
    rw [h1, latest_sorted (hs.filter _) (fun x hx => by
      have := (List.mem_filter.mp hx).2
      simpa using this)]
    rfl

theorem foldl_max_assoc (l : List Rat) : ∀ a b : Rat, l.foldl max (max a b) = max a (l.foldl max b) := by
  induction l with
  | nil => intro a b; rfl
  | cons x l ih => intro a b; rw [List.foldl_cons, List.foldl_cons, max_assoc, ih]

theorem maxDefault_nonneg {l : List Rat} (h : ∀ x ∈ l, 0 ≤ x) : maxDefault l = l.foldl max 0 := by
  cases l with
  | nil => rfl
  | cons a l =>
    rw [maxDefault, List.foldl_cons, max_eq_right (h a List.mem_cons_self)]

/-- The end of the last offset. -/
def lastStop (offs : List Off) : Rat :=
  match offs.getLast? with
  | some o => o.stop
  | none => 0

theorem opEnd_eq (b : Builder) :
    b.opEnd = max (maxDefault (b.pulses.map (fun p => p.t0 + p.dur))) (lastStop b.offs) := rfl

theorem rel_pulse {b : Builder} {a : Asked} (h : Rel b a) (infos : List Info) (append : Bool)
    (hs : ∀ p ∈ infos, 0 ≤ p.t0 ∧ 0 ≤ p.dur ∧ ∀ v, p.what ≠ .offset v) :
    Rel (b.addPulse infos append) (a.step (.pulse infos append)) := by
  set new := infos.map (fun p : Info => { p with t0 := p.t0 + if append then a.stop else 0 }) with hnew
  have hp : (b.addPulse infos append).pulses = b.pulses ++ new := by
    simp only [Builder.addPulse, hnew]
    cases append with
    | true => simp only [if_true, h.opEnd]
    | false => simp
  have ho : (b.addPulse infos append).offs = b.offs := rfl
  have hn : ∀ p ∈ new, 0 ≤ p.t0 + p.dur ∧ ∀ v, p.what ≠ .offset v := by
    intro p hp
    obtain ⟨q, hq, rfl⟩ := List.mem_map.mp hp
    obtain ⟨h1, h2, h3⟩ := hs q hq
    refine ⟨?_, h3⟩
    have := h.nonneg.2.2
    simp only
    split <;> linarith
  have hall : ∀ x ∈ (b.pulses ++ new).map (fun p => p.t0 + p.dur), 0 ≤ x := by
    intro x hx
    obtain ⟨p, hp, rfl⟩ := List.mem_map.mp hx
    rcases List.mem_append.mp hp with hp | hp
    · exact h.nonneg.1 p hp
    · exact (hn p hp).1
  have hE : (b.addPulse infos append).opEnd = (new.map (fun p => p.t0 + p.dur)).foldl max a.stop := by
    rw [← h.opEnd]
    rw [opEnd_eq, opEnd_eq, hp, ho, maxDefault_nonneg hall, maxDefault_nonneg (fun x hx => hall x (by
      rw [List.map_append]; exact List.mem_append_left _ hx)), List.map_append, List.foldl_append]
    generalize lastStop b.offs = L
    rw [max_comm _ L, ← foldl_max_assoc, max_comm L]
  refine ⟨h.inv, ?_, hE, ?_, h.perm, h.covers, h.nones, h.latestNones, ?_, h.nonneg.2.1, ?_⟩
  · rw [hp, h.pulses]; rfl
  · intro p hpm v
    rw [hp] at hpm
    rcases List.mem_append.mp hpm with hpm | hpm
    · exact h.no p hpm v
    · exact (hn p hpm).2 v
  · intro p hpm
    rw [hp] at hpm
    rcases List.mem_append.mp hpm with hpm | hpm
    · exact h.nonneg.1 p hpm
    · exact (hn p hpm).1
  · exact le_trans h.nonneg.2.2 (le_foldl_max _ _).1

theorem later_comm {x y : Option (Rat × V)} (h : ∀ a b, x = some a → y = some b → b.1 < a.1) :
    later x y = later y x := by
  cases x with
  | none => rw [later_none_right]; rfl
  | some a =>
    cases y with
    | none => rfl
    | some b =>
      have := h a b rfl rfl
      simp only [later, if_neg (not_le.mpr this), if_pos (le_of_lt this)]

theorem rel_insert {b : Builder} {a : Asked} (h : Rel b a) (o : Off) (i : Nat)
    (hi : insertionIndex b.offs o = .ok i) (hos : o.t0 ≤ o.stop) (h0 : 0 ≤ o.t0) :
    Rel { b with offs := b.offs.take i ++ o :: b.offs.drop i }
      ⟨a.pulses, a.offs ++ [o], max a.stop o.stop⟩ := by
  have hinv := inv_insert h.inv hos hi
  have hidx : i = (b.offs.takeWhile (fun x => decide (x.t0 ≤ o.t0))).length := by
    unfold insertionIndex at hi
    by_cases he : b.offs = []
    · rw [if_pos he] at hi
      rw [he, ← Except.ok.inj hi]; rfl
    · rw [if_neg he] at hi
      simp only at hi
      generalize (if (List.takeWhile (fun x => decide (x.t0 ≤ o.t0)) b.offs).length = 0 then _ else _ : Bool) = c at hi
      cases c with
      | true => simp at hi
      | false => simp only [Bool.false_eq_true, if_false] at hi; exact (Except.ok.inj hi).symm
  have hsplit := List.takeWhile_append_dropWhile (p := fun x : Off => decide (x.t0 ≤ o.t0)) (l := b.offs)
  have hord := hinv.order
  rw [List.pairwise_append, List.pairwise_cons] at hord
  obtain ⟨_, ⟨hd, _⟩, htk⟩ := hord
  have hperm : (b.offs.take i ++ o :: b.offs.drop i).Perm (b.offs ++ [o]) := by
    have h1 : (b.offs.take i ++ o :: b.offs.drop i).Perm (o :: (b.offs.take i ++ b.offs.drop i)) :=
      List.perm_middle
    rw [List.take_append_drop] at h1
    exact h1.trans (List.perm_append_singleton o b.offs).symm
  have hdropLater : ∀ x ∈ b.offs.drop i, o.t0 < x.t0 := by
    intro x hx
    have e2 : b.offs.drop i = b.offs.dropWhile (fun x => decide (x.t0 ≤ o.t0)) := by
      rw [hidx]
      conv_lhs => rw [← hsplit]
      generalize hg : b.offs.takeWhile (fun x => decide (x.t0 ≤ o.t0)) = tw
      have : List.takeWhile (fun x => decide (x.t0 ≤ o.t0))
        (tw ++ List.dropWhile (fun x => decide (x.t0 ≤ o.t0)) b.offs) = tw := by rw [← hg, hsplit]
      rw [this]; simp
    rw [e2] at hx
    -- the first of these starts later
    cases hdl : b.offs.dropWhile (fun x => decide (x.t0 ≤ o.t0)) with
    | nil => rw [hdl] at hx; simp at hx
    | cons n rest =>
      have hn : ¬ n.t0 ≤ o.t0 := by
        have := List.head_dropWhile_not (fun x : Off => decide (x.t0 ≤ o.t0)) (l := b.offs)
          (by rw [hdl]; simp)
        simp only [hdl, List.head_cons, decide_eq_false_iff_not] at this
        exact this
      rw [hdl] at hx
      rcases List.mem_cons.mp hx with rfl | hx
      · exact not_le.mp hn
      · have hord := h.inv.order
        rw [← hsplit, hdl, List.pairwise_append] at hord
        have h4 := (List.pairwise_cons.mp hord.2.1).1 x hx
        have h5 := h.inv.dur n (by rw [← hsplit, hdl]; simp)
        linarith
  have hl : ∀ t, latest t (((b.offs.take i ++ o :: b.offs.drop i).filter (fun o => o.dur.isNone)).map
        (fun o => (o.t0, o.v))) =
      latest t (((a.offs ++ [o]).filter (fun o => o.dur.isNone)).map (fun o => (o.t0, o.v))) := by
    intro t
    have e : (a.offs ++ [o]).filter (fun o => o.dur.isNone) =
        a.offs.filter (fun o => o.dur.isNone) ++ [o].filter (fun o => o.dur.isNone) := List.filter_append ..
    have e1 : (b.offs.take i ++ o :: b.offs.drop i).filter (fun o => o.dur.isNone) =
        (b.offs.take i).filter (fun o => o.dur.isNone) ++ ([o].filter (fun o => o.dur.isNone) ++
          (b.offs.drop i).filter (fun o => o.dur.isNone)) := by
      rw [← List.filter_append, ← List.filter_append]; rfl
    rw [e, e1]
    simp only [List.map_append, latest_append]
    rw [← h.latestNones t]
    conv_rhs => rw [← List.take_append_drop i b.offs]
    simp only [List.filter_append, List.map_append, latest_append]
    rw [later_assoc]
    congr 1
    symm
    rw [later_comm]
    -- the later ones are later
    intro x y hx hy
    obtain ⟨x', hx1, hx2⟩ := List.mem_map.mp (latest_mem hx).1
    obtain ⟨y', hy1, hy2⟩ := List.mem_map.mp (latest_mem hy).1
    have hx3 := (List.mem_filter.mp hx1).1
    have hy3 := (List.mem_filter.mp hy1).1
    rw [← hx2, ← hy2]
    rw [List.mem_singleton] at hy3
    rw [hy3]
    exact hdropLater x' hx3
  refine ⟨hinv, h.pulses, ?_, h.no, ?_, ?_, ?_, hl, h.nonneg.1, ?_, ?_⟩
  · -- the end
    rw [← h.opEnd, opEnd_eq, opEnd_eq, max_assoc]
    congr 1
    simp only
    cases hdr : b.offs.drop i with
    | nil =>
      have htk' : b.offs.take i = b.offs := by
        have := List.take_append_drop i b.offs
        rw [hdr, List.append_nil] at this
        exact this
      rw [htk']
      unfold lastStop
      rw [List.getLast?_concat]
      symm
      apply max_eq_right
      cases hg : b.offs.getLast? with
      | none => simp only; linarith
      | some l =>
        have := htk l (by rw [htk']; exact List.mem_of_getLast? hg) o (by simp)
        simp only; linarith
    | cons n rest =>
      have e : (b.offs.take i ++ o :: n :: rest).getLast? = b.offs.getLast? := by
        conv_rhs => rw [← List.take_append_drop i b.offs, hdr]
        simp [List.getLast?_append, List.getLast?_cons]
      unfold lastStop
      rw [e]
      symm
      apply max_eq_left
      have hn : n ∈ b.offs := List.mem_of_mem_drop (by rw [hdr]; simp)
      cases hg : b.offs.getLast? with
      | none =>
        rw [List.getLast?_eq_none_iff] at hg
        rw [hg] at hn; simp at hn
      | some l =>
        simp only
        have h1 := h.inv.le_last hn hg
        have h2 := h.inv.dur n hn
        have h3 := hd n (by rw [hdr]; simp)
        linarith
  · exact hperm.trans (h.perm.append_right [o])
  · intro t
    have e1 : b.offs.take i ++ o :: b.offs.drop i = b.offs.take i ++ ([o] ++ b.offs.drop i) := rfl
    simp only
    rw [e1, List.find?_append, List.find?_append, List.find?_append, ← h.covers]
    conv_rhs => rw [← List.take_append_drop i b.offs, List.find?_append]
    cases (b.offs.take i).find? (Off.covers t) with
    | some x => rfl
    | none =>
      simp only [Option.none_or]
      cases ho : [o].find? (Off.covers t) with
      | none => simp
      | some x =>
        cases hdd : (b.offs.drop i).find? (Off.covers t) with
        | none => rfl
        | some y =>
          exfalso
          have hx1 := List.find?_some ho
          have hx2 := List.mem_of_find?_eq_some ho
          rw [List.mem_singleton] at hx2
          rw [hx2] at hx1
          have hy1 := List.find?_some hdd
          have hy2 := hd y (List.mem_of_find?_eq_some hdd)
          unfold Off.covers at hx1 hy1
          cases hdo : o.dur with
          | none => rw [hdo] at hx1; simp at hx1
          | some d1 =>
            cases hdy : y.dur with
            | none => rw [hdy] at hy1; simp at hy1
            | some d2 =>
              rw [hdo] at hx1
              rw [hdy] at hy1
              simp only [decide_eq_true_eq] at hx1 hy1
              rw [Off.stop, hdo] at hy2
              simp only [Option.getD_some] at hy2
              linarith [hx1.2, hy1.1]
  · intro t
    unfold valueAt
    rw [hl t]
  · intro x hx
    rcases List.mem_append.mp (hperm.mem_iff.mp hx) with hx | hx
    · exact h.nonneg.2.1 x hx
    · rw [List.mem_singleton.mp hx]; exact h0
  · exact le_trans h.nonneg.2.2 (le_max_left _ _)

theorem rel_step {b b' : Builder} {a : Asked} (h : Rel b a) {s : Step} (hs : s.sensible)
    (hr : s.run b = .ok b') : Rel b' (a.step s) := by
  cases s with
  | pulse infos append =>
    simp only [Step.run] at hr
    rw [← Except.ok.inj hr]
    exact rel_pulse h infos append hs
  | offset v dur rel append minDur =>
    simp only [Step.run] at hr
    obtain ⟨h1, h2⟩ := hs
    unfold Builder.addOffset at hr
    simp only at hr
    have e : (if append = true then rel + b.opEnd else rel) = rel + if append = true then a.stop else 0 := by
      rw [h.opEnd]; split <;> simp
    rw [e] at hr
    set t0 := rel + if append = true then a.stop else 0 with ht0
    have h0 : 0 ≤ t0 := by
      have := h.nonneg.2.2
      rw [ht0]; split <;> linarith
    cases dur with
    | none =>
      simp only at hr
      cases hi : insertionIndex b.offs ⟨v, t0, none⟩ with
      | error e => rw [hi] at hr; cases hr
      | ok i =>
        rw [hi] at hr
        rw [← Except.ok.inj hr]
        exact rel_insert h ⟨v, t0, none⟩ i hi (by simp [Off.stop]) h0
    | some d =>
      simp only at hr
      split at hr
      · cases hr
      · rename_i hd
        push_neg at hd
        cases hi : insertionIndex b.offs ⟨v, t0, some d⟩ with
        | error e => rw [hi] at hr; cases hr
        | ok i =>
          rw [hi] at hr
          rw [← Except.ok.inj hr]
          exact rel_insert h ⟨v, t0, some d⟩ i hi (by simp [Off.stop]; linarith) h0

theorem runSteps_rel : ∀ {l : List Step} {b b' : Builder} {a : Asked}, Rel b a →
    (∀ s ∈ l, s.sensible) → runSteps b l = .ok b' → Rel b' (l.foldl Asked.step a)
  | [], b, b', a, h, _, hr => by
    simp only [runSteps] at hr
    rw [← Except.ok.inj hr]
    exact h
  | s :: l, b, b', a, h, hl, hr => by
    simp only [runSteps] at hr
    cases hs : s.run b with
    | error e => rw [hs] at hr; cases hr
    | ok b1 =>
      rw [hs] at hr
      have hr' : runSteps b1 l = .ok b' := hr
      exact runSteps_rel (l := l) (rel_step h (hl s List.mem_cons_self) hs)
        (fun x hx => hl x (by simp [hx])) hr'

end Verif.Long
