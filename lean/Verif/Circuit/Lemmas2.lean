/-
The compiler meets its specification.
-/
import Verif.Circuit.Lemmas
import Mathlib.Data.List.Forall2

set_option linter.unusedSimpArgs false
set_option linter.unusedVariables false

namespace Verif.Circuit

open Verif

variable {P U C : Type}

/-! ### Multiplexed gates -/

theorem part_iff (cfg : Cfg P U C) (g : Gate) (ov : Kw) (i : Nat) (el : String) (d : Op P U C) :
    Part cfg g (Dict.get? ov) i el d ↔ ∃ o, elementCfg cfg el g.type = .ok o ∧ deviceReprMux g o i ov = .ok d := by
  constructor
  · rintro ⟨o, f, args, h1, h2, h3, h4⟩
    exact ⟨o, (elementCfg_ok _ _ _ _).mpr h1, (deviceReprMux_ok _ _ _ _ _).mpr ⟨f, args, h2, h3, h4⟩⟩
  · rintro ⟨o, h1, h2⟩
    obtain ⟨f, args, a, b, c⟩ := (deviceReprMux_ok _ _ _ _ _).mp h2
    exact ⟨o, f, args, (elementCfg_ok _ _ _ _).mp h1, a, b, c⟩

theorem partPulses_cons_not {d : Op P U C} {ds : List (Op P U C)} (h : ¬ IsSched d) :
    partPulses (d :: ds) = (infoOf d).1 ++ partPulses ds := by
  simp [partPulses, h, infoOf_eq]

theorem partPulses_cons_sched {d : Op P U C} {ds : List (Op P U C)} (h : IsSched d) :
    partPulses (d :: ds) = partPulses ds := by
  simp [partPulses, h]

theorem partAcqs_cons_not {d : Op P U C} {ds : List (Op P U C)} (h : ¬ IsSched d) :
    partAcqs (d :: ds) = (infoOf d).2 ++ partAcqs ds := by
  simp [partAcqs, h, infoOf_eq]

theorem partAcqs_cons_sched {d : Op P U C} {ds : List (Op P U C)} (h : IsSched d) :
    partAcqs (d :: ds) = partAcqs ds := by
  simp [partAcqs, h]

/-- One step of the loop, by the kind of the part. -/
theorem muxLoop_cons_sched (cfg : Cfg P U C) (rec : Kw → Op P U C → Except Err (Op P U C)) (g : Gate) (ov : Kw)
    (el : String) (els : List String) (mux : Nat) (o : OpCfg P U C) (d : Op P U C)
    (h1 : elementCfg cfg el g.type = .ok o) (h2 : deviceReprMux g o mux ov = .ok d) (hd : IsSched d) :
    muxLoop cfg rec g ov (el :: els) mux = (do
      let s ← rec (merge (ownOverrides d) ov) d
      let r ← muxLoop cfg rec g ov els (mux + 1)
      .ok (r.1, r.2.1, r.2.2.1, s :: r.2.2.2)) := by
  cases d <;> simp only [IsSched] at hd
  simp only [muxLoop, h1, bind, Except.bind, h2]

theorem muxLoop_cons_not (cfg : Cfg P U C) (rec : Kw → Op P U C → Except Err (Op P U C)) (g : Gate) (ov : Kw)
    (el : String) (els : List String) (mux : Nat) (o : OpCfg P U C) (d : Op P U C)
    (h1 : elementCfg cfg el g.type = .ok o) (h2 : deviceReprMux g o mux ov = .ok d) (hd : ¬ IsSched d) :
    muxLoop cfg rec g ov (el :: els) mux = (do
      let r ← muxLoop cfg rec g ov els (mux + 1)
      .ok ((infoOf d).1 ++ r.1, (infoOf d).2 ++ r.2.1, true, r.2.2.2)) := by
  cases d <;> simp only [IsSched, not_true_eq_false] at hd <;> simp only [muxLoop, h1, bind, Except.bind, h2]

/-- What the loop has found. -/
structure Found (cfg : Cfg P U C) (rec : Kw → Op P U C → Except Err (Op P U C)) (g : Gate) (ov : Kw)
    (els : List String) (mux : Nat) (ds : List (Op P U C)) (r : List P × List P × Bool × List (Op P U C)) :
    Prop where
  len : ds.length = els.length
  part : ∀ (i : Nat) (h : i < els.length) (h' : i < ds.length), Part cfg g (Dict.get? ov) (mux + i) els[i] ds[i]
  p : r.1 = partPulses ds
  a : r.2.1 = partAcqs ds
  has : r.2.2.1 = decide (∃ d ∈ ds, ¬ IsSched d)
  subs : List.Forall₂ (fun d s => rec (merge (ownOverrides d) ov) d = .ok s)
    (ds.filter (fun d => IsSched d)) r.2.2.2

theorem muxLoop_found (cfg : Cfg P U C) (rec : Kw → Op P U C → Except Err (Op P U C)) (g : Gate) (ov : Kw)
    (els : List String) : ∀ (mux : Nat) (r : List P × List P × Bool × List (Op P U C)),
    muxLoop cfg rec g ov els mux = .ok r ↔ ∃ ds, Found cfg rec g ov els mux ds r := by
  induction els with
  | nil =>
    intro mux r
    constructor
    · intro h
      have h := Except.ok.inj h
      subst h
      exact ⟨[], rfl, by simp, rfl, rfl, by simp, by simp⟩
    · rintro ⟨ds, hl, -, hp, ha, hh, hs⟩
      have : ds = [] := List.length_eq_zero_iff.mp hl
      subst this
      obtain ⟨p, a, h, s⟩ := r
      simp only [partPulses, partAcqs, List.filter_nil, List.flatMap_nil, List.not_mem_nil, false_and,
        exists_false, decide_false, List.forall₂_nil_left_iff] at hp ha hh hs
      subst hp ha hh hs
      rfl
  | cons el els ih =>
    intro mux r
    constructor
    · intro h
      have h0 := h
      simp only [muxLoop] at h0
      obtain ⟨o, h1, h0⟩ := bind_ok.mp h0
      obtain ⟨d, h2, -⟩ := bind_ok.mp h0
      have hpart : Part cfg g (Dict.get? ov) mux el d := (part_iff _ _ _ _ _ _).mpr ⟨o, h1, h2⟩
      by_cases hd : IsSched d
      · rw [muxLoop_cons_sched cfg rec g ov el els mux o d h1 h2 hd] at h
        obtain ⟨s, hs, h⟩ := bind_ok.mp h
        obtain ⟨r', hr', h⟩ := bind_ok.mp h
        have h := Except.ok.inj h
        subst h
        obtain ⟨ds, f⟩ := (ih (mux + 1) r').mp hr'
        refine ⟨d :: ds, by simp [f.len], ?_, ?_, ?_, ?_, ?_⟩
        · intro i hi hi'
          cases i with
          | zero => exact hpart
          | succ i =>
            have := f.part i (by simpa using hi) (by simpa using hi')
            simpa [Nat.add_assoc, Nat.add_comm 1 i] using this
        · rw [partPulses_cons_sched hd]; exact f.p
        · rw [partAcqs_cons_sched hd]; exact f.a
        · have := f.has; simp only [this]; simp [hd]
        · rw [List.filter_cons_of_pos (by simpa using hd)]
          exact .cons hs f.subs
      · rw [muxLoop_cons_not cfg rec g ov el els mux o d h1 h2 hd] at h
        obtain ⟨r', hr', h⟩ := bind_ok.mp h
        have h := Except.ok.inj h
        subst h
        obtain ⟨ds, f⟩ := (ih (mux + 1) r').mp hr'
        refine ⟨d :: ds, by simp [f.len], ?_, ?_, ?_, ?_, ?_⟩
        · intro i hi hi'
          cases i with
          | zero => exact hpart
          | succ i =>
            have := f.part i (by simpa using hi) (by simpa using hi')
            simpa [Nat.add_assoc, Nat.add_comm 1 i] using this
        · rw [partPulses_cons_not hd, ← f.p]
        · rw [partAcqs_cons_not hd, ← f.a]
        · simp [hd]
        · rw [List.filter_cons_of_neg (by simpa using hd)]
          exact f.subs
    · rintro ⟨ds, f⟩
      cases ds with
      | nil => have := f.len; simp at this
      | cons d ds =>
        have hpart := f.part 0 (by simp) (by simp)
        simp only [Nat.add_zero, List.getElem_cons_zero] at hpart
        obtain ⟨o, h1, h2⟩ := (part_iff _ _ _ _ _ _).mp hpart
        have hrest : ∀ (i : Nat) (h : i < els.length) (h' : i < ds.length),
            Part cfg g (Dict.get? ov) (mux + 1 + i) els[i] ds[i] := by
          intro i hi hi'
          have := f.part (i + 1) (by simpa using hi) (by simpa using hi')
          simpa [Nat.add_assoc, Nat.add_comm 1 i] using this
        obtain ⟨p, a, h, s⟩ := r
        have fp := f.p
        have fa := f.a
        have fh := f.has
        have fs := f.subs
        simp only at fp fa fh fs
        by_cases hd : IsSched d
        · rw [muxLoop_cons_sched cfg rec g ov el els mux o d h1 h2 hd]
          rw [List.filter_cons_of_pos (by simpa using hd)] at fs
          cases fs with
          | @cons _ s' _ ss hs1 hs2 =>
            refine bind_ok.mpr ⟨s', hs1, bind_ok.mpr ⟨(p, a, h, ss), (ih _ _).mpr ⟨ds, ?_⟩, rfl⟩⟩
            refine ⟨by have := f.len; simpa using this, hrest, ?_, ?_, ?_, hs2⟩
            · rw [partPulses_cons_sched hd] at fp; exact fp
            · rw [partAcqs_cons_sched hd] at fa; exact fa
            · simp only [fh]; simp [hd]
        · rw [muxLoop_cons_not cfg rec g ov el els mux o d h1 h2 hd]
          rw [List.filter_cons_of_neg (by simpa using hd)] at fs
          refine bind_ok.mpr ⟨(partPulses ds, partAcqs ds, decide (∃ d ∈ ds, ¬ IsSched d), s),
            (ih _ _).mpr ⟨ds, ?_⟩, ?_⟩
          · exact ⟨by have := f.len; simpa using this, hrest, rfl, rfl, rfl, fs⟩
          · rw [partPulses_cons_not hd] at fp
            rw [partAcqs_cons_not hd] at fa
            rw [fp, fa, fh]
            simp [hd]

/-! ### The schedule of a multiplexed gate -/

theorem foldl_min (l : List Rat) : ∀ x, (l.foldl min x = x ∨ l.foldl min x ∈ l) ∧ l.foldl min x ≤ x ∧
    ∀ y ∈ l, l.foldl min x ≤ y := by
  induction l with
  | nil => intro x; simp
  | cons z l ih =>
    intro x
    obtain ⟨h1, h2, h3⟩ := ih (min x z)
    simp only [List.foldl_cons]
    refine ⟨?_, le_trans h2 (min_le_left _ _), ?_⟩
    · rcases h1 with h1 | h1
      · rw [h1]
        rcases min_choice x z with h | h <;> simp [h]
      · right; simp [h1]
    · intro y hy
      rcases List.mem_cons.mp hy with rfl | hy
      · exact le_trans h2 (min_le_right _ _)
      · exact h3 y hy

theorem minDelay_spec (l : List Rat) : (minDelay l = none ↔ l = []) ∧
    ∀ x, minDelay l = some x → x ∈ l ∧ ∀ y ∈ l, x ≤ y := by
  cases l with
  | nil => simp [minDelay]
  | cons z l =>
    simp only [minDelay, reduceCtorEq, Option.some.injEq, List.cons_ne_nil]
    refine ⟨trivial, ?_⟩
    rintro x rfl
    obtain ⟨h1, h2, h3⟩ := foldl_min l z
    refine ⟨?_, ?_⟩
    · rcases h1 with h1 | h1 <;> simp [h1]
    · intro y hy
      rcases List.mem_cons.mp hy with rfl | hy
      · exact h2
      · exact h3 y hy

/-- The parts of the schedule of a multiplexed gate. -/
def allParts (g : Gate) (p a : List P) (has : Bool) (subs : List (Op P U C)) : List (Op P U C) :=
  (if has then [.leaf (some g) p a] else []) ++ subs

theorem delayOf_dropLeaf (g : Option Gate) (p a : List P) : delayOf (.leaf g p a : Op P U C) = none := rfl

theorem filterMap_allParts (g : Gate) (p a : List P) (has : Bool) (subs : List (Op P U C)) :
    (allParts g p a has subs).filterMap delayOf = subs.filterMap delayOf := by
  unfold allParts
  cases has
  · simp
  · simp [List.filterMap_cons, delayOf_dropLeaf]

theorem muxSchedule_atOnce (g : Gate) (p a : List P) (has : Bool) (subs : List (Op P U C)) :
    AtOnce (allParts g p a has subs) (muxSchedule g p a has subs : Op P U C) := by
  have hall : (if has then [(Op.leaf (some g) p a : Op P U C)] else []) ++ subs.map dropDelay =
      (allParts g p a has subs).map dropDelay := by
    unfold allParts; cases has <;> simp [dropDelay]
  refine ⟨_, _, rfl, ?_, ?_, ?_, ?_, rfl, rfl, ?_, ?_⟩
  · simp only [hall]; simp
  · intro i
    simp only [hall]
    simp only [List.getElem?_map, List.getElem?_zip_eq_some]
    by_cases hi : i < (allParts g p a has subs).length
    · simp [List.getElem?_eq_getElem, hi, dropDelay_eq]
    · simp [List.getElem?_eq_none (Nat.le_of_not_lt hi), hi]
  · intro i h0 hi
    simp only [hall] at hi ⊢
    simp only [List.length_map, List.length_zip, List.length_range, Nat.min_self] at hi
    simp [List.getElem?_eq_getElem, hi, Nat.pos_iff_ne_zero.mp h0]
  · intro hi
    simp only [hall] at hi ⊢
    simp only [List.length_map, List.length_zip, List.length_range, Nat.min_self] at hi
    simp [List.getElem?_eq_getElem, hi]
  · simp only
    rw [(minDelay_spec _).1, ← filterMap_allParts g p a has subs, List.filterMap_eq_nil_iff, delayOf_eq]
  · intro x hx
    have := (minDelay_spec _).2 x hx
    rw [← filterMap_allParts g p a has subs] at this
    simp only [List.mem_filterMap] at this
    exact ⟨this.1, fun p hp y hy => this.2 y ⟨p, hp, hy⟩⟩

theorem atOnce_unique {parts : List (Op P U C)} {s t : Op P U C} (hs : AtOnce parts s) (ht : AtOnce parts t) :
    s = t := by
  obtain ⟨d, items, rfl, l1, a1, b1, c1, o1, r1, n1, m1⟩ := hs
  obtain ⟨d', items', rfl, l2, a2, b2, c2, o2, r2, n2, m2⟩ := ht
  have hitems : items = items' := by
    apply List.ext_getElem?
    intro i
    by_cases hi : i < parts.length
    · have hi1 : i < items.length := by omega
      have hi2 : i < items'.length := by omega
      have h1 := (a1 i).trans (a2 i).symm
      have h2 : (items[i]?).map Prod.snd = (items'[i]?).map Prod.snd := by
        by_cases h0 : i = 0
        · subst h0; rw [c1 hi1, c2 hi2]
        · rw [b1 i (Nat.pos_of_ne_zero h0) hi1, b2 i (Nat.pos_of_ne_zero h0) hi2]
      rw [List.getElem?_eq_getElem hi1, List.getElem?_eq_getElem hi2] at h1 h2 ⊢
      simp only [Option.map_some, Option.some.injEq] at h1 h2 ⊢
      exact Prod.ext h1 h2
    · rw [List.getElem?_eq_none (by omega), List.getElem?_eq_none (by omega)]
  have hdelay : d.delay = d'.delay := by
    cases h : d.delay with
    | none => exact ((n2.mpr (n1.mp h))).symm
    | some x =>
      cases h' : d'.delay with
      | none => have := n1.mpr (n2.mp h'); rw [h] at this; cases this
      | some y =>
        obtain ⟨⟨p, hp, hx⟩, hmin⟩ := m1 x h
        obtain ⟨⟨q, hq, hy⟩, hmin'⟩ := m2 y h'
        rw [le_antisymm (hmin q hq y hy) (hmin' p hp x hx)]
  subst hitems
  cases d; cases d'
  simp only at o1 r1 o2 r2 hdelay
  subst o1 r1 o2 r2 hdelay
  rfl

end Verif.Circuit
