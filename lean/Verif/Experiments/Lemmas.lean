/-
From calls of `Schedule.add` to absolute times: a schedule in which every operation refers to an
earlier one is placed from the first operation on.
-/
import Verif.Experiments.Model
import Verif.Timing.Props
import Verif.Timing.Props2

set_option linter.unusedSimpArgs false
set_option linter.unusedVariables false

namespace Verif.Experiments

open Verif.Timing

variable {L : Type}

/-- A schedulable and its start. -/
abbrev Placed := Item Key × Rat

/-- Where an operation with this constraint starts, if the operations `acc` (last one first) are
placed. -/
def StartsAt (acc : List Placed) (ref : Option Key) (pt : Option RefPt) (rel t : Rat) : Prop :=
  pt ≠ some .other ∧
  ((acc = [] ∧ ref = none ∧ t = 0) ∨
   ∃ q ∈ acc, (ref = none → acc.head? = some q) ∧ (∀ k, ref = some k → q.1.key = k) ∧
    t = q.2 + (pt.getD .stop).frac * q.1.dur + rel + q.1.delay.getD 0)

/-- The schedulable made by one call. -/
def itemOf (n : Nat) (op : Op L) (label : Option String) (rel : Rat) (ref : Option Key)
    (pt : Option RefPt) (d : Rat) : Item Key :=
  ⟨keyOf n label, d, op.delay, [⟨ref, pt, none, rel⟩], none⟩

/-- The calls place `ps` and play `ev`, after `acc`. -/
inductive Runs : List Placed → Nat → Calls L → List Placed → List (Rat × L) → Prop
  | nil (acc n) : Runs acc n .nil [] []
  | cons {acc n op label rel ref pt rest d l t ps ev} (hd : op.duration = .ok d)
      (hl : op.play = .ok l) (hs : StartsAt acc ref pt rel t) (h0 : 0 ≤ t)
      (hr : Runs ((itemOf n op label rel ref pt d, t) :: acc) (n + 1) rest ps ev) :
      Runs acc n (.cons op label rel ref pt rest) ((itemOf n op label rel ref pt d, t) :: ps)
        (later t l ++ ev)

/-- The names of the schedulables, the first call being the `n`-th. -/
def Calls.keys : Calls L → Nat → List Key
  | .nil, _ => []
  | .cons _ label _ _ _ rest, n => keyOf n label :: rest.keys (n + 1)

theorem Runs.keys {acc : List Placed} {n : Nat} {calls : Calls L} {ps : List Placed}
    {ev : List (Rat × L)} (h : Runs acc n calls ps ev) :
    ps.map (fun p => p.1.key) = calls.keys n := by
  induction h with
  | nil => rfl
  | cons hd hl hs h0 hr ih => simp [Calls.keys, itemOf, ih]

theorem Runs.items {acc : List Placed} {n : Nat} {calls : Calls L} {ps : List Placed}
    {ev : List (Rat × L)} (h : Runs acc n calls ps ev) :
    ∀ used : List Key, (used ++ calls.keys n).Nodup →
      calls.items n used = .ok (ps.map (·.1)) := by
  induction h with
  | nil => intro used _; rfl
  | @cons acc n op label rel ref pt rest d l t ps ev hd hl hs h0 hr ih =>
    intro used hn
    have h1 : keyOf n label ∉ used := by
      intro hm
      rw [List.nodup_append] at hn
      exact hn.2.2 _ hm _ (by simp [Calls.keys]) rfl
    have h2 := ih (used ++ [keyOf n label]) (by simpa [Calls.keys] using hn)
    simp only [Calls.items, h1, if_false, hd, h2]
    rfl

theorem Runs.starts {acc : List Placed} {n : Nat} {calls : Calls L} {ps : List Placed}
    {ev : List (Rat × L)} (h : Runs acc n calls ps ev) :
    ∀ (i : Nat) p, ps[i]? = some p → 0 ≤ p.2 ∧ p.1.abs = none ∧
      ∃ ref pt rel, p.1.cons = [⟨ref, pt, none, rel⟩] ∧
        StartsAt ((ps.take i).reverse ++ acc) ref pt rel p.2 := by
  induction h with
  | nil => intro i p hp; simp at hp
  | @cons acc n op label rel ref pt rest d l t ps ev hd hl hs h0 hr ih =>
    intro i p hp
    cases i with
    | zero =>
      simp only [List.getElem?_cons_zero, Option.some.injEq] at hp
      subst hp
      exact ⟨h0, rfl, ref, pt, rel, rfl, by simpa using hs⟩
    | succ i =>
      simp only [List.getElem?_cons_succ] at hp
      obtain ⟨a, b, r, q, e, c, f⟩ := ih i p hp
      exact ⟨a, b, r, q, e, c, by simpa using f⟩

section timing

variable {ps : List Placed}

/-- Every schedulable but the first starts relative to an earlier one. -/
structure Chain (ps : List Placed) : Prop where
  nodup : (ps.map (fun p => p.1.key)).Nodup
  starts : ∀ (i : Nat) p, ps[i]? = some p → 0 ≤ p.2 ∧ p.1.abs = none ∧
      ∃ ref pt rel, p.1.cons = [⟨ref, pt, none, rel⟩] ∧
        StartsAt (ps.take i).reverse ref pt rel p.2

theorem Chain.ref (hc : Chain ps) {i : Nat} {p : Placed} (hp : ps[i]? = some p) :
    (i = 0 ∧ p.2 = 0 ∧ ∃ rel pt, p.1.cons = [⟨none, pt, none, rel⟩] ∧ pt ≠ some .other) ∨
    ∃ j q c, j < i ∧ ps[j]? = some q ∧ p.1.cons = [c] ∧ c.refPtNew = none ∧
      c.refPt ≠ some .other ∧
      refOf .asap (ps.map (·.1)) i 0 c = some q.1.key ∧
      p.2 = q.2 + (c.refPt.getD .stop).frac * q.1.dur + c.rel + q.1.delay.getD 0 := by
  obtain ⟨h0, -, ref, pt, rel, hcons, hpt, hs⟩ := hc.starts i p hp
  have hi : i < ps.length := by
    rcases List.getElem?_eq_some_iff.1 hp with ⟨h, -⟩; exact h
  rcases hs with ⟨ha, rfl, ht⟩ | ⟨q, hq, hnone, hsome, ht⟩
  · left
    have : i = 0 := by
      have h1 := congrArg List.length ha
      simp at h1
      rcases h1 with h1 | h1
      · exact h1
      · subst h1; simp at hi
    exact ⟨this, ht, rel, pt, hcons, hpt⟩
  · right
    cases ref with
    | none =>
      have hh := hnone rfl
      have hi0 : i ≠ 0 := by rintro rfl; simp at hh
      refine ⟨i - 1, q, _, by omega, ?_, hcons, rfl, hpt, ?_, ht⟩
      · rw [List.head?_reverse, List.getLast?_eq_getElem?, List.length_take,
          List.getElem?_take] at hh
        rw [Nat.min_eq_left (by omega)] at hh
        simpa [show i - 1 < i by omega] using hh
      · simp only [refOf, if_true, neighbour, hi0, if_false, List.getElem?_map]
        rw [List.head?_reverse, List.getLast?_eq_getElem?, List.length_take,
          List.getElem?_take] at hh
        rw [Nat.min_eq_left (by omega)] at hh
        have : ps[i - 1]? = some q := by simpa [show i - 1 < i by omega] using hh
        simp [this]
    | some k =>
      have hk := hsome k rfl
      obtain ⟨j, hj⟩ := List.mem_iff_getElem?.1 (List.mem_reverse.1 hq)
      rw [List.getElem?_take] at hj
      split at hj
      · rename_i hji
        exact ⟨j, q, _, hji, hj, hcons, rfl, hpt, by simp [refOf, hk], ht⟩
      · cases hj

theorem unique_idx {l : List Placed} (hn : (l.map (fun p => p.1.key)).Nodup) {i j : Nat}
    {p q : Placed} (hp : l[i]? = some p) (hq : l[j]? = some q) (h : p.1.key = q.1.key) : i = j := by
  have hi : i < l.length := by rcases List.getElem?_eq_some_iff.1 hp with ⟨h, -⟩; exact h
  have hj : j < l.length := by rcases List.getElem?_eq_some_iff.1 hq with ⟨h, -⟩; exact h
  refine (List.Nodup.getElem_inj_iff hn (i := i) (j := j) (hi := by simpa) (hj := by simpa)).1 ?_
  simp only [List.getElem_map]
  rw [List.getElem?_eq_getElem hi, Option.some.injEq] at hp
  rw [List.getElem?_eq_getElem hj, Option.some.injEq] at hq
  rw [hp, hq, h]

theorem Chain.refers (hc : Chain ps) {a b : Key} (h : RefersTo .asap (ps.map (·.1)) a b) :
    ∃ (j i : Nat) (q p : Placed), j < i ∧ ps[j]? = some q ∧ ps[i]? = some p ∧ q.1.key = a ∧ p.1.key = b := by
  obtain ⟨i, j, it, c, h1, h2, h3, h4⟩ := h
  rw [List.getElem?_map] at h1
  cases hp : ps[i]? with
  | none => simp [hp] at h1
  | some p =>
    simp only [hp, Option.map_some, Option.some.injEq] at h1
    subst h1
    rcases hc.ref hp with ⟨rfl, -, rel, pt, hcons, -⟩ | ⟨m, q, c', hm, hq, hcons, -, -, href, -⟩
    · rw [hcons] at h3
      cases j with
      | succ j => simp at h3
      | zero =>
        simp only [List.getElem?_cons_zero, Option.some.injEq] at h3
        subst h3
        simp [refOf, neighbour] at h4
    · rw [hcons] at h3
      cases j with
      | succ j => simp at h3
      | zero =>
        simp only [List.getElem?_cons_zero, Option.some.injEq] at h3
        subst h3
        rw [href, Option.some.injEq] at h4
        exact ⟨m, i, q, p, hm, hq, hp, h4, h2⟩

/-- Such a schedule is timed, with the given starts. -/
theorem Chain.timed (hc : Chain ps) (hne : ps ≠ []) :
    ∃ out, timing .asap (ps.map (·.1)) = .ok out ∧ UniqueKeys (ps.map (·.1)) ∧
      out.map (·.key) = ps.map (fun p => p.1.key) ∧ ∀ p ∈ ps, startOf out p.1.key = p.2 := by
  have hu : UniqueKeys (ps.map (·.1)) := by
    unfold UniqueKeys; rw [List.map_map]; exact hc.nodup
  have hf : Fresh (ps.map (·.1)) := by
    intro it hit
    obtain ⟨p, hp, rfl⟩ := List.mem_map.1 hit
    obtain ⟨i, hi⟩ := List.mem_iff_getElem?.1 hp
    exact (hc.starts i p hi).2.1
  have hok : ∃ out, timing .asap (ps.map (·.1)) = .ok out := by
    apply good_references_timed (by simpa using hne) hu
    · intro it hit
      obtain ⟨p, hp, rfl⟩ := List.mem_map.1 hit
      obtain ⟨i, hi⟩ := List.mem_iff_getElem?.1 hp
      obtain ⟨-, -, ref, pt, rel, hcons, hpt, -⟩ := hc.starts i p hi
      rw [hcons]
      refine ⟨by simp, by simp, by simp, ?_⟩
      intro c hcm
      simp only [List.mem_singleton] at hcm
      subst hcm
      exact ⟨hpt, by simp⟩
    · rintro ⟨a, b, hab, hna⟩
      obtain ⟨j, i, q, p, -, hq, -, rfl, -⟩ := hc.refers hab
      exact hna (by
        rw [List.map_map]
        exact List.mem_map.2 ⟨q, List.mem_iff_getElem?.2 ⟨j, hq⟩, rfl⟩)
    · rintro ⟨k, hk⟩
      have key : ∀ a b, Relation.TransGen (RefersTo .asap (ps.map (·.1))) a b →
          ∃ (j i : Nat) (q p : Placed), j < i ∧ ps[j]? = some q ∧ ps[i]? = some p ∧ q.1.key = a ∧ p.1.key = b := by
        intro a b hab
        induction hab with
        | single h => exact hc.refers h
        | tail h1 h2 ih =>
          obtain ⟨j, i, q, p, hji, hq, hp, ha, hb⟩ := ih
          obtain ⟨j', i', q', p', hji', hq', hp', ha', hb'⟩ := hc.refers h2
          have := unique_idx hc.nodup hq' hp (by rw [ha', hb])
          exact ⟨j, i', q, p', by omega, hq, hp', ha, hb'⟩
      obtain ⟨j, i, q, p, hji, hq, hp, ha, hb⟩ := key k k hk
      have := unique_idx hc.nodup hq hp (by rw [ha, hb])
      omega
  obtain ⟨out, hout⟩ := hok
  obtain ⟨hkeys, hsat⟩ := asap_satisfies_constraints hu hf hout
  refine ⟨out, hout, hu, by rw [hkeys, List.map_map]; rfl, ?_⟩
  obtain ⟨p0, tl, rfl⟩ : ∃ p0 tl, ps = p0 :: tl := by
    cases ps with
    | nil => exact absurd rfl hne
    | cons a l => exact ⟨a, l, rfl⟩
  set ps := p0 :: tl with hps
  have hp0 : ps[0]? = some p0 := rfl
  have hT0 : p0.2 = 0 := by
    rcases hc.ref hp0 with ⟨-, h, -⟩ | ⟨j, q, c, hj, -⟩
    · exact h
    · omega
  -- up to the start of the first one
  have hdiff : ∀ (i : Nat) p, ps[i]? = some p →
      startOf out p.1.key = p.2 + startOf out p0.1.key := by
    intro i
    induction i using Nat.strong_induction_on with
    | _ i ih =>
      intro p hp
      by_cases hi : i = 0
      · subst hi
        rw [hp0, Option.some.injEq] at hp
        subst hp
        rw [hT0]; ring
      · rcases hc.ref hp with ⟨h, -⟩ | ⟨j, q, c, hj, hq, hcons, hpn, hpt, href, ht⟩
        · exact absurd h hi
        · have hitem : (ps.map (·.1))[i]? = some p.1 := by rw [List.getElem?_map, hp]; rfl
          obtain ⟨it, jj, c', ri, h1, h2, h3, h4, h5⟩ := (hsat i p.1 hitem).2.1 hi
          rw [hitem, Option.some.injEq] at h1
          subst h1
          rw [hcons] at h2
          cases jj with
          | succ jj => simp at h2
          | zero =>
            simp only [List.getElem?_cons_zero, Option.some.injEq] at h2
            subst h2
            rw [href, Option.some.injEq] at h4
            obtain ⟨q', hq'm, rfl⟩ := List.mem_map.1 h3
            obtain ⟨j', hj'⟩ := List.mem_iff_getElem?.1 hq'm
            have hjj := unique_idx hc.nodup hq hj' h4
            subst hjj
            rw [hq, Option.some.injEq] at hj'
            subst hj'
            rw [h5, ih j hj q hq, ht]
            have e1 : (ptOf Strategy.asap c).frac = (c.refPt.getD .stop).frac := by
              unfold ptOf; cases c.refPt <;> rfl
            have e2 : (ptNewOf Strategy.asap c).frac = 0 := by
              unfold ptNewOf; rw [hpn]; rfl
            rw [e1, e2]
            ring
  have hc0 : startOf out p0.1.key = 0 := by
    have hnn := times_nonneg hu hout
    obtain ⟨it, hit, hz⟩ := earliest_start_zero hu hout
    obtain ⟨p, hp, rfl⟩ := List.mem_map.1 hit
    obtain ⟨i, hi⟩ := List.mem_iff_getElem?.1 hp
    have h1 := hdiff i p hi
    have h2 := (hc.starts i p hi).1
    have h3 : 0 ≤ startOf out p0.1.key := by
      unfold startOf
      cases hfi : findItem out p0.1.key with
      | none => simp
      | some it =>
        have hm : it ∈ out := List.mem_of_find?_eq_some hfi
        obtain ⟨t, ht, htn⟩ := hnn it hm
        simpa [ht] using htn
    linarith
  intro p hp
  obtain ⟨i, hi⟩ := List.mem_iff_getElem?.1 hp
  rw [hdiff i p hi, hc0]; ring

end timing

theorem absOf_eq (out : List (Item Key)) (k : Key) : absOf out k = startOf out k := rfl

theorem Runs.playAll {acc : List Placed} {n : Nat} {calls : Calls L} {ps : List Placed}
    {ev : List (Rat × L)} (h : Runs acc n calls ps ev) (out : List (Item Key))
    (hout : ∀ p ∈ ps, startOf out p.1.key = p.2) : calls.playAll out n = .ok ev := by
  induction h with
  | nil => rfl
  | @cons acc n op label rel ref pt rest d l t ps ev hd hl hs h0 hr ih =>
    have h1 := hout (itemOf n op label rel ref pt d, t) (by simp)
    have h2 := ih (fun p hp => hout p (by simp [hp]))
    have h3 : absOf out (keyOf n label) = t := h1
    simp only [Calls.playAll, hl, h2, h3]

/-- The latest end of the operations (and 0). -/
def endOf (ps : List Placed) : Rat := ps.foldl (fun m p => max m (p.2 + p.1.dur)) 0

/-- What calls play, and how long they take. -/
theorem Runs.spec {calls : Calls L} {ps : List Placed} {ev : List (Rat × L)}
    (h : Runs [] 0 calls ps ev) (hne : ps ≠ []) (hn : (calls.keys 0).Nodup) (delay : Option Rat) :
    (Op.sched delay calls).play = .ok ev ∧ (Op.sched delay calls).duration = .ok (endOf ps) := by
  have hit := h.items [] (by simpa using hn)
  have hc : Chain ps := ⟨by rw [h.keys]; exact hn, by
    intro i p hp
    have := h.starts i p hp
    simpa using this⟩
  obtain ⟨out, hout, hu, hkeys, hst⟩ := hc.timed hne
  obtain ⟨s', A, k, ks, dd, hs', hu', hp, ht, h0, he, hd, hall, hmin, hout'⟩ := timing_core hu hout
  constructor
  · have h2 := h.playAll out hst
    simp only [Op.play, Calls.timed, hit, hout, h2]
  · simp only [Op.duration, hit, hout]
    congr 1
    -- the durations of `out`
    have hlen : out.length = ps.length := by
      have := congrArg List.length hkeys; simpa using this
    have hdur : ∀ (i : Nat) it p, out[i]? = some it → ps[i]? = some p →
        it.abs.getD 0 + it.dur = p.2 + p.1.dur := by
      intro i it p h1 h2
      have hpm : p ∈ ps := List.mem_iff_getElem?.2 ⟨i, h2⟩
      have hk : it.key = p.1.key := by
        have := congrArg (fun l => l[i]?) hkeys
        simpa [h1, h2] using this
      obtain ⟨it', hi', hone⟩ := (makeExplicit_get hs').2 i p.1 (by rw [List.getElem?_map, h2]; rfl)
      obtain ⟨ek, ed, edl, ea⟩ := makeExplicitOne_same hone
      have hd' : it.dur = p.1.dur := by
        rw [hout', List.getElem?_map, hi'] at h1
        simp only [Option.map_some, Option.some.injEq] at h1
        rw [← h1]; exact ed
      have ha : it.abs.getD 0 = p.2 := by
        rw [← hst p hpm, ← hk]
        have huo : (out.map (·.key)).Nodup := by rw [hkeys, h.keys]; exact hn
        have : findItem out it.key = some it :=
          findItem_mem (s := out) huo (List.mem_iff_getElem?.2 ⟨i, h1⟩)
        simp [startOf, this]
      rw [ha, hd']
    have key : ∀ (a : List (Item Key)) (b : List Placed) (m : Rat), a.length = b.length →
        (∀ (i : Nat) it p, a[i]? = some it → b[i]? = some p →
          it.abs.getD 0 + it.dur = p.2 + p.1.dur) →
        a.foldl (fun m it => max m (it.abs.getD 0 + it.dur)) m
          = b.foldl (fun m p => max m (p.2 + p.1.dur)) m := by
      intro a
      induction a with
      | nil => intro b m hl _; cases b with
        | nil => rfl
        | cons => simp at hl
      | cons x a iha =>
        intro b m hl hh
        cases b with
        | nil => simp at hl
        | cons y b =>
          simp only [List.foldl_cons]
          rw [hh 0 x y rfl rfl]
          exact iha b _ (by simpa using hl) (fun i it p h1 h2 => hh (i + 1) it p h1 h2)
    exact key out ps 0 hlen hdur

end Verif.Experiments
