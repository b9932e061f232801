/-
The timing table lists every pulse and every acquisition of every repetition of a loop, once and at its time.
-/
import Verif.Table.Spec
import Mathlib.Tactic.Linarith
import Mathlib.Tactic.Positivity
import Mathlib.Data.List.Forall2
import Mathlib.Data.List.Perm.Basic
import Mathlib.Algebra.Order.Field.Basic

namespace Verif.Table

open Spec

set_option linter.unusedSimpArgs false
set_option linter.unusedVariables false

variable {D : Type}

/-! ### Every occurrence is listed once -/

/-- `paths` are all ways to pulses of `op`, each of them once, and `l` are their rows. -/
structure Lists (P : List Step → Row D → Prop) (paths : List (List Step)) (l : List (Row D)) : Prop where
  nodup : paths.Nodup
  all : ∀ p r, P p r → p ∈ paths
  rows : List.Forall₂ P paths l

theorem infoRows_length (name : String) (id : Option String) (o : Rat) (k : Nat) (l : List (Info D)) :
    (infoRows name id o k l).length = l.length := by
  induction l generalizing k with
  | nil => rfl
  | cons i rest ih => simp [infoRows, ih]

theorem infoRows_get (name : String) (id : Option String) (o : Rat) (k : Nat) (l : List (Info D)) (j : Nat) :
    (infoRows name id o k l)[j]? = l[j]?.map fun i => ⟨name, k + j, id, o + i.t0, i.duration, i.acq, i.data⟩ := by
  induction l generalizing k j with
  | nil => simp [infoRows]
  | cons i rest ih =>
    cases j with
    | zero => simp [infoRows]
    | succ j =>
      simp only [infoRows, List.getElem?_cons_succ, ih]
      congr 1
      funext x
      simp only [Row.mk.injEq, and_true, true_and]
      omega

theorem forall₂_of_get {α β : Type} {R : α → β → Prop} {l : List α} {l' : List β} (hl : l.length = l'.length)
    (h : ∀ (j : Nat) (a : α) (b : β), l[j]? = some a → l'[j]? = some b → R a b) : List.Forall₂ R l l' := by
  induction l generalizing l' with
  | nil => cases l' with
    | nil => exact .nil
    | cons => simp at hl
  | cons a l ih => cases l' with
    | nil => simp at hl
    | cons b l' =>
      refine .cons (h 0 a b rfl rfl) (ih (by simpa using hl) fun j x y hx hy => h (j + 1) x y ?_ ?_)
      · simpa using hx
      · simpa using hy

theorem plain_lists (name : String) (pulses acqs : List (Info D)) (o : Rat) (id : Option String) :
    Lists (Plays (.plain name pulses acqs) o id)
      ((List.range pulses.length).map (fun k => [Step.pulse k]) ++ (List.range acqs.length).map fun k => [Step.acq k])
      (infoRows name id o 0 pulses ++ infoRows name id o 0 acqs) where
  nodup := by
    rw [List.nodup_append]
    refine ⟨?_, ?_, ?_⟩
    · exact List.Nodup.map (fun a b h => by simpa using h) List.nodup_range
    · exact List.Nodup.map (fun a b h => by simpa using h) List.nodup_range
    · intro a ha b hb
      simp only [List.mem_map] at ha hb
      obtain ⟨x, _, rfl⟩ := ha
      obtain ⟨y, _, rfl⟩ := hb
      simp
  all := by
    intro p r h
    cases h with
    | pulse h =>
      have := (List.getElem?_eq_some_iff.mp h).1
      simp [this]
    | acq h =>
      have := (List.getElem?_eq_some_iff.mp h).1
      simp [this]
  rows := by
    refine List.rel_append ?_ ?_
    · refine forall₂_of_get (by simp [infoRows_length]) fun j a b ha hb => ?_
      rw [infoRows_get] at hb
      simp only [List.getElem?_map, Option.map_eq_some_iff] at ha hb
      obtain ⟨k, hk, rfl⟩ := ha
      obtain ⟨i, hi, rfl⟩ := hb
      have : k = j := by
        have := List.getElem?_eq_some_iff.mp hk
        obtain ⟨h1, h2⟩ := this
        simpa using h2.symm
      subst this
      simpa using Plays.pulse hi
    · refine forall₂_of_get (by simp [infoRows_length]) fun j a b ha hb => ?_
      rw [infoRows_get] at hb
      simp only [List.getElem?_map, Option.map_eq_some_iff] at ha hb
      obtain ⟨k, hk, rfl⟩ := ha
      obtain ⟨i, hi, rfl⟩ := hb
      have : k = j := by
        have := List.getElem?_eq_some_iff.mp hk
        obtain ⟨h1, h2⟩ := this
        simpa using h2.symm
      subst this
      simpa using Plays.acq hi

theorem Lists.map_cons {P Q : List Step → Row D → Prop} {paths : List (List Step)} {l : List (Row D)} (h : Lists P paths l)
    (s : Step) (hPQ : ∀ p r, P p r → Q (s :: p) r) (hQ : ∀ p r, Q p r → ∃ p', p = s :: p' ∧ P p' r) :
    Lists Q (paths.map (s :: ·)) l where
  nodup := h.nodup.map (fun a b h => by simpa using h)
  all := by
    intro p r hq
    obtain ⟨p', rfl, hp⟩ := hQ p r hq
    exact List.mem_map.mpr ⟨p', h.all _ _ hp, rfl⟩
  rows := by
    rw [List.forall₂_map_left_iff]
    exact h.rows.imp hPQ

/-- A union of disjoint sets of ways. -/
theorem Lists.append {P Q R : List Step → Row D → Prop} {p q : List (List Step)} {a b : List (Row D)} (hp : Lists P p a)
    (hq : Lists Q q b) (hdis : ∀ x ∈ p, x ∉ q) (h : ∀ x r, R x r ↔ P x r ∨ Q x r) : Lists R (p ++ q) (a ++ b) where
  nodup := by
    rw [List.nodup_append]
    exact ⟨hp.nodup, hq.nodup, fun x hx y hy e => hdis x hx (e ▸ hy)⟩
  all := by
    intro x r hr
    rcases (h x r).mp hr with h1 | h1
    · exact List.mem_append_left _ (hp.all _ _ h1)
    · exact List.mem_append_right _ (hq.all _ _ h1)
  rows := List.rel_append (hp.rows.imp fun x r h1 => (h x r).mpr (.inl h1)) (hq.rows.imp fun x r h1 => (h x r).mpr (.inr h1))

/-- The rounds of a loop, from round `k`. -/
theorem rounds_lists {body : Op D} {d : Rat} {o : Rat} {id : Option String}
    (ih : ∀ o id l, opRows body o id = .ok l → ∃ paths, Lists (Plays body o id) paths l) (ks : List Nat) (hks : ks.Nodup) :
    ∀ l, concat (ks.map fun (i : Nat) => opRows body (o + (i : Rat) * d) id) = .ok l →
      ∃ paths, (∀ p ∈ paths, ∃ i ∈ ks, ∃ p', p = .round i :: p') ∧
        Lists (fun p r => ∃ i ∈ ks, ∃ p', p = .round i :: p' ∧ Plays body (o + (i : Rat) * d) id p' r) paths l := by
  induction ks with
  | nil =>
    intro l h
    simp only [List.map_nil, concat, Except.ok.injEq] at h
    subst h
    exact ⟨[], by simp, ⟨.nil, by simp, .nil⟩⟩
  | cons k ks ihk =>
    intro l h
    rw [List.nodup_cons] at hks
    simp only [List.map_cons, concat] at h
    cases ha : opRows body (o + (k : Rat) * d) id with
    | error e => simp [ha] at h
    | ok a =>
      simp only [ha] at h
      cases hb : concat (ks.map fun (i : Nat) => opRows body (o + (i : Rat) * d) id) with
      | error e => simp [hb] at h
      | ok b =>
        simp only [hb, Except.ok.injEq] at h
        subst h
        obtain ⟨pa, hpa⟩ := ih _ _ _ ha
        obtain ⟨pb, hpb1, hpb⟩ := ihk hks.2 b hb
        have hpa' : Lists (fun p r => ∃ p', p = .round k :: p' ∧ Plays body (o + (k : Rat) * d) id p' r)
            (pa.map (Step.round k :: ·)) a :=
          hpa.map_cons (.round k) (fun p r h => ⟨p, rfl, h⟩) (fun p r ⟨p', h1, h2⟩ => ⟨p', h1, h2⟩)
        refine ⟨pa.map (Step.round k :: ·) ++ pb, ?_, hpa'.append hpb ?_ ?_⟩
        · intro p hp
          rcases List.mem_append.mp hp with h1 | h1
          · obtain ⟨p', _, rfl⟩ := List.mem_map.mp h1
            exact ⟨k, by simp, p', rfl⟩
          · obtain ⟨i, hi, p', rfl⟩ := hpb1 p h1
            exact ⟨i, by simp [hi], p', rfl⟩
        · intro x hx hx'
          obtain ⟨p', _, rfl⟩ := List.mem_map.mp hx
          obtain ⟨i, hi, p'', he⟩ := hpb1 _ hx'
          simp only [List.cons.injEq, Step.round.injEq] at he
          exact hks.1 (he.1 ▸ hi)
        · intro x r
          constructor
          · rintro ⟨i, hi, p', rfl, hp⟩
            rcases List.mem_cons.mp hi with rfl | hi
            · exact .inl ⟨p', rfl, hp⟩
            · exact .inr ⟨i, hi, p', rfl, hp⟩
          · rintro (⟨p', rfl, hp⟩ | ⟨i, hi, p', rfl, hp⟩)
            · exact ⟨k, by simp, p', rfl, hp⟩
            · exact ⟨i, by simp [hi], p', rfl, hp⟩

/-- What is played by schedulables, the first of which has number `k`. -/
def ItemPlays (items : Items D) (o : Rat) (base : Nat) (p : List Step) (r : Row D) : Prop :=
  ∃ k id t op p', ItemAt items k id t op ∧ p = .item (base + k) :: p' ∧ Plays op (o + t) (some id) p' r

mutual
theorem op_lists (op : Op D) : ∀ (o : Rat) (id : Option String) (l : List (Row D)), opRows op o id = .ok l →
    ∃ paths, Lists (Plays op o id) paths l := by
  match op with
  | .plain name pulses acqs =>
    intro o id l h
    rw [opRows] at h
    simp only [Except.ok.injEq] at h
    subst h
    exact ⟨_, plain_lists name pulses acqs o id⟩
  | .sched dur items =>
    intro o id l h
    rw [opRows] at h
    obtain ⟨paths, _, hp⟩ := items_lists items o 0 l h
    refine ⟨paths, hp.nodup, ?_, hp.rows.imp ?_⟩
    · intro p r h1
      cases h1 with
      | item h2 h3 => exact hp.all _ _ ⟨_, _, _, _, _, h2, by simp, h3⟩
    · rintro p r ⟨k, id', t, op, p', h1, rfl, h2⟩
      simpa using Plays.item h1 h2
  | .loop n body =>
    intro o id l h
    rw [opRows] at h
    cases hd : body.duration with
    | none =>
      simp only [hd] at h
      cases n with
      | zero =>
        simp only [List.range_zero, List.map_nil, concat, Except.ok.injEq] at h
        subst h
        refine ⟨[], .nil, ?_, .nil⟩
        intro p r hp
        cases hp with
        | round hi _ _ => omega
      | succ n =>
        rw [List.range_succ_eq_map] at h
        simp [concat] at h
    | some d =>
      simp only [hd] at h
      obtain ⟨paths, _, hp⟩ := rounds_lists (op_lists body) (List.range n) List.nodup_range l h
      refine ⟨paths, hp.nodup, ?_, hp.rows.imp ?_⟩
      · intro p r h1
        cases h1 with
        | round hi hd' h3 =>
          rw [hd] at hd'
          obtain rfl := Option.some.inj hd'
          exact hp.all _ _ ⟨_, List.mem_range.mpr hi, _, rfl, h3⟩
      · rintro p r ⟨i, hi, p', rfl, h2⟩
        exact Plays.round (List.mem_range.mp hi) hd h2
  | .cond b body =>
    intro o id l h
    rw [opRows] at h
    obtain ⟨paths, hp⟩ := op_lists body o id l h
    refine ⟨_, hp.map_cons .body (fun p r h => Plays.cond h) ?_⟩
    intro p r h1
    cases h1 with
    | cond h2 => exact ⟨_, rfl, h2⟩
theorem items_lists (items : Items D) : ∀ (o : Rat) (base : Nat) (l : List (Row D)), itemRows items o = .ok l →
    ∃ paths, (∀ p ∈ paths, ∃ k p', p = .item (base + k) :: p') ∧ Lists (ItemPlays items o base) paths l := by
  match items with
  | .nil =>
    intro o base l h
    rw [itemRows] at h
    simp only [Except.ok.injEq] at h
    subst h
    refine ⟨[], by simp, .nil, ?_, .nil⟩
    rintro p r ⟨k, id, t, op, p', h1, _⟩
    cases h1
  | .cons id none op rest =>
    intro o base l h
    simp [itemRows] at h
  | .cons id (some t) op rest =>
    intro o base l h
    rw [itemRows] at h
    cases ha : opRows op (o + t) (some id) with
    | error e => simp [ha] at h
    | ok a =>
      simp only [ha] at h
      cases hb : itemRows rest o with
      | error e => simp [hb] at h
      | ok b =>
        simp only [hb, Except.ok.injEq] at h
        subst h
        obtain ⟨pa, hpa⟩ := op_lists op _ _ a ha
        obtain ⟨pb, hpb1, hpb⟩ := items_lists rest o (base + 1) b hb
        have hpa' : Lists (fun p r => ∃ p', p = .item base :: p' ∧ Plays op (o + t) (some id) p' r)
            (pa.map (Step.item base :: ·)) a :=
          hpa.map_cons (.item base) (fun p r h => ⟨p, rfl, h⟩) (fun p r ⟨p', h1, h2⟩ => ⟨p', h1, h2⟩)
        refine ⟨pa.map (Step.item base :: ·) ++ pb, ?_, hpa'.append hpb ?_ ?_⟩
        · intro p hp
          rcases List.mem_append.mp hp with h1 | h1
          · obtain ⟨p', _, rfl⟩ := List.mem_map.mp h1
            exact ⟨0, p', rfl⟩
          · obtain ⟨k, p', rfl⟩ := hpb1 p h1
            exact ⟨k + 1, p', by simp; omega⟩
        · intro x hx hx'
          obtain ⟨p', _, rfl⟩ := List.mem_map.mp hx
          obtain ⟨k, p'', he⟩ := hpb1 _ hx'
          simp only [List.cons.injEq, Step.item.injEq] at he
          omega
        · intro x r
          constructor
          · rintro ⟨k, id', t', op', p', h1, rfl, hp⟩
            cases h1 with
            | head => exact .inl ⟨p', by simp, hp⟩
            | tail h2 => exact .inr ⟨_, _, _, _, p', h2, by simp; omega, hp⟩
          · rintro (⟨p', rfl, hp⟩ | ⟨k, id', t', op', p', h1, rfl, hp⟩)
            · exact ⟨0, _, _, _, p', .head, by simp, hp⟩
            · exact ⟨k + 1, _, _, _, p', .tail h1, by simp; omega, hp⟩
end

theorem itemAt_unique {items : Items D} {k : Nat} {id id' : String} {t t' : Rat} {op op' : Op D} (h : ItemAt items k id t op)
    (h' : ItemAt items k id' t' op') : id = id' ∧ t = t' ∧ op = op' := by
  induction h with
  | head => cases h'; exact ⟨rfl, rfl, rfl⟩
  | tail h ih => cases h' with
    | tail h2 => exact ih h2

/-- A way leads to one row only. -/
theorem plays_unique {op : Op D} {o : Rat} {id : Option String} {p : List Step} {r r' : Row D} (h : Plays op o id p r)
    (h' : Plays op o id p r') : r = r' := by
  induction h generalizing r' with
  | pulse h => cases h' with
    | pulse h2 => rw [h] at h2; cases h2; rfl
  | acq h => cases h' with
    | acq h2 => rw [h] at h2; cases h2; rfl
  | item h hp ih => cases h' with
    | item h2 hp2 =>
      obtain ⟨rfl, rfl, rfl⟩ := itemAt_unique h h2
      exact ih hp2
  | round hi hd hp ih => cases h' with
    | round hi2 hd2 hp2 =>
      rw [hd] at hd2
      obtain rfl := Option.some.inj hd2
      exact ih hp2
  | cond hp ih => cases h' with
    | cond hp2 => exact ih hp2

/-- **Every pulse and every acquisition of every repetition is listed once, at its time, and nothing else.** -/
theorem table_lists {dur : Option Rat} {items : Items D} {l : List (Row D)} {t : List (Nat × Row D)}
    (h : rows items = .ok l) (ht : Sorted l t) :
    ∃ paths : List (List Step), paths.Nodup ∧ (∀ p, p ∈ paths ↔ ∃ r, Plays (.sched dur items) 0 none p r) ∧
      List.Forall₂ (fun p e => Plays (.sched dur items) 0 none p e.2) paths t := by
  have hl : opRows (.sched dur items) 0 none = .ok l := by
    rw [opRows]
    unfold rows at h
    cases hi : itemRows items 0 with
    | error e => simp [hi] at h
    | ok a =>
      cases a with
      | nil => simp [hi] at h
      | cons r rest => simpa [hi] using h
  obtain ⟨paths, hp⟩ := op_lists _ _ _ _ hl
  have h1 : List.Forall₂ (fun (e : Nat × Row D) p => Plays (.sched dur items) 0 none p e.2)
      (l.zipIdx.map fun e => (e.2, e.1)) paths := by
    rw [List.forall₂_map_left_iff]
    have : List.Forall₂ (fun (e : Row D × Nat) p => Plays (.sched dur items) 0 none p e.1) l.zipIdx paths := by
      have h2 : List.Forall₂ (fun p r => Plays (.sched dur items) 0 none p r) paths (l.zipIdx.map Prod.fst) := by
        rw [List.zipIdx_map_fst]
        exact hp.rows
      rw [List.forall₂_map_right_iff] at h2
      exact h2.flip
    exact this
  obtain ⟨paths', h2, h3⟩ := List.perm_comp_forall₂ ht.1 h1
  refine ⟨paths', (h3.nodup_iff).mpr hp.nodup, fun p => ⟨fun hm => ?_, fun ⟨r, hr⟩ => h3.mem_iff.mpr (hp.all _ _ hr)⟩, h2.flip⟩
  obtain ⟨hlen, hall⟩ := List.forall₂_iff_get.mp h2.flip
  obtain ⟨n, hn, rfl⟩ := List.mem_iff_getElem.mp hm
  exact ⟨_, hall n hn (hlen ▸ hn)⟩

/-- The index of a row is its number in the order of the schedule; the rows are in the order of time. -/
theorem table_sorted {items : Items D} {l : List (Row D)} {t : List (Nat × Row D)} (h : rows items = .ok l)
    (ht : Sorted l t) : t.length = l.length ∧ (∀ e ∈ t, l[e.1]? = some e.2) ∧ t.Pairwise (fun a b => a.2.time ≤ b.2.time) ∧
      (t.map Prod.fst).Nodup := by
  refine ⟨by simpa using ht.1.length_eq, fun e he => ?_, ht.2, ?_⟩
  · have := ht.1.mem_iff.mp he
    obtain ⟨x, hx, rfl⟩ := List.mem_map.mp this
    exact List.mem_zipIdx_iff_getElem?.mp hx
  · rw [(ht.1.map Prod.fst).nodup_iff]
    simp only [List.map_map]
    have : (Prod.fst ∘ fun (e : Row D × Nat) => (e.2, e.1)) = Prod.snd := rfl
    rw [this, List.zipIdx_map_snd]
    exact List.nodup_range'

/-! ### Durations -/

theorem maxOf_le (d : Rat) (l : List Rat) : ∀ x ∈ l, x ≤ maxOf d l := by
  induction l with
  | nil => simp
  | cons y l ih =>
    intro x hx
    cases l with
    | nil => simp at hx; simp [maxOf, hx]
    | cons z l =>
      simp only [maxOf, le_max_iff]
      rcases List.mem_cons.mp hx with rfl | hx
      · exact .inl le_rfl
      · exact .inr (ih x hx)

theorem maxOf_mem (d : Rat) (l : List Rat) : l = [] ∧ maxOf d l = d ∨ maxOf d l ∈ l := by
  induction l with
  | nil => exact .inl ⟨rfl, rfl⟩
  | cons y l ih =>
    right
    cases l with
    | nil => simp [maxOf]
    | cons z l =>
      simp only [maxOf]
      rcases ih with ⟨h, _⟩ | h
      · simp at h
      · rcases max_choice y (maxOf d (z :: l)) with h1 | h1 <;> rw [h1]
        · simp
        · exact List.mem_cons_of_mem _ h

/-- **The duration of an operation is the end of its last pulse or acquisition.** -/
theorem plain_duration (name : String) (pulses acqs : List (Info D)) :
    ∃ d, (Op.plain name pulses acqs).duration = some d ∧ (∀ i ∈ pulses ++ acqs, i.t0 + i.duration ≤ d) ∧
      (pulses ++ acqs = [] ∧ d = 0 ∨ ∃ i ∈ pulses ++ acqs, d = i.t0 + i.duration) := by
  refine ⟨_, by rw [Op.duration], fun i hi => maxOf_le _ _ _ (List.mem_map.mpr ⟨i, hi, rfl⟩), ?_⟩
  rcases maxOf_mem 0 ((pulses ++ acqs).map fun i => i.t0 + i.duration) with ⟨h1, h2⟩ | h
  · exact .inl ⟨by simpa using h1, h2⟩
  · obtain ⟨i, hi, he⟩ := List.mem_map.mp h
    exact .inr ⟨i, hi, he.symm⟩

theorem lastEnd_iff (items : Items D) (m0 : Rat) (m : Rat) : lastEnd items m0 = some m → m0 ≤ m ∧
    (∀ k id t op, ItemAt items k id t op → ∃ d, op.duration = some d ∧ t + d ≤ m) ∧
    (m = m0 ∨ ∃ k id t op d, ItemAt items k id t op ∧ op.duration = some d ∧ t + d = m) := by
  match items with
  | .nil =>
    intro h
    simp only [lastEnd, Option.some.injEq] at h
    subst h
    exact ⟨le_rfl, fun k id t op h => (by cases h), .inl rfl⟩
  | .cons id time op rest =>
    intro h
    cases time with
    | none => simp [lastEnd] at h
    | some t =>
      cases hd : op.duration with
      | none => simp [lastEnd, hd] at h
      | some d =>
        simp only [lastEnd, hd] at h
        obtain ⟨h1, h2, h3⟩ := lastEnd_iff rest _ _ h
        refine ⟨le_trans (le_max_right _ _) h1, ?_, ?_⟩
        · intro k id' t' op' h4
          cases h4 with
          | head => exact ⟨d, hd, le_trans (le_max_left _ _) h1⟩
          | tail h5 => exact h2 _ _ _ _ h5
        · rcases h3 with h3 | ⟨k, id', t', op', d', h4, h5, h6⟩
          · rcases max_choice (t + d) m0 with h7 | h7
            · exact .inr ⟨0, _, _, _, d, .head, hd, by rw [h3, h7]⟩
            · exact .inl (by rw [h3, h7])
          · exact .inr ⟨k + 1, _, _, _, d', .tail h4, h5, h6⟩

/-- **The duration of a schedule is the end of its last schedulable, times the repetitions.** -/
theorem schedule_duration {items : Items D} {reps : Nat} {d : Rat} (h : scheduleDuration reps items = some d) :
    ∃ m, LastEnd items m ∧ d = m * reps := by
  unfold scheduleDuration at h
  simp only [Option.map_eq_some_iff] at h
  obtain ⟨m, hm, rfl⟩ := h
  obtain ⟨h1, h2, h3⟩ := lastEnd_iff items 0 m hm
  exact ⟨m, ⟨h1, h2, h3⟩, rfl⟩

theorem lastEnd_unique {items : Items D} {m m' : Rat} (h : LastEnd items m) (h' : LastEnd items m') : m = m' := by
  have key : ∀ a b, LastEnd items a → LastEnd items b → a ≤ b := by
    intro a b ha hb
    rcases ha.reached with rfl | ⟨k, id, t, op, d, h1, h2, rfl⟩
    · exact hb.nonneg
    · obtain ⟨d', h3, h4⟩ := hb.bound _ _ _ _ h1
      rw [h2] at h3
      obtain rfl := Option.some.inj h3
      exact h4
  exact le_antisymm (key _ _ h h') (key _ _ h' h)

theorem Spec.TimedItems.at {items : Items D} (h : TimedItems items) {k : Nat} {id : String} {t : Rat} {op : Op D}
    (hi : ItemAt items k id t op) : 0 ≤ t ∧ Timed op := by
  induction hi with
  | head => cases h with
    | cons ht h _ => exact ⟨ht, h⟩
  | tail _ ih => cases h with
    | cons _ _ h => exact ih h

/-- **What is played lies within the duration of the operation.** -/
theorem plays_within {op : Op D} {start : Rat} {id : Option String} {p : List Step} {r : Row D} (ht : Timed op)
    (h : Plays op start id p r) : ∃ d, op.duration = some d ∧ start ≤ r.time ∧ 0 ≤ r.duration ∧ r.time + r.duration ≤ start + d := by
  induction h with
  | @pulse name pulses acqs start id k i h =>
    obtain ⟨d, h1, h2, _⟩ := plain_duration name pulses acqs
    have hm : i ∈ pulses ++ acqs := List.mem_append_left _ (List.mem_of_getElem? h)
    cases ht with
    | plain h3 =>
      have := h2 i hm
      have := h3 i hm
      exact ⟨d, h1, by simp only; linarith, this.2, by simp only; linarith⟩
  | @acq name pulses acqs start id k i h =>
    obtain ⟨d, h1, h2, _⟩ := plain_duration name pulses acqs
    have hm : i ∈ pulses ++ acqs := List.mem_append_right _ (List.mem_of_getElem? h)
    cases ht with
    | plain h3 =>
      have := h2 i hm
      have := h3 i hm
      exact ⟨d, h1, by simp only; linarith, this.2, by simp only; linarith⟩
  | @item dur items start id k id' t op path r hi hp ih =>
    cases ht with
    | @sched _ m reps hr hm h2 =>
      obtain ⟨h3, h4⟩ := h2.at hi
      obtain ⟨d, h5, h6, h7, h8⟩ := ih h4
      obtain ⟨d', h9, h10⟩ := hm.bound _ _ _ _ hi
      rw [h5] at h9
      obtain rfl := Option.some.inj h9
      have h11 : m ≤ m * reps := by
        have : (1 : Rat) ≤ reps := by exact_mod_cast hr
        nlinarith [hm.nonneg]
      exact ⟨_, by rw [Op.duration], by linarith, h7, by linarith⟩
  | @round n body start id i d path r hi hd hp ih =>
    cases ht with
    | loop h2 =>
      obtain ⟨d', h5, h6, h7, h8⟩ := ih h2
      rw [hd] at h5
      obtain rfl := Option.some.inj h5
      have hd0 : 0 ≤ d := by linarith
      have hi' : (i : Rat) + 1 ≤ n := by exact_mod_cast hi
      have hi0 : (0 : Rat) ≤ i := by positivity
      refine ⟨n * d, by rw [Op.duration, hd]; rfl, ?_, h7, ?_⟩
      · have := mul_nonneg hi0 hd0
        linarith
      · have := mul_le_mul_of_nonneg_right hi' hd0
        linarith
  | @cond b body start id path r hp ih =>
    cases ht with
    | cond hb h2 =>
      obtain ⟨d, h5, h6, h7, h8⟩ := ih h2
      exact ⟨d + b, by rw [Op.duration, h5]; rfl, h6, h7, by linarith⟩

/-- **Repetitions of a loop follow one another**: what is played in one repetition is over when the next one starts. -/
theorem rounds_apart {n : Nat} {body : Op D} {start : Rat} {id : Option String} {i j : Nat} {p q : List Step} {r r' : Row D}
    (ht : Timed body) (h : Plays (.loop n body) start id (.round i :: p) r)
    (h' : Plays (.loop n body) start id (.round j :: q) r') (hij : i < j) : r.time + r.duration ≤ r'.time := by
  cases h with
  | @round _ _ _ _ _ d _ _ hi hd hp =>
    cases h' with
    | @round _ _ _ _ _ d' _ _ hj hd' hp' =>
      rw [hd] at hd'
      obtain rfl := Option.some.inj hd'
      obtain ⟨e, h1, h2, h3, h4⟩ := plays_within ht hp
      rw [hd] at h1
      obtain rfl := Option.some.inj h1
      obtain ⟨e, h1, h2', _, _⟩ := plays_within ht hp'
      have hij' : (i : Rat) + 1 ≤ j := by exact_mod_cast hij
      have hd0 : 0 ≤ d := by linarith
      have := mul_le_mul_of_nonneg_right hij' hd0
      linarith

/-- **All rows of the table lie within the duration of one repetition of the schedule.** -/
theorem table_within {items : Items D} {reps : Nat} {d : Rat} {l : List (Row D)} {t : List (Nat × Row D)}
    (ht : TimedItems items) (hd : scheduleDuration reps items = some d) (hr : 0 < reps) (h : rows items = .ok l)
    (hs : Sorted l t) : ∀ e ∈ t, 0 ≤ e.2.time ∧ e.2.time + e.2.duration ≤ d / reps := by
  intro e he
  obtain ⟨m, hm, rfl⟩ := schedule_duration hd
  obtain ⟨paths, _, _, h3⟩ := table_lists (dur := some (m * (1 : Nat))) h hs
  obtain ⟨p, hp⟩ : ∃ p, Plays (.sched (some (m * (1 : Nat))) items) 0 none p e.2 := by
    obtain ⟨hlen, hall⟩ := List.forall₂_iff_get.mp h3
    obtain ⟨n, hn, rfl⟩ := List.mem_iff_getElem.mp he
    exact ⟨_, hall n (hlen ▸ hn) hn⟩
  obtain ⟨d, h1, h2, h4, h5⟩ := plays_within (.sched 1 one_pos hm ht) hp
  rw [Op.duration] at h1
  obtain rfl := Option.some.inj h1
  have : (reps : Rat) ≠ 0 := by positivity
  rw [mul_div_cancel_right₀ _ this]
  exact ⟨h2, by simpa using h5⟩

/-! ### When there is a table -/

theorem concat_ok {α : Type} (l : List (Except Err (List α))) (h : ∀ x ∈ l, ∃ a, x = .ok a) : ∃ a, concat l = .ok a := by
  induction l with
  | nil => exact ⟨[], rfl⟩
  | cons x l ih =>
    obtain ⟨a, rfl⟩ := h x (by simp)
    obtain ⟨b, hb⟩ := ih fun y hy => h y (by simp [hy])
    exact ⟨a ++ b, by simp [concat, hb]⟩

theorem timed_duration {op : Op D} (h : Timed op) : ∃ d, op.duration = some d := by
  match op with
  | .plain name pulses acqs => exact ⟨_, by rw [Op.duration]⟩
  | .sched dur items => cases h with
    | sched => exact ⟨_, by rw [Op.duration]⟩
  | .loop n body => cases h with
    | loop h =>
      obtain ⟨d, hd⟩ := timed_duration h
      exact ⟨n * d, by rw [Op.duration, hd]; rfl⟩
  | .cond b body => cases h with
    | cond _ h =>
      obtain ⟨d, hd⟩ := timed_duration h
      exact ⟨d + b, by rw [Op.duration, hd]; rfl⟩

mutual
theorem op_ok {op : Op D} (h : Timed op) (o : Rat) (id : Option String) : ∃ l, opRows op o id = .ok l := by
  match op with
  | .plain name pulses acqs => exact ⟨_, by rw [opRows]⟩
  | .sched dur items => cases h with
    | sched _ _ _ h =>
      obtain ⟨l, hl⟩ := items_ok h o
      exact ⟨l, by rw [opRows]; exact hl⟩
  | .loop n body => cases h with
    | loop h =>
      obtain ⟨d, hd⟩ := timed_duration h
      rw [opRows, hd]
      refine concat_ok _ fun x hx => ?_
      obtain ⟨i, _, rfl⟩ := List.mem_map.mp hx
      exact op_ok h _ _
  | .cond b body => cases h with
    | cond _ h =>
      obtain ⟨l, hl⟩ := op_ok h o id
      exact ⟨l, by rw [opRows]; exact hl⟩
theorem items_ok {items : Items D} (h : TimedItems items) (o : Rat) : ∃ l, itemRows items o = .ok l := by
  match items with
  | .nil => exact ⟨[], by rw [itemRows]⟩
  | .cons id none op rest => cases h
  | .cons id (some t) op rest => cases h with
    | cons _ h hr =>
      obtain ⟨a, ha⟩ := op_ok h (o + t) (some id)
      obtain ⟨b, hb⟩ := items_ok hr o
      exact ⟨a ++ b, by simp [itemRows, ha, hb]⟩
end

/-- **A schedule with determined times that plays anything has a table.** -/
theorem table_exists {items : Items D} (h : TimedItems items) (hp : ∃ dur p r, Plays (.sched dur items) 0 none p r) :
    ∃ l, rows items = .ok l := by
  obtain ⟨l, hl⟩ := items_ok h 0
  obtain ⟨dur, p, r, hp⟩ := hp
  obtain ⟨paths, hpaths⟩ := op_lists (.sched dur items) 0 none l (by rw [opRows]; exact hl)
  cases l with
  | nil =>
    have := hpaths.all _ _ hp
    have h2 := hpaths.rows
    cases h2
    simp at this
  | cons r rest => exact ⟨r :: rest, by simp [rows, hl]⟩

theorem concat_error {α : Type} (l : List (Except Err (List α))) (e : Err) (h : .error e ∈ l) : ∃ e, concat l = .error e := by
  induction l with
  | nil => simp at h
  | cons x l ih =>
    cases x with
    | error e => exact ⟨e, rfl⟩
    | ok a =>
      obtain ⟨e', he⟩ := ih (by simpa using h)
      exact ⟨e', by simp [concat, he]⟩

theorem missing_error {items : Items D} (h : MissingTime items) (o : Rat) : ∃ e, itemRows items o = .error e := by
  induction h with
  | head => exact ⟨.valueError, by simp [itemRows]⟩
  | @tail id time op rest _ ih =>
    obtain ⟨e, he⟩ := ih
    cases time with
    | none => exact ⟨.valueError, by simp [itemRows]⟩
    | some t =>
      cases ha : opRows op (o + t) (some id) with
      | error e => exact ⟨e, by simp [itemRows, ha]⟩
      | ok a => exact ⟨e, by simp [itemRows, ha, he]⟩

theorem itemAt_error {items : Items D} {k : Nat} {id : String} {t : Rat} {op : Op D} (h : ItemAt items k id t op) (o : Rat)
    (hop : ∃ e, opRows op (o + t) (some id) = .error e) : ∃ e, itemRows items o = .error e := by
  induction h with
  | head =>
    obtain ⟨e, he⟩ := hop
    exact ⟨e, by simp [itemRows, he]⟩
  | @tail id time op' rest _ _ _ _ _ ih =>
    obtain ⟨e, he⟩ := ih hop
    cases time with
    | none => exact ⟨.valueError, by simp [itemRows]⟩
    | some t =>
      cases ha : opRows op' (o + t) (some id) with
      | error e => exact ⟨e, by simp [itemRows, ha]⟩
      | ok a => exact ⟨e, by simp [itemRows, ha, he]⟩

theorem untimed_error {op : Op D} (h : Untimed op) : ∀ (o : Rat) (id : Option String), ∃ e, opRows op o id = .error e := by
  induction h with
  | here h => intro o id; rw [opRows]; exact missing_error h o
  | item h _ ih => intro o id; rw [opRows]; exact itemAt_error h o (ih _ _)
  | @round n body hn h ih =>
    intro o id
    rw [opRows]
    cases hd : body.duration with
    | none =>
      simp only
      exact concat_error _ .typeError (List.mem_map.mpr ⟨0, List.mem_range.mpr hn, rfl⟩)
    | some d =>
      simp only
      obtain ⟨e, he⟩ := ih (o + ((0 : Nat) : Rat) * d) id
      exact concat_error _ e (List.mem_map.mpr ⟨0, List.mem_range.mpr hn, he⟩)
  | cond h ih => intro o id; rw [opRows]; exact ih o id

/-- **A table is refused while a time is missing.** -/
theorem table_refused {dur : Option Rat} {items : Items D} (h : Untimed (.sched dur items)) : ∃ e, rows items = .error e := by
  obtain ⟨e, he⟩ := untimed_error h 0 none
  rw [opRows] at he
  exact ⟨e, by simp [rows, he]⟩

/-- The duration of a timed schedule is determined. -/
theorem duration_exists {items : Items D} (h : TimedItems items) (reps : Nat) : ∃ d, scheduleDuration reps items = some d := by
  have key : ∀ (items : Items D) (m : Rat), TimedItems items → ∃ d, lastEnd items m = some d := by
    intro items
    induction items using Items.rec (motive_1 := fun _ => True) with
    | nil => exact fun m _ => ⟨m, rfl⟩
    | cons id time op rest _ ih =>
      intro m h
      cases h with
      | cons _ h hr =>
        obtain ⟨d, hd⟩ := timed_duration h
        simp only [lastEnd, hd]
        exact ih _ hr
    | plain => trivial
    | sched => trivial
    | loop => trivial
    | cond => trivial
  obtain ⟨d, hd⟩ := key items 0 h
  exact ⟨d * reps, by simp [scheduleDuration, hd]⟩

end Verif.Table
