/-
The reservation of sequencers.
-/
import Verif.Connect.Direct
import Mathlib.Data.List.Perm.Subperm

set_option linter.unusedSimpArgs false
set_option linter.unusedVariables false

namespace Verif.Connect

open Verif.Connect.Spec Verif.StableSort

theorem fits_iff (a : Allowed) (p : Path) : fits a p = true ↔
    match p.measure with
    | none => p.chan ∈ a.outs ∨ p.chan ∈ a.ins
    | some m => p.chan ∈ a.outs ∧ ∀ c ∈ m, c ∈ a.ins := by
  unfold fits; cases p.measure <;> simp

theorem allowed_drive (t : ModType) : ∀ e ∈ allowed t, ∀ ch,
    ch ∈ e.2.outs ↔ CanDrive t e.1 ch := by
  rintro ⟨i, a⟩ he ⟨mode, dir, idx⟩
  cases t with
  | qcm =>
    simp only [allowed, List.mem_map, List.mem_range, Prod.mk.injEq] at he
    obtain ⟨j, hj, rfl, rfl⟩ := he
    cases mode <;> cases dir <;> simp [CanDrive, co, ro, dO] <;> omega
  | qrm =>
    simp only [allowed, List.mem_map, List.mem_range, Prod.mk.injEq] at he
    obtain ⟨j, hj, rfl, rfl⟩ := he
    cases mode <;> cases dir <;> simp [CanDrive, co, ro, dO] <;> omega
  | qcmRf =>
    simp only [allowed, List.mem_map, List.mem_range, Prod.mk.injEq] at he
    obtain ⟨j, hj, rfl, rfl⟩ := he
    cases mode <;> cases dir <;> simp [CanDrive, co, ro, dO] <;> omega
  | qrmRf =>
    simp only [allowed, List.mem_map, List.mem_range, Prod.mk.injEq] at he
    obtain ⟨j, hj, rfl, rfl⟩ := he
    cases mode <;> cases dir <;> simp [CanDrive, co, ro, dO] <;> omega
  | qtm =>
    simp only [allowed, List.mem_map, List.mem_range, Prod.mk.injEq] at he
    obtain ⟨j, hj, rfl, rfl⟩ := he
    cases mode <;> cases dir <;> simp [CanDrive, co, ro, dO] <;> omega
  | qrc =>
    simp only [allowed, List.mem_cons, List.not_mem_nil, or_false, Prod.mk.injEq] at he
    rcases he with ⟨rfl, rfl⟩ | ⟨rfl, rfl⟩ | ⟨rfl, rfl⟩ | ⟨rfl, rfl⟩ | ⟨rfl, rfl⟩ | ⟨rfl, rfl⟩ |
      ⟨rfl, rfl⟩ | ⟨rfl, rfl⟩ | ⟨rfl, rfl⟩ | ⟨rfl, rfl⟩ | ⟨rfl, rfl⟩ | ⟨rfl, rfl⟩ <;>
    cases mode <;> cases dir <;> simp [CanDrive, co, ro, dO] <;> omega

theorem allowed_read (t : ModType) : ∀ e ∈ allowed t, ∀ ch,
    ch ∈ e.2.ins ↔ CanRead t e.1 ch := by
  rintro ⟨i, a⟩ he ⟨mode, dir, idx⟩
  cases t with
  | qcm =>
    simp only [allowed, List.mem_map, List.mem_range, Prod.mk.injEq] at he
    obtain ⟨j, hj, rfl, rfl⟩ := he
    cases mode <;> cases dir <;> simp [CanRead, ci, ri, dI] <;> omega
  | qrm =>
    simp only [allowed, List.mem_map, List.mem_range, Prod.mk.injEq] at he
    obtain ⟨j, hj, rfl, rfl⟩ := he
    cases mode <;> cases dir <;> simp [CanRead, ci, ri, dI] <;> omega
  | qcmRf =>
    simp only [allowed, List.mem_map, List.mem_range, Prod.mk.injEq] at he
    obtain ⟨j, hj, rfl, rfl⟩ := he
    cases mode <;> cases dir <;> simp [CanRead, ci, ri, dI] <;> omega
  | qrmRf =>
    simp only [allowed, List.mem_map, List.mem_range, Prod.mk.injEq] at he
    obtain ⟨j, hj, rfl, rfl⟩ := he
    cases mode <;> cases dir <;> simp [CanRead, ci, ri, dI] <;> omega
  | qtm =>
    simp only [allowed, List.mem_map, List.mem_range, Prod.mk.injEq] at he
    obtain ⟨j, hj, rfl, rfl⟩ := he
    cases mode <;> cases dir <;> simp [CanRead, ci, ri, dI] <;> omega
  | qrc =>
    simp only [allowed, List.mem_cons, List.not_mem_nil, or_false, Prod.mk.injEq] at he
    rcases he with ⟨rfl, rfl⟩ | ⟨rfl, rfl⟩ | ⟨rfl, rfl⟩ | ⟨rfl, rfl⟩ | ⟨rfl, rfl⟩ | ⟨rfl, rfl⟩ |
      ⟨rfl, rfl⟩ | ⟨rfl, rfl⟩ | ⟨rfl, rfl⟩ | ⟨rfl, rfl⟩ | ⟨rfl, rfl⟩ | ⟨rfl, rfl⟩ <;>
    cases mode <;> cases dir <;> simp [CanRead, ci, ri, dI] <;> omega

theorem allowed_of_can (t : ModType) (i : Nat) (ch : Chan) (h : CanDrive t i ch ∨ CanRead t i ch) :
    ∃ a, (i, a) ∈ allowed t := by
  have hlt : i < 12 ∧ (t ≠ .qrc → i < 8) ∧ (t ≠ .qrc → t ≠ .qtm → i < 6) := by
    obtain ⟨mode, dir, idx⟩ := ch
    rcases h with ⟨_, h⟩ | ⟨_, h⟩ <;> cases t <;> cases mode <;> simp at h ⊢ <;> omega
  have hmem : i ∈ (allowed t).map Prod.fst := by
    cases t with
    | qrc =>
      have : ∀ i, i < 12 → i ∈ (allowed .qrc).map Prod.fst := by decide
      exact this i hlt.1
    | qtm =>
      have : ∀ i, i < 8 → i ∈ (allowed .qtm).map Prod.fst := by decide
      exact this i (hlt.2.1 (by decide))
    | qcm =>
      have : ∀ i, i < 6 → i ∈ (allowed .qcm).map Prod.fst := by decide
      exact this i (hlt.2.2 (by decide) (by decide))
    | qrm =>
      have : ∀ i, i < 6 → i ∈ (allowed .qrm).map Prod.fst := by decide
      exact this i (hlt.2.2 (by decide) (by decide))
    | qcmRf =>
      have : ∀ i, i < 6 → i ∈ (allowed .qcmRf).map Prod.fst := by decide
      exact this i (hlt.2.2 (by decide) (by decide))
    | qrmRf =>
      have : ∀ i, i < 6 → i ∈ (allowed .qrmRf).map Prod.fst := by decide
      exact this i (hlt.2.2 (by decide) (by decide))
  obtain ⟨e, he, rfl⟩ := List.mem_map.mp hmem
  exact ⟨e.2, he⟩

theorem supports_iff (t : ModType) (i : Nat) (p : Path) :
    Supports t i p ↔ ∃ a, (i, a) ∈ allowed t ∧ fits a p = true := by
  have key : ∀ a, (i, a) ∈ allowed t → (fits a p = true ↔ Supports t i p) := by
    intro a ha
    rw [fits_iff]
    unfold Supports
    have h1 := allowed_drive t _ ha
    have h2 := allowed_read t _ ha
    simp only at h1 h2
    cases p.measure with
    | none => simp only [h1, h2]
    | some m => simp only [h1, h2]
  constructor
  · intro h
    have : ∃ a, (i, a) ∈ allowed t := by
      apply allowed_of_can t i p.chan
      unfold Supports at h
      cases hm : p.measure with
      | none => rw [hm] at h; exact h
      | some m => rw [hm] at h; exact Or.inl h.1
    obtain ⟨a, ha⟩ := this
    exact ⟨a, ha, (key a ha).mpr h⟩
  · rintro ⟨a, ha, hf⟩
    exact (key a ha).mp hf

theorem findSeq_some {al : List (Nat × Allowed)} {taken : List Nat} {p : Path} {i : Nat}
    (h : findSeq al taken p = some i) : i ∉ taken ∧ ∃ a, (i, a) ∈ al ∧ fits a p = true := by
  unfold findSeq at h
  rw [Option.map_eq_some_iff] at h
  obtain ⟨e, he, rfl⟩ := h
  have h1 := List.find?_some he
  have h2 := List.mem_of_find?_eq_some he
  simp only [Bool.and_eq_true, decide_eq_true_eq] at h1
  exact ⟨h1.1, e.2, h2, h1.2⟩

theorem findSeq_none {al : List (Nat × Allowed)} {taken : List Nat} {p : Path} :
    findSeq al taken p = none ↔ ∀ i a, (i, a) ∈ al → fits a p = true → i ∈ taken := by
  unfold findSeq
  rw [Option.map_eq_none_iff, List.find?_eq_none]
  constructor
  · intro h i a hm hf
    have := h (i, a) hm
    simp only [Bool.and_eq_true, decide_eq_true_eq, not_and] at this
    by_contra hc
    exact this hc hf
  · rintro h ⟨i, a⟩ hm
    simp only [Bool.and_eq_true, decide_eq_true_eq, not_and]
    intro h1 h2
    exact h1 (h i a hm h2)

/-- What a successful reservation is. -/
theorem reserve_ok (al : List (Nat × Allowed)) : ∀ (l : List (PC × Path)) (acc res : List (Nat × PC)),
    reserve al l acc = .ok res → (acc.map Prod.fst).Nodup →
    (res.map Prod.fst).Nodup ∧ ∃ added, res = acc ++ added ∧
      List.Forall₂ (fun e a => a.2 = e.1 ∧ ∃ w, (a.1, w) ∈ al ∧ fits w e.2 = true) l added
  | [], acc, res, h, hn => by
    simp only [reserve, Except.ok.injEq] at h; subst h
    exact ⟨hn, [], by simp, List.Forall₂.nil⟩
  | (pc, p) :: l, acc, res, h, hn => by
    rw [reserve] at h
    split at h
    · simp at h
    · rename_i i hi
      obtain ⟨h1, h2⟩ := findSeq_some hi
      have hn' : ((acc ++ [(i, pc)]).map Prod.fst).Nodup := by
        rw [List.map_append, List.nodup_append]
        refine ⟨hn, by simp, ?_⟩
        intro a ha b hb
        simp only [List.map_cons, List.map_nil, List.mem_singleton] at hb
        subst hb; intro e; subst e; exact h1 ha
      obtain ⟨h3, added, h4, h5⟩ := reserve_ok al l _ res h hn'
      exact ⟨h3, (i, pc) :: added, by rw [h4]; simp, List.Forall₂.cons ⟨rfl, h2⟩ h5⟩

/-- Why a reservation is refused. -/
theorem reserve_error (al : List (Nat × Allowed)) : ∀ (l : List (PC × Path))
    (acc : List (Nat × PC)) (e : Err), reserve al l acc = .error e →
    e = .valueError ∧ ∃ l1 x l2 acc', l = l1 ++ x :: l2 ∧ reserve al l1 acc = .ok acc' ∧
      ∀ i a, (i, a) ∈ al → fits a x.2 = true → i ∈ acc'.map Prod.fst
  | [], acc, e, h => by simp [reserve] at h
  | (pc, p) :: l, acc, e, h => by
    rw [reserve] at h
    split at h
    · rename_i hi
      simp only [Except.error.injEq] at h
      exact ⟨h.symm, [], (pc, p), l, acc, rfl, rfl, findSeq_none.mp hi⟩
    · rename_i i hi
      obtain ⟨h1, l1, x, l2, acc', h2, h3, h4⟩ := reserve_error al l _ e h
      refine ⟨h1, (pc, p) :: l1, x, l2, acc', by simp [h2], ?_, h4⟩
      rw [reserve, hi]; exact h3

/-- If every port-clock has at least as many suitable sequencers as there are port-clocks, the
reservation succeeds. -/
theorem reserve_count (al : List (Nat × Allowed)) (hal : (al.map Prod.fst).Nodup) :
    ∀ (l : List (PC × Path)) (acc : List (Nat × PC)),
    (∀ e ∈ l, acc.length + l.length ≤ (al.filter (fun a => fits a.2 e.2)).length) →
    ∃ res, reserve al l acc = .ok res
  | [], acc, _ => ⟨acc, rfl⟩
  | (pc, p) :: l, acc, h => by
    rw [reserve]
    cases hi : findSeq al (acc.map Prod.fst) p with
    | none =>
      exfalso
      have h1 := findSeq_none.mp hi
      have h2 := h (pc, p) (by simp)
      have hsub : ((al.filter (fun a => fits a.2 p)).map Prod.fst) ⊆ acc.map Prod.fst := by
        intro x hx
        obtain ⟨⟨i, a⟩, ha, rfl⟩ := List.mem_map.mp hx
        rw [List.mem_filter] at ha
        exact h1 i a ha.1 ha.2
      have hnd : ((al.filter (fun a => fits a.2 p)).map Prod.fst).Nodup :=
        hal.sublist (List.filter_sublist.map _)
      have := (List.subperm_of_subset hnd hsub).length_le
      simp only [List.length_map, List.length_cons] at this h2
      omega
    | some i =>
      simp only
      apply reserve_count al hal l
      intro e he
      have := h e (by simp [he])
      simp only [List.length_append, List.length_cons, List.length_nil] at this ⊢
      omega

theorem forall₂_added {al : List (Nat × Allowed)} {l : List (PC × Path)} {added : List (Nat × PC)}
    (h : List.Forall₂ (fun e a => a.2 = e.1 ∧ ∃ w, (a.1, w) ∈ al ∧ fits w e.2 = true) l added) :
    added.map Prod.snd = l.map Prod.fst ∧
      (∀ e ∈ l, ∃ a ∈ added, a.2 = e.1 ∧ ∃ w, (a.1, w) ∈ al ∧ fits w e.2 = true) ∧
      (∀ a ∈ added, ∃ e ∈ l, a.2 = e.1 ∧ ∃ w, (a.1, w) ∈ al ∧ fits w e.2 = true) := by
  induction h with
  | nil => simp
  | cons h1 h2 ih =>
    rename_i a b l1 l2
    refine ⟨by simp [h1.1, ih.1], ?_, ?_⟩
    · intro x hx
      rcases List.mem_cons.mp hx with rfl | hx
      · exact ⟨_, by simp, h1⟩
      · obtain ⟨y, hy, hh⟩ := ih.2.1 x hx
        exact ⟨y, by simp [hy], hh⟩
    · intro x hx
      rcases List.mem_cons.mp hx with rfl | hx
      · exact ⟨_, by simp, h1⟩
      · obtain ⟨y, hy, hh⟩ := ih.2.2 x hx
        exact ⟨y, by simp [hy], hh⟩

/-- The order in which the port-clocks are served. -/
def order (pcs : List (PC × Path)) : List (PC × Path) :=
  (sortBy (fun e => pcKey e.1) pcs).filter (fun e => e.2.measure.isSome) ++
    (sortBy (fun e => pcKey e.1) pcs).filter (fun e => !e.2.measure.isSome)

theorem order_perm (pcs : List (PC × Path)) : (order pcs).Perm pcs :=
  (List.filter_append_perm _ _).trans (sortBy_perm _ _)

theorem sequencerToPortclock_eq (al : List (Nat × Allowed)) (pcs : List (PC × Path)) :
    sequencerToPortclock al pcs = reserve al (order pcs) [] := rfl

/-- Success of the whole function. -/
theorem sequencerToPortclock_ok {al : List (Nat × Allowed)} {pcs : List (PC × Path)}
    {res : List (Nat × PC)} (h : sequencerToPortclock al pcs = .ok res) :
    (res.map Prod.fst).Nodup ∧ (res.map Prod.snd).Perm (pcs.map Prod.fst) ∧
      (∀ e ∈ pcs, ∃ i w, (i, e.1) ∈ res ∧ (i, w) ∈ al ∧ fits w e.2 = true) ∧
      (∀ a ∈ res, ∃ e ∈ pcs, a.2 = e.1 ∧ ∃ w, (a.1, w) ∈ al ∧ fits w e.2 = true) := by
  rw [sequencerToPortclock_eq] at h
  obtain ⟨h1, added, h2, h3⟩ := reserve_ok al _ [] res h (by simp)
  simp only [List.nil_append] at h2
  subst h2
  obtain ⟨h4, h5, h6⟩ := forall₂_added h3
  refine ⟨h1, ?_, ?_, ?_⟩
  · rw [h4]; exact (order_perm pcs).map _
  · intro e he
    obtain ⟨a, ha, h7, w, h8, h9⟩ := h5 e ((order_perm pcs).mem_iff.mpr he)
    exact ⟨a.1, w, by rw [← h7]; exact ha, h8, h9⟩
  · intro a ha
    obtain ⟨e, he, h7⟩ := h6 a ha
    exact ⟨e, (order_perm pcs).mem_iff.mp he, h7⟩

/-- Enough suitable sequencers for each port-clock. -/
theorem sequencerToPortclock_count {al : List (Nat × Allowed)} (hal : (al.map Prod.fst).Nodup)
    {pcs : List (PC × Path)}
    (h : ∀ e ∈ pcs, pcs.length ≤ (al.filter (fun a => fits a.2 e.2)).length) :
    ∃ res, sequencerToPortclock al pcs = .ok res := by
  rw [sequencerToPortclock_eq]
  apply reserve_count al hal
  intro e he
  rw [(order_perm pcs).length_eq]
  simpa using h e ((order_perm pcs).mem_iff.mp he)

theorem allowed_nodup (t : ModType) : ((allowed t).map Prod.fst).Nodup := by
  cases t <;> decide

theorem allowed_dirs (t : ModType) : ∀ e ∈ allowed t,
    (∀ c ∈ e.2.outs, c.dir = .output) ∧ (∀ c ∈ e.2.ins, c.dir = .input) := by
  cases t <;> decide

/-- The order depends only on the set of port-clocks. -/
theorem sort_unique {pcs pcs' : List (PC × Path)} (hp : pcs.Perm pcs')
    (hk : ∀ e ∈ pcs, ∀ e' ∈ pcs, pcKey e.1 = pcKey e'.1 → e = e') :
    sortBy (fun e => pcKey e.1) pcs = sortBy (fun e => pcKey e.1) pcs' := by
  have h1 := sortBy_sorted (fun e : PC × Path => pcKey e.1) pcs
  have h2 := sortBy_sorted (fun e : PC × Path => pcKey e.1) pcs'
  have hperm : (sortBy (fun e => pcKey e.1) pcs).Perm (sortBy (fun e => pcKey e.1) pcs') :=
    (sortBy_perm _ _).trans (hp.trans (sortBy_perm _ _).symm)
  apply List.Perm.eq_of_pairwise (le := fun a b : PC × Path => pcKey a.1 ≤ pcKey b.1) _ h1 h2 hperm
  intro a b ha hb h3 h4
  exact hk a (mem_sortBy.mp ha) b (hp.mem_iff.mpr (mem_sortBy.mp hb)) (le_antisymm h3 h4)

end Verif.Connect
