/-
Merging the data of modules and clusters.
-/
import Verif.Lifecycle.Steps
import Verif.Retrieve.Props

set_option linter.unusedSimpArgs false
set_option linter.unusedVariables false
set_option linter.unusedSectionVars false

namespace Verif.Lifecycle

open Verif.Retrieve (Arr Chan Out cellOf)

/-- An array of the right shape for its channel. -/
def ArrOk (chans : Nat → Option Chan) (reps : Nat) (ch : Nat) (arr : Arr) : Prop :=
  ∃ c, chans ch = some c ∧ arr.rows.length = c.rows reps ∧
    (arr.reps = if c.mode = .append then some reps else none) ∧
    ∀ r, r < arr.rows.length → ∀ a, a ∈ arr.idx ↔ (arr.cell r a).isSome

/-- The state after some arrays were merged. -/
structure Merged (chans : Nat → Option Chan) (reps : Nat) (done : List (Nat × Arr)) (ds : List (Nat × Arr)) : Prop where
  nodup : (ds.map Prod.fst).Nodup
  ok : ∀ ch arr, Dict.get? ds ch = some arr → ArrOk chans reps ch arr
  idx : ∀ ch a, (∃ arr, Dict.get? ds ch = some arr ∧ a ∈ arr.idx) ↔ ∃ e ∈ done, e.1 = ch ∧ a ∈ e.2.idx
  kept : ∀ e ∈ done, ∀ r a v, e.2.cell r a = some v → v ≠ .nan → cellOf ds e.1 r a = some v
  origin : ∀ ch r a o, cellOf ds ch r a = some o → ∃ e ∈ done, e.1 = ch ∧ e.2.cell r a = some o
  chan : ∀ ch, (∃ arr, Dict.get? ds ch = some arr) ↔ ∃ e ∈ done, e.1 = ch

theorem merged_nil (chans : Nat → Option Chan) (reps : Nat) : Merged chans reps [] [] := by
  constructor <;> simp [Dict.get?_nil, cellOf]

theorem cell_lt {arr : Arr} {r a : Nat} {v : Out} (h : arr.cell r a = some v) : r < arr.rows.length := by
  by_contra hr
  rw [Retrieve.cell_none_of_ge (by omega)] at h
  simp at h

theorem merged_step {chans : Nat → Option Chan} {reps : Nat} {done ds ds' : List (Nat × Arr)} {e : Nat × Arr}
    (I : Merged chans reps done ds) (he : ArrOk chans reps e.1 e.2) (h : addOne ds e = .ok ds') :
    Merged chans reps (done ++ [e]) ds' := by
  obtain ⟨ch, new⟩ := e
  obtain ⟨c, hc, hrows, hreps, hcell⟩ := he
  simp only at hc hrows hreps hcell
  unfold addOne at h
  have hmem : ∀ {P : Nat × Arr → Prop}, (∃ j ∈ done ++ [(ch, new)], P j) ↔ ((∃ j ∈ done, P j) ∨ P (ch, new)) := by
    intro P; simp [List.mem_append, or_and_right, exists_or]
  cases hg : Dict.get? ds ch with
  | none =>
    simp only [hg] at h
    obtain rfl := Except.ok.inj h
    have hno : ∀ e ∈ done, e.1 ≠ ch := by
      intro e he h1
      obtain ⟨arr, h2⟩ := (I.chan ch).mpr ⟨e, he, h1⟩
      rw [hg] at h2; simp at h2
    have hlook : ∀ ch' r a, cellOf (Dict.set ds ch new) ch' r a =
        if ch' = ch then new.cell r a else cellOf ds ch' r a := by
      intro ch' r a
      unfold cellOf
      rw [Dict.get?_set]
      by_cases e : ch' = ch <;> simp [e]
    refine ⟨Dict.keys_set_nodup I.nodup _ _, ?_, ?_, ?_, ?_, ?_⟩
    · intro ch' arr harr
      rw [Dict.get?_set] at harr
      by_cases e : ch' = ch
      · subst e
        simp only [if_true, Option.some.injEq] at harr
        subst harr
        exact ⟨c, hc, hrows, hreps, hcell⟩
      · rw [if_neg e] at harr; exact I.ok ch' arr harr
    · intro ch' a
      rw [hmem, ← I.idx ch' a, Dict.get?_set]
      by_cases e : ch' = ch
      · subst e
        simp [hg]
      · simp only [if_neg e, Ne.symm e, false_and, or_false]
    · intro e he r a v hv hne
      rw [hlook]
      rcases List.mem_append.mp he with he' | he'
      · rw [if_neg (hno e he')]; exact I.kept e he' r a v hv hne
      · rw [List.mem_singleton.mp he'] at hv ⊢
        rw [if_pos rfl]; exact hv
    · intro ch' r a o ho
      rw [hlook] at ho
      rw [hmem]
      by_cases e : ch' = ch
      · subst e
        rw [if_pos rfl] at ho
        exact .inr ⟨rfl, ho⟩
      · rw [if_neg e] at ho
        exact .inl (I.origin ch' r a o ho)
    · intro ch'
      rw [hmem, ← I.chan ch', Dict.get?_set]
      by_cases e : ch' = ch
      · subst e; simp
      · simp only [if_neg e, Ne.symm e, or_false]
  | some cur =>
    simp only [hg] at h
    by_cases hcf : Retrieve.conflict new cur = true
    · rw [if_pos hcf] at h; simp at h
    · rw [if_neg hcf] at h
      obtain rfl := Except.ok.inj h
      obtain ⟨c', hc', hcr, hcreps, hcurcell⟩ := I.ok ch cur hg
      rw [hc] at hc'
      obtain rfl := Option.some.inj hc'
      have hbound : ∀ r, r < c.rows reps → r < match new.reps with | none => 1 | some n => n := by
        intro r hr
        rw [hreps]
        unfold Chan.rows at hr
        by_cases e : c.mode = .append
        · simp only [if_pos e] at hr ⊢; exact hr
        · simp only [if_neg e] at hr ⊢; exact hr
      have hmrows : (Retrieve.mergeArr cur new).rows.length = c.rows reps := by
        simp [Retrieve.mergeArr, hcr]
      have hmidx : ∀ a, a ∈ (Retrieve.mergeArr cur new).idx ↔ a ∈ cur.idx ∨ a ∈ new.idx := by
        intro a
        simp only [Retrieve.mergeArr, List.mem_append, List.mem_filter, List.contains_iff_mem,
          Bool.not_eq_true', decide_eq_false_iff_not]
        by_cases h : a ∈ cur.idx <;> simp [h]
      have hlook : ∀ ch' r a, cellOf (Dict.set ds ch (Retrieve.mergeArr cur new)) ch' r a =
          if ch' = ch then (Retrieve.mergeArr cur new).cell r a else cellOf ds ch' r a := by
        intro ch' r a
        unfold cellOf
        rw [Dict.get?_set]
        by_cases e : ch' = ch <;> simp [e]
      have hcurOf : ∀ r a, cellOf ds ch r a = cur.cell r a := by
        intro r a; simp [cellOf, hg]
      have hnn : ∀ v : Out, v ≠ .nan → v.isNan = false := by
        intro v hv
        cases hv2 : v.isNan
        · rfl
        · exact absurd ((Retrieve.isNan_iff v).mp hv2) hv
      refine ⟨Dict.keys_set_nodup I.nodup _ _, ?_, ?_, ?_, ?_, ?_⟩
      · intro ch' arr harr
        rw [Dict.get?_set] at harr
        by_cases e : ch' = ch
        · subst e
          simp only [if_true, Option.some.injEq] at harr
          subst harr
          refine ⟨c, hc, hmrows, hcreps, ?_⟩
          intro r hr a
          rw [hmrows] at hr
          rw [Retrieve.merge_cell (by omega), hmidx]
          split <;> simp_all
        · rw [if_neg e] at harr; exact I.ok ch' arr harr
      · intro ch' a
        rw [hmem, ← I.idx ch' a, Dict.get?_set]
        by_cases e : ch' = ch
        · subst e
          simp only [if_true, Option.some.injEq, exists_eq_left', true_and, hg]
          rw [hmidx]
        · simp only [if_neg e, Ne.symm e, false_and, or_false]
      · intro e he r a v hv hne
        rw [hlook]
        rcases List.mem_append.mp he with he' | he'
        · by_cases e1 : e.1 = ch
          · have hk := I.kept e he' r a v hv hne
            rw [e1, hcurOf] at hk
            have hr := cell_lt hk
            have ha : a ∈ cur.idx := (hcurcell r hr a).mpr (by simp [hk])
            rw [if_pos e1, Retrieve.merge_cell hr, if_pos (.inl ha), hk]
            cases new.cell r a <;> simp [Retrieve.pick, hnn v hne]
          · rw [if_neg e1]; exact I.kept e he' r a v hv hne
        · rw [List.mem_singleton.mp he'] at hv ⊢
          rw [if_pos rfl]
          simp only at hv
          have hr := cell_lt hv
          have han : a ∈ new.idx := (hcell r hr a).mpr (by simp [hv])
          have hr' : r < cur.rows.length := by omega
          rw [Retrieve.merge_cell hr', if_pos (.inr han), hv]
          cases hcc : cur.cell r a with
          | none => rfl
          | some x =>
            have hac : a ∈ cur.idx := (hcurcell r hr' a).mpr (by simp [hcc])
            have hb := Retrieve.conflict_sound (Bool.eq_false_iff.mpr hcf) (hbound r (by omega)) han hac
            have hx : x = .nan := by
              by_contra hx
              have : Retrieve.bothAt new cur r a = true := Retrieve.bothAt_iff.mpr ⟨v, x, hv, hcc, hne, hx⟩
              rw [hb] at this; simp at this
            subst hx
            rfl
      · intro ch' r a o ho
        rw [hlook] at ho
        rw [hmem]
        by_cases e : ch' = ch
        · subst e
          rw [if_pos rfl] at ho
          have hr : r < cur.rows.length := by
            have := cell_lt ho
            omega
          rw [Retrieve.merge_cell hr] at ho
          have hI := I.origin ch' r a
          rw [hcurOf] at hI
          split at ho
          case isFalse => simp at ho
          case isTrue hin =>
            cases h1 : cur.cell r a with
            | none =>
              cases h2 : new.cell r a with
              | none =>
                rcases hin with hin | hin
                · have := (hcurcell r hr a).mp hin
                  rw [h1] at this; simp at this
                · have := (hcell r (by omega) a).mp hin
                  rw [h2] at this; simp at this
              | some y =>
                rw [h1, h2] at ho
                simp only [Retrieve.pick, Option.some.injEq] at ho
                subst ho
                exact .inr ⟨rfl, rfl⟩
            | some x =>
              cases h2 : new.cell r a with
              | none =>
                rw [h1, h2] at ho
                simp only [Retrieve.pick, Option.some.injEq] at ho
                subst ho
                exact .inl (hI x h1)
              | some y =>
                rw [h1, h2] at ho
                simp only [Retrieve.pick, Option.some.injEq] at ho
                split at ho
                · subst ho; exact .inr ⟨rfl, rfl⟩
                · subst ho; exact .inl (hI x h1)
        · rw [if_neg e] at ho
          exact .inl (I.origin ch' r a o ho)
      · intro ch'
        rw [hmem, ← I.chan ch', Dict.get?_set]
        by_cases e : ch' = ch
        · subst e; simp [hg]
        · simp only [if_neg e, Ne.symm e, or_false]

theorem merged_all {chans : Nat → Option Chan} {reps : Nat} : ∀ (new done ds ds' : List (Nat × Arr)),
    Merged chans reps done ds → (∀ e ∈ new, ArrOk chans reps e.1 e.2) → addAll ds new = .ok ds' →
    Merged chans reps (done ++ new) ds'
  | [], done, ds, ds', I, _, h => by
    have : ds = ds' := Except.ok.inj h
    subst this
    simpa using I
  | e :: new, done, ds, ds', I, hok, h => by
    have h : (addOne ds e >>= fun d => addAll d new) = .ok ds' := h
    cases h1 : addOne ds e with
    | error x => rw [h1] at h; simp [bind, Except.bind] at h
    | ok d =>
      rw [h1] at h
      have I' := merged_step I (hok e (by simp)) h1
      have := merged_all new _ d ds' I' (fun e he => hok e (List.mem_cons_of_mem _ he)) h
      simpa using this

/-- Data that a component may have. -/
def dataList : Option (List (Nat × Arr)) → List (Nat × Arr)
  | none => []
  | some l => l

theorem merged_data {chans : Nat → Option Chan} {reps : Nat} {new : Option (List (Nat × Arr))}
    {done ds ds' : List (Nat × Arr)} (I : Merged chans reps done ds)
    (hok : ∀ e ∈ dataList new, ArrOk chans reps e.1 e.2) (h : addData ds new = .ok ds') :
    Merged chans reps (done ++ dataList new) ds' := by
  cases new with
  | none =>
    have : ds = ds' := Except.ok.inj h
    subst this
    simpa [dataList] using I
  | some l => exact merged_all l done ds ds' I hok h

/-- The result of merging is again of this form. -/
theorem Merged.arrs {chans : Nat → Option Chan} {reps : Nat} {done ds : List (Nat × Arr)}
    (I : Merged chans reps done ds) : ∀ e ∈ ds, ArrOk chans reps e.1 e.2 :=
  fun e he => I.ok e.1 e.2 (Dict.get?_of_mem I.nodup he)

/-! ### The data of a module -/

section
open Retrieve

theorem addJobs_nodup {mod : Retrieve.Module} {chans : Nat → Option Chan} {reps : Nat} :
    ∀ (jobs : List (Seq × Nat × Mapping)) (ds ds' : List (Nat × Arr)), (ds.map Prod.fst).Nodup →
    addJobs mod chans reps jobs ds = .ok ds' → (ds'.map Prod.fst).Nodup
  | [], ds, ds', hn, h => by
    have : ds = ds' := Except.ok.inj h
    exact this ▸ hn
  | j :: js, ds, ds', hn, h => by
    simp only [addJobs, bind_ok] at h
    obtain ⟨d, h1, h2⟩ := h
    refine addJobs_nodup js d ds' ?_ h2
    unfold addJob at h1
    cases hc : chans j.2.1 with
    | none => simp [hc] at h1
    | some c =>
      simp only [hc, bind_ok] at h1
      obtain ⟨new, _, h1⟩ := h1
      cases hg : Dict.get? ds j.2.1 with
      | none =>
        simp only [hg] at h1
        exact Except.ok.inj h1 ▸ Dict.keys_set_nodup hn _ _
      | some cur =>
        simp only [hg] at h1
        split at h1
        · simp at h1
        · exact Except.ok.inj h1 ▸ Dict.keys_set_nodup hn _ _

theorem retrieve_nodup {mod : Retrieve.Module} {chans : Nat → Option Chan} {reps : Nat}
    {jobs : List (Seq × Nat × Mapping)} {ds : List (Nat × Arr)} (h : retrieve mod chans reps jobs = .ok ds) :
    (ds.map Prod.fst).Nodup := by
  simp only [retrieve, bind_ok] at h
  obtain ⟨_, _, h⟩ := h
  exact addJobs_nodup jobs [] ds (by simp) h

theorem retrieve_arrs {mod : Retrieve.Module} {chans : Nat → Option Chan} {reps : Nat}
    {jobs : List (Seq × Nat × Mapping)} {ds : List (Nat × Arr)} (h : retrieve mod chans reps jobs = .ok ds) :
    ∀ e ∈ ds, ArrOk chans reps e.1 e.2 := by
  intro e he
  have I := inv_retrieve h
  have hg := Dict.get?_of_mem (retrieve_nodup h) he
  obtain ⟨c, h1, h2, h3⟩ := I.shape e.1 e.2 hg
  exact ⟨c, h1, h2, h3, I.cell e.1 e.2 hg⟩

theorem retrieve_cell {mod : Retrieve.Module} {chans : Nat → Option Chan} {reps : Nat}
    {jobs : List (Seq × Nat × Mapping)} {ds : List (Nat × Arr)} (h : retrieve mod chans reps jobs = .ok ds)
    {e : Nat × Arr} (he : e ∈ ds) (r a : Nat) : cellOf ds e.1 r a = e.2.cell r a := by
  simp [cellOf, Dict.get?_of_mem (retrieve_nodup h) he]

end

end Verif.Lifecycle
