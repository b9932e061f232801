import Verif.Retrieve.Spec
import Mathlib.Tactic.Linarith
import Mathlib.Algebra.Order.Floor.Ring
import Mathlib.Data.Rat.Floor

set_option linter.unusedSimpArgs false
set_option linter.unusedVariables false

namespace Verif.Retrieve

open Verif.Numeric (pyRound)

theorem bind_ok {α β : Type} {x : Except Err α} {f : α → Except Err β} {b : β} :
    (x >>= f) = .ok b ↔ ∃ a, x = .ok a ∧ f a = .ok b := by
  cases x with
  | error e => simp [bind, Except.bind]
  | ok a => simp [bind, Except.bind]

theorem mapM_ok {α β : Type} (f : α → Except Err β) : ∀ (l : List α) (r : List β),
    l.mapM f = .ok r ↔ List.Forall₂ (fun a b => f a = .ok b) l r
  | [], r => by
    constructor
    · intro h
      have : r = [] := by simpa [pure, Except.pure] using h.symm
      subst this; exact .nil
    · intro h; cases h; rfl
  | a :: l, r => by
    rw [List.mapM_cons, bind_ok]
    constructor
    · rintro ⟨b, hb, h⟩
      rw [bind_ok] at h
      obtain ⟨bs, hbs, h⟩ := h
      have : r = b :: bs := by simpa [pure, Except.pure] using h.symm
      subst this
      exact .cons hb ((mapM_ok f l bs).mp hbs)
    · intro h
      cases h with
      | cons hb hbs => exact ⟨_, hb, bind_ok.mpr ⟨_, (mapM_ok f l _).mpr hbs, rfl⟩⟩

theorem pyInt_ok {v : Val} {n : Int} (h : pyInt v = .ok n) : ∃ x, v = some x ∧ Truncated x n := by
  cases v with
  | none => simp [pyInt] at h
  | some x =>
    refine ⟨x, rfl, ?_⟩
    simp only [pyInt, Except.ok.injEq] at h
    by_cases hx : x < 0
    · rw [if_pos hx] at h
      subst h
      right
      have h1 := Int.floor_le (-x)
      have h2 := Int.lt_floor_add_one (-x)
      refine ⟨hx, ?_, ?_⟩ <;> push_cast <;> linarith
    · rw [if_neg hx] at h
      subst h
      left
      exact ⟨not_lt.mp hx, Int.floor_le x, Int.lt_floor_add_one x⟩

theorem nth_ok {l : List Val} {k : Nat} {v : Val} (h : nth l k = .ok v) : l[k]? = some v := by
  unfold nth at h
  cases hl : l[k]? with
  | none => rw [hl] at h; simp at h
  | some w => rw [hl] at h; simp at h; rw [h]

theorem complexOf_shows (i q : Val) : ShowsComplex i q (fun x y => (x, y)) (complexOf i q) := by
  constructor
  · rintro x y rfl rfl; rfl
  · rintro (rfl | rfl)
    · rfl
    · cases i <;> rfl

theorem sumOf_shows (i q : Val) : ShowsComplex i q (fun x y => (x + y, 0)) (sumOf i q) := by
  constructor
  · rintro x y rfl rfl; rfl
  · rintro (rfl | rfl)
    · rfl
    · cases i <;> rfl

theorem separated_shows {b : BinData} {k : Nat} {o : Out} (h : binSeparated b k = .ok o) :
    ∃ i q, b.path0[k]? = some i ∧ b.path1[k]? = some q ∧ o = complexOf i q := by
  simp only [binSeparated, bind_ok] at h
  obtain ⟨i, hi, q, hq, h⟩ := h
  exact ⟨i, q, nth_ok hi, nth_ok hq, (Except.ok.inj h).symm⟩

theorem threshold_shows {b : BinData} {k : Nat} {o : Out} (h : binThreshold b k = .ok o) :
    ∃ v, b.threshold[k]? = some v ∧ (∀ x, v = some x → o = .real x) ∧ (v = none → o = .int (-1)) := by
  simp only [binThreshold, bind_ok] at h
  obtain ⟨v, hv, h⟩ := h
  have h := Except.ok.inj h
  refine ⟨v, nth_ok hv, ?_, ?_⟩
  · rintro x rfl; exact h.symm
  · rintro rfl; exact h.symm

theorem count_shows {mult : Bool} {mode : BinMode} {reps : Nat} {b : BinData} {k : Nat} {o : Out}
    (h : binCount mult mode reps b k = .ok o) :
    ∃ x n, b.counts[k]? = some (some x) ∧ Truncated x n ∧
      o = .int (if mult = true ∧ mode = .sum then reps * n else n) := by
  simp only [binCount, bind_ok] at h
  obtain ⟨v, hv, n, hn, h⟩ := h
  obtain ⟨x, rfl, ht⟩ := pyInt_ok hn
  exact ⟨x, n, nth_ok hv, ht, (Except.ok.inj h).symm⟩

theorem countThreshold_shows {m : Option (Condition × Int)} {b : BinData} {k : Nat} {o : Out}
    (h : binCountThreshold m b k = .ok o) :
    ∃ v cond t, m = some (cond, t) ∧ b.counts[k]? = some v ∧ (v = none → o = .int (-1)) ∧
      (∀ x, v = some x → o = .int 0 ∨ o = .int 1) ∧
      (∀ x, v = some x → (o = .int 1 ↔
        match cond with
        | .greaterThanEqual => t ≤ pyRound x
        | .lessThan => pyRound x < t)) := by
  cases m with
  | none => simp [binCountThreshold] at h
  | some m =>
    obtain ⟨cond, t⟩ := m
    simp only [binCountThreshold, bind_ok] at h
    obtain ⟨v, hv, h⟩ := h
    have h := Except.ok.inj h
    refine ⟨v, cond, t, rfl, nth_ok hv, ?_, ?_, ?_⟩
    · rintro rfl; exact h.symm
    · rintro x rfl
      subst h
      cases cond <;> simp only [compareCount] <;> split <;> simp
    · rintro x rfl
      subst h
      cases cond <;> simp only [compareCount] <;> split <;> simp_all

theorem timetag_shows {b : BinData} {k : Nat} {o : Out} (h : binTimetag b k = .ok o) :
    ∃ v, b.timedelta[k]? = some v ∧ (∀ x, v = some x → o = .real (x / 2048)) ∧ (v = none → o = .nan) := by
  simp only [binTimetag, bind_ok] at h
  obtain ⟨v, hv, h⟩ := h
  have h := Except.ok.inj h
  refine ⟨v, nth_ok hv, ?_, ?_⟩
  · rintro x rfl; exact h.symm
  · rintro rfl; exact h.symm

theorem amplitude_shows {dur : Nat} {b : BinData} {k : Nat} {o : Out} (h : binAmplitude dur b k = .ok o) :
    ∃ i q, b.path0[k]? = some i ∧ b.path1[k]? = some q ∧
      ShowsComplex i q (fun x y => (x / dur, y / dur)) o := by
  simp only [binAmplitude, bind_ok] at h
  obtain ⟨o', ho', h⟩ := h
  obtain ⟨i, q, hi, hq, rfl⟩ := separated_shows ho'
  refine ⟨i, q, hi, hq, ?_⟩
  by_cases hd : dur = 0
  · cases i <;> cases q <;> simp [complexOf, divideBy, hd] at h
  · cases i <;> cases q <;> simp [complexOf, divideBy, hd] at h <;> subst h <;> simp [ShowsComplex]

/-- What is read from a bin. -/
theorem readBin_shows {mod : Module} {c : Chan} {reps : Nat} {s : Seq} {e : Entry} {bin : Nat} {o : Out}
    (h : readBin mod c reps s e bin = .ok o) :
    ∃ hw, s.hw e.index = some hw ∧ hw.index = e.index ∧
      Shows mod c reps s.dur e.meta? hw.bins bin o := by
  simp only [readBin, bind_ok] at h
  obtain ⟨f, hf, b, hb, h⟩ := h
  unfold getBinData at hb
  cases hhw : s.hw e.index with
  | none => rw [hhw] at hb; simp at hb
  | some hw =>
    rw [hhw] at hb
    simp only at hb
    by_cases hi : hw.index = e.index
    · rw [if_neg (by simpa using hi)] at hb
      have hb := Except.ok.inj hb
      subst hb
      refine ⟨hw, rfl, hi, ?_⟩
      unfold Shows
      cases mod <;> cases hp : c.protocol <;> simp only [binFunction, hp] at hf <;>
        first
        | (have hf := Except.ok.inj hf; subst hf)
        | (exact absurd hf (by simp))
      case qrm.ssbIntegrationComplex => exact amplitude_shows h
      case qrm.weightedIntegratedSeparated =>
        obtain ⟨i, q, h1, h2, rfl⟩ := separated_shows h
        exact ⟨i, q, h1, h2, complexOf_shows i q⟩
      case qrm.numericalSeparatedWeightedIntegration =>
        obtain ⟨i, q, h1, h2, rfl⟩ := separated_shows h
        exact ⟨i, q, h1, h2, complexOf_shows i q⟩
      case qrm.numericalWeightedIntegration =>
        simp only [binReal, bind_ok] at h
        obtain ⟨i, hi, q, hq, h⟩ := h
        have h := Except.ok.inj h
        subst h
        exact ⟨i, q, nth_ok hi, nth_ok hq, sumOf_shows i q⟩
      case qrm.thresholdedAcquisition => exact threshold_shows h
      case qrm.weightedThresholdedAcquisition => exact threshold_shows h
      case qrm.triggerCount => simpa using count_shows h
      case qrm.thresholdedTriggerCount => exact countThreshold_shows h
      case qtm.triggerCount => simpa using count_shows h
      case qtm.thresholdedTriggerCount => exact countThreshold_shows h
      case qtm.dualThresholdedTriggerCount => simpa using count_shows h
      case qtm.timetag => exact timetag_shows h
    · rw [if_pos (by simpa using hi)] at hb
      simp at hb

/-! ### One channel -/

theorem zip_lookup {f : Nat × Entry → Except Err Out} : ∀ {m : Mapping} {row : List Out},
    List.Forall₂ (fun x o => f x = .ok o) m row → ∀ a,
    match Dict.get? m a with
    | none => Dict.get? ((m.map Prod.fst).zip row) a = none
    | some e => ∃ o, f (a, e) = .ok o ∧ Dict.get? ((m.map Prod.fst).zip row) a = some o
  | [], _, h, a => by cases h; simp [Dict.get?_nil]
  | (k, e) :: m, _, h, a => by
    cases h with
    | cons hb hbs =>
      rename_i o row
      have ih := zip_lookup hbs a
      simp only [List.map_cons, List.zip_cons_cons, Dict.get?_cons]
      by_cases hk : k = a
      · subst hk
        simp only [if_true]
        exact ⟨o, hb, rfl⟩
      · simp only [if_neg hk]
        exact ih

theorem mode_cases {mod : Module} {c : Chan} {l : List BinMode} (hl : compatibleModes mod c.protocol = some l)
    (hm : c.mode ∈ l) :
    (binnedAverage c.protocol c.mode = true → c.mode ≠ .append) ∧
    (binnedAppend c.protocol c.mode = true → c.mode = .append) := by
  cases hp : c.protocol <;> cases hmo : c.mode <;> simp [binnedAverage, binnedAppend]

/-- The data of one channel. -/
theorem channel_cell {mod : Module} {c : Chan} {reps : Nat} {s : Seq} {m : Mapping} {arr : Arr}
    (h : channelData mod c reps s m = .ok arr) :
    arr.idx = m.map Prod.fst ∧ arr.rows.length = c.rows reps ∧
    (arr.reps = if c.mode = .append then some reps else none) ∧
    ∀ r, r < c.rows reps → ∀ a,
      match Dict.get? m a with
      | none => arr.cell r a = none
      | some e => ∃ o, readBin mod c reps s e (e.binOf c r) = .ok o ∧ arr.cell r a = some o := by
  unfold channelData at h
  split at h
  case isFalse => simp at h
  unfold getBinned at h
  split at h
  case isTrue havg =>
    have hmode : c.mode ≠ .append := by
      cases hp : c.protocol <;> cases hmo : c.mode <;> simp [binnedAverage, hp, hmo] at havg <;> simp
    rw [bind_ok] at h
    obtain ⟨row, hrow, h⟩ := h
    have h := Except.ok.inj h
    subst h
    rw [mapM_ok] at hrow
    refine ⟨rfl, by simp [Chan.rows, hmode], by simp [hmode], ?_⟩
    intro r hr a
    simp only [Chan.rows, if_neg hmode] at hr
    have : r = 0 := by omega
    subst this
    have := zip_lookup hrow a
    simpa [Arr.cell, Entry.binOf, hmode] using this
  case isFalse =>
    split at h
    case isTrue happ =>
      have hmode : c.mode = .append := by
        cases hp : c.protocol <;> cases hmo : c.mode <;> simp [binnedAppend, hp, hmo] at happ <;> simp
      rw [bind_ok] at h
      obtain ⟨rows, hrows, h⟩ := h
      have h := Except.ok.inj h
      subst h
      rw [mapM_ok] at hrows
      have hlen : rows.length = reps := by
        have := hrows.length_eq
        simpa using this.symm
      refine ⟨rfl, by simp [Chan.rows, hmode, hlen], by simp [hmode], ?_⟩
      intro r hr a
      simp only [Chan.rows, if_pos hmode] at hr
      have hget := (List.forall₂_iff_get.mp hrows).2 r (by simpa using hr) (by omega)
      simp only [List.get_eq_getElem, List.getElem_range] at hget
      rw [mapM_ok] at hget
      have := zip_lookup hget a
      have hr2 : rows[r]? = some (rows[r]'(by omega)) := List.getElem?_eq_getElem _
      simpa [Arr.cell, hr2, Entry.binOf, hmode] using this
    case isFalse => simp at h

theorem cell_none_of_ge {a : Arr} {r acq : Nat} (h : a.rows.length ≤ r) : a.cell r acq = none := by
  simp [Arr.cell, List.getElem?_eq_none h]

/-! ### Merging -/

theorem zip_map_lookup {f : Nat → Out} : ∀ (l : List Nat) (a : Nat),
    Dict.get? (l.zip (l.map f)) a = if a ∈ l then some (f a) else none
  | [], a => by simp [Dict.get?_nil]
  | b :: l, a => by
    simp only [List.map_cons, List.zip_cons_cons, Dict.get?_cons, zip_map_lookup l a, List.mem_cons]
    by_cases h : b = a
    · subst h; simp
    · have : ¬ a = b := fun h' => h h'.symm
      simp [h, this]

theorem merge_cell {cur new : Arr} {r : Nat} (hr : r < cur.rows.length) (a : Nat) :
    (mergeArr cur new).cell r a =
      if a ∈ cur.idx ∨ a ∈ new.idx then some (pick (cur.cell r a) (new.cell r a)) else none := by
  have h1 : ((List.range cur.rows.length).map (fun r =>
      (cur.idx ++ new.idx.filter (fun i => !cur.idx.contains i)).map
        (fun i => pick (cur.cell r i) (new.cell r i))))[r]? =
      some ((cur.idx ++ new.idx.filter (fun i => !cur.idx.contains i)).map
        (fun i => pick (cur.cell r i) (new.cell r i))) := by
    simp [hr]
  have h2 : (mergeArr cur new).cell r a = (((List.range cur.rows.length).map (fun r =>
      (cur.idx ++ new.idx.filter (fun i => !cur.idx.contains i)).map
        (fun i => pick (cur.cell r i) (new.cell r i))))[r]?).bind (fun l =>
          Dict.get? ((cur.idx ++ new.idx.filter (fun i => !cur.idx.contains i)).zip l) a) := rfl
  rw [h2, h1, Option.bind_some, zip_map_lookup]
  congr 1
  simp only [List.mem_append, List.mem_filter, List.contains_iff_mem, Bool.not_eq_true', eq_iff_iff,
    decide_eq_false_iff_not]
  by_cases h : a ∈ cur.idx <;> simp [h]

theorem bothAt_iff {a b : Arr} {r i : Nat} : bothAt a b r i = true ↔
    ∃ x y, a.cell r i = some x ∧ b.cell r i = some y ∧ x ≠ .nan ∧ y ≠ .nan := by
  have hn : ∀ x : Out, x.isNan = false ↔ x ≠ .nan := by intro x; cases x <;> simp [Out.isNan]
  unfold bothAt
  cases ha : a.cell r i <;> cases hb : b.cell r i <;> simp [hn]

/-- Without a reported conflict there is no conflict. -/
theorem conflict_sound {new cur : Arr} (h : conflict new cur = false) {r i : Nat}
    (hr : r < match new.reps with | none => 1 | some n => n) (h1 : i ∈ new.idx) (h2 : i ∈ cur.idx) :
    bothAt new cur r i = false := by
  have hc : i ∈ new.idx.filter (fun i => cur.idx.contains i) := by
    simp [h1, h2]
  unfold conflict at h
  cases hreps : new.reps with
  | none =>
    rw [hreps] at h hr
    simp only at h hr
    have : r = 0 := by omega
    subst this
    rw [List.any_eq_false] at h
    exact Bool.eq_false_iff.mpr (h i hc)
  | some n =>
    rw [hreps] at h hr
    simp only at h hr
    rw [if_neg (by omega)] at h
    generalize hcommon : new.idx.filter (fun i => cur.idx.contains i) = common at h hc
    match common, h, hc with
    | [], _, hc => simp at hc
    | [j], h, hc =>
      have := List.mem_singleton.mp hc
      subst this
      simp only at h
      rw [List.any_eq_false] at h
      exact Bool.eq_false_iff.mpr (h r (by simpa using hr))
    | _ :: _ :: _, h, _ => simp at h

end Verif.Retrieve
