/-
Starts and ends of operations, and which operations are compared.
-/
import Verif.Overlap.Spec
import Mathlib.Tactic.Linarith

set_option linter.unusedSimpArgs false
set_option linter.unusedVariables false

namespace Verif.Overlap

open Verif.StableSort

/-- `v` is the span of the entries `l`. -/
def IsSpan (abs : Rat) (l : List Info) (v : Rat × Rat) : Prop :=
  (∃ i ∈ l, v.1 = abs + i.t0) ∧ (∀ i ∈ l, v.1 ≤ abs + i.t0) ∧
  (∃ i ∈ l, v.2 = abs + i.t0 + i.dur) ∧ (∀ i ∈ l, abs + i.t0 + i.dur ≤ v.2)

theorem lookup_extend (pc pc' : String × String) (s e : Rat) :
    ∀ d, lookup pc' (extend pc s e d) = if pc = pc' then
        (match lookup pc d with
          | none => some (s, e)
          | some v => some (min s v.1, max e v.2))
      else lookup pc' d
  | [] => by
    by_cases h : pc = pc'
    · simp [extend, lookup, h]
    · simp [extend, lookup, h]
  | (k, s', e') :: d => by
    by_cases hk : k = pc
    · subst hk
      by_cases h : k = pc'
      · subst h; simp [extend, lookup]
      · simp [extend, lookup, h]
    · by_cases h : pc = pc'
      · subst h
        have := lookup_extend pc pc s e d
        simp only [if_true] at this
        simp [extend, lookup, hk, this]
      · have := lookup_extend pc pc' s e d
        rw [if_neg h] at this
        simp only [extend, lookup, if_neg hk, this, if_neg h]

/-- The entries on a port-clock. -/
def onList (l : List Info) (pc : String × String) : List Info :=
  l.filter (fun i => (i.wave || i.offset) && decide ((i.port, i.clock) = pc))

theorem fold_spans (abs : Rat) (pc : String × String) : ∀ (l done : List Info) (d : List _),
    (match lookup pc d with
      | none => onList done pc = []
      | some v => IsSpan abs (onList done pc) v) →
    (match lookup pc (l.foldl (fun d i =>
        if !i.wave && !i.offset then d
        else extend (i.port, i.clock) (abs + i.t0) (abs + i.t0 + i.dur) d) d) with
      | none => onList (done ++ l) pc = []
      | some v => IsSpan abs (onList (done ++ l) pc) v)
  | [], done, d, h => by simpa using h
  | i :: l, done, d, h => by
    rw [List.foldl_cons]
    have e : done ++ i :: l = (done ++ [i]) ++ l := by simp
    rw [e]
    apply fold_spans abs pc l (done ++ [i])
    have hon : onList (done ++ [i]) pc = onList done pc ++ onList [i] pc := by
      simp [onList]
    rw [hon]
    by_cases hi : (!i.wave && !i.offset) = true
    · rw [if_pos hi]
      have : onList [i] pc = [] := by
        simp only [Bool.and_eq_true, Bool.not_eq_true'] at hi
        simp [onList, hi.1, hi.2]
      rw [this, List.append_nil]
      exact h
    · rw [if_neg hi, lookup_extend]
      have hwo : (i.wave || i.offset) = true := by
        revert hi
        cases i.wave <;> cases i.offset <;> simp
      by_cases hpc : (i.port, i.clock) = pc
      · rw [if_pos hpc]
        have hone : onList [i] pc = [i] := by simp [onList, hwo, hpc]
        rw [hone, hpc]
        cases hl : lookup pc d with
        | none =>
          rw [hl] at h
          simp only at h ⊢
          rw [h]
          simp [IsSpan]
        | some v =>
          rw [hl] at h
          simp only at h ⊢
          obtain ⟨⟨i1, hi1, h1⟩, h2, ⟨i3, hi3, h3⟩, h4⟩ := h
          refine ⟨?_, ?_, ?_, ?_⟩
          · rcases le_total (abs + i.t0) v.1 with hle | hle
            · exact ⟨i, by simp, min_eq_left hle⟩
            · exact ⟨i1, by simp [hi1], by simp only [min_eq_right hle]; exact h1⟩
          · intro j hj
            simp only
            rcases List.mem_append.mp hj with hj | hj
            · exact le_trans (min_le_right _ _) (h2 j hj)
            · rw [List.mem_singleton.mp hj]; exact min_le_left _ _
          · rcases le_total (abs + i.t0 + i.dur) v.2 with hle | hle
            · exact ⟨i3, by simp [hi3], by simp only [max_eq_right hle]; exact h3⟩
            · exact ⟨i, by simp, max_eq_left hle⟩
          · intro j hj
            simp only
            rcases List.mem_append.mp hj with hj | hj
            · exact le_trans (h4 j hj) (le_max_right _ _)
            · rw [List.mem_singleton.mp hj]; exact le_max_left _ _
      · rw [if_neg hpc]
        have hone : onList [i] pc = [] := by simp [onList, hpc]
        rw [hone, List.append_nil]
        exact h

/-- The span of an operation on a port-clock. -/
theorem lookup_startEnds (abs : Rat) (p : Plain) (pc : String × String) :
    match lookup pc (startEnds abs p) with
    | none => p.on pc = []
    | some v => IsSpan abs (p.on pc) v := by
  have := fold_spans abs pc p.infos [] [] (by simp [lookup, onList])
  simpa [startEnds, Plain.on, onList] using this

theorem extend_keys (pc : String × String) (s e : Rat) : ∀ d,
    (extend pc s e d).map Prod.fst =
      if pc ∈ d.map Prod.fst then d.map Prod.fst else d.map Prod.fst ++ [pc]
  | [] => by simp [extend]
  | (k, s', e') :: d => by
    by_cases hk : k = pc
    · simp [extend, hk]
    · have ih := extend_keys pc s e d
      have hk' : ¬ pc = k := fun h => hk h.symm
      simp only [extend, if_neg hk, List.map_cons, ih, List.mem_cons, hk', false_or]
      split <;> simp

theorem startEnds_nodup (abs : Rat) (p : Plain) : ((startEnds abs p).map Prod.fst).Nodup := by
  unfold startEnds
  have : ∀ (l : List Info) (d : List ((String × String) × Rat × Rat)), (d.map Prod.fst).Nodup →
      ((l.foldl (fun d i => if !i.wave && !i.offset then d
        else extend (i.port, i.clock) (abs + i.t0) (abs + i.t0 + i.dur) d) d).map Prod.fst).Nodup := by
    intro l
    induction l with
    | nil => intro d h; exact h
    | cons i l ih =>
      intro d h
      rw [List.foldl_cons]
      apply ih
      split
      · exact h
      · rw [extend_keys]
        split
        · exact h
        · rename_i hn
          rw [List.nodup_append]
          refine ⟨h, by simp, ?_⟩
          intro a ha b hb
          rw [List.mem_singleton.mp hb]
          exact fun hab => hn (hab ▸ ha)
  exact this p.infos [] (by simp)

theorem lookup_mem : ∀ {d : List ((String × String) × Rat × Rat)}, (d.map Prod.fst).Nodup →
    ∀ {k v}, (k, v) ∈ d ↔ lookup k d = some v
  | [], _, k, v => by simp [lookup]
  | (k', v') :: d, hn, k, v => by
    rw [List.map_cons, List.nodup_cons] at hn
    rw [lookup, List.mem_cons]
    by_cases hk : k' = k
    · subst hk
      rw [if_pos rfl]
      constructor
      · rintro (h | h)
        · simp only [Prod.mk.injEq, true_and] at h; rw [h]
        · exact absurd (List.mem_map_of_mem (f := Prod.fst) h) hn.1
      · intro h
        rw [Option.some.injEq] at h
        exact .inl (by rw [h])
    · rw [if_neg hk]
      constructor
      · rintro (h | h)
        · simp only [Prod.mk.injEq] at h; exact absurd h.1.symm hk
        · exact (lookup_mem hn.2).mp h
      · intro h
        exact .inr ((lookup_mem hn.2).mpr h)

/-! ### The comparison of two operations -/

/-- The span of an operation on a port-clock, as a relation. -/
def Span (e : Rat × Plain) (pc : String × String) (v : Rat × Rat) : Prop := IsSpan e.1 (e.2.on pc) v

theorem span_unique {e : Rat × Plain} {pc : String × String} {v w : Rat × Rat} (h : Span e pc v)
    (h' : Span e pc w) : v = w := by
  obtain ⟨⟨i1, hi1, h1⟩, h2, ⟨i3, hi3, h3⟩, h4⟩ := h
  obtain ⟨⟨j1, hj1, g1⟩, g2, ⟨j3, hj3, g3⟩, g4⟩ := h'
  refine Prod.ext ?_ ?_
  · apply le_antisymm
    · rw [g1]; exact h2 j1 hj1
    · rw [h1]; exact g2 i1 hi1
  · apply le_antisymm
    · rw [h3]; exact g4 i3 hi3
    · rw [g3]; exact h4 j3 hj3

theorem span_lookup {e : Rat × Plain} {pc : String × String} {v : Rat × Rat} :
    lookup pc (startEnds e.1 e.2) = some v ↔ Span e pc v := by
  have := lookup_startEnds e.1 e.2 pc
  constructor
  · intro h; rw [h] at this; exact this
  · intro h
    cases hl : lookup pc (startEnds e.1 e.2) with
    | none =>
      rw [hl] at this
      simp only at this
      obtain ⟨⟨i, hi, _⟩, _⟩ := h
      rw [this] at hi
      simp at hi
    | some w =>
      rw [hl] at this
      rw [span_unique this h]

theorem within_span {e : Rat × Plain} {pc : String × String} {v : Rat × Rat} (h : Span e pc v)
    (t : Rat) : Within e pc t ↔ v.1 < t ∧ t < v.2 := by
  obtain ⟨⟨i1, hi1, h1⟩, h2, ⟨i3, hi3, h3⟩, h4⟩ := h
  constructor
  · rintro ⟨⟨i, hi, ht⟩, ⟨j, hj, ht'⟩⟩
    exact ⟨lt_of_le_of_lt (h2 i hi) ht, lt_of_lt_of_le ht' (h4 j hj)⟩
  · rintro ⟨ha, hb⟩
    exact ⟨⟨i1, hi1, by rw [← h1]; exact ha⟩, ⟨i3, hi3, by rw [← h3]; exact hb⟩⟩

theorem during_span {e : Rat × Plain} {pc : String × String} {v : Rat × Rat} (h : Span e pc v)
    (t : Rat) : During e pc t ↔ v.1 ≤ t ∧ t ≤ v.2 := by
  obtain ⟨⟨i1, hi1, h1⟩, h2, ⟨i3, hi3, h3⟩, h4⟩ := h
  constructor
  · rintro ⟨⟨i, hi, ht⟩, ⟨j, hj, ht'⟩⟩
    exact ⟨le_trans (h2 i hi) ht, le_trans ht' (h4 j hj)⟩
  · rintro ⟨ha, hb⟩
    exact ⟨⟨i1, hi1, by rw [← h1]; exact ha⟩, ⟨i3, hi3, by rw [← h3]; exact hb⟩⟩

theorem span_exists {e : Rat × Plain} {pc : String × String} {i : Info} (h : i ∈ e.2.on pc) :
    ∃ v, Span e pc v := by
  have := lookup_startEnds e.1 e.2 pc
  cases hl : lookup pc (startEnds e.1 e.2) with
  | none =>
    rw [hl] at this
    simp only at this
    rw [this] at h
    simp at h
  | some w => rw [hl] at this; exact ⟨w, this⟩

theorem raises_spans (a b : Rat × Plain) :
    raises a b = true ↔ ∃ pc v w, Span a pc v ∧ Span b pc w ∧ overlapping v w = true := by
  unfold raises
  rw [List.any_eq_true]
  constructor
  · rintro ⟨⟨pc, v⟩, hm, h⟩
    simp only at h
    cases hl : lookup pc (startEnds b.1 b.2) with
    | none => rw [hl] at h; simp at h
    | some w =>
      rw [hl] at h
      exact ⟨pc, v, w, span_lookup.mp ((lookup_mem (startEnds_nodup _ _)).mp hm), span_lookup.mp hl, h⟩
  · rintro ⟨pc, v, w, hv, hw, h⟩
    refine ⟨(pc, v), (lookup_mem (startEnds_nodup _ _)).mpr (span_lookup.mpr hv), ?_⟩
    simp only
    rw [span_lookup.mpr hw]
    exact h

theorem overlapping_iff {v w : Rat × Rat} (hv : v.1 ≤ v.2) (hw : w.1 ≤ w.2) :
    overlapping v w = true ↔ v ≠ w ∧
      ∃ t, ((v.1 < t ∧ t < v.2) ∧ (w.1 ≤ t ∧ t ≤ w.2)) ∨ ((v.1 ≤ t ∧ t ≤ v.2) ∧ (w.1 < t ∧ t < w.2)) := by
  unfold overlapping
  rw [decide_eq_true_eq]
  constructor
  · rintro (⟨h1, h2⟩ | ⟨h1, h2⟩ | ⟨h1, h2⟩ | ⟨h1, h2⟩)
    · exact ⟨by rintro rfl; linarith, v.1, .inr ⟨⟨le_refl _, hv⟩, h1, h2⟩⟩
    · exact ⟨by rintro rfl; linarith, v.2, .inr ⟨⟨hv, le_refl _⟩, h1, h2⟩⟩
    · exact ⟨by rintro rfl; linarith, w.1, .inl ⟨⟨h1, h2⟩, le_refl _, hw⟩⟩
    · exact ⟨by rintro rfl; linarith, w.2, .inl ⟨⟨h1, h2⟩, hw, le_refl _⟩⟩
  · rintro ⟨hne, t, ⟨⟨h1, h2⟩, h3, h4⟩ | ⟨⟨h1, h2⟩, h3, h4⟩⟩
    · rcases lt_trichotomy v.1 w.1 with h | h | h
      · exact .inr (.inr (.inl ⟨h, by linarith⟩))
      · rcases lt_trichotomy v.2 w.2 with h' | h' | h'
        · exact .inr (.inl ⟨by linarith, h'⟩)
        · exact absurd (Prod.ext h h') hne
        · exact .inr (.inr (.inr ⟨by linarith, h'⟩))
      · exact .inl ⟨h, by linarith⟩
    · rcases lt_trichotomy v.1 w.1 with h | h | h
      · exact .inr (.inr (.inl ⟨h, by linarith⟩))
      · rcases lt_trichotomy v.2 w.2 with h' | h' | h'
        · exact .inr (.inl ⟨by linarith, h'⟩)
        · exact absurd (Prod.ext h h') hne
        · exact .inr (.inr (.inr ⟨by linarith, h'⟩))
      · exact .inl ⟨h, by linarith⟩

/-- No negative durations. -/
theorem span_le {e : Rat × Plain} (hp : ∀ i ∈ e.2.infos, 0 ≤ i.dur) {pc : String × String}
    {v : Rat × Rat} (h : Span e pc v) : v.1 ≤ v.2 := by
  obtain ⟨⟨i1, hi1, h1⟩, h2, ⟨i3, hi3, h3⟩, h4⟩ := h
  have := h4 i1 hi1
  have hd := hp i1 (List.mem_filter.mp hi1).1
  linarith

/-- What the comparison finds: operations that overlap on a port-clock, unless their spans there are
the same. -/
theorem raises_iff {a b : Rat × Plain} (ha : ∀ i ∈ a.2.infos, 0 ≤ i.dur)
    (hb : ∀ i ∈ b.2.infos, 0 ≤ i.dur) :
    raises a b = true ↔ ∃ pc, (∃ t, (Within a pc t ∧ During b pc t) ∨ (During a pc t ∧ Within b pc t)) ∧
      ¬ ∃ v, Span a pc v ∧ Span b pc v := by
  rw [raises_spans]
  constructor
  · rintro ⟨pc, v, w, hv, hw, h⟩
    obtain ⟨hne, t, ht⟩ := (overlapping_iff (span_le ha hv) (span_le hb hw)).mp h
    refine ⟨pc, ⟨t, ?_⟩, ?_⟩
    · rw [within_span hv, within_span hw, during_span hv, during_span hw]
      exact ht
    · rintro ⟨u, hu, hu'⟩
      exact hne ((span_unique hv hu).trans (span_unique hu' hw))
  · rintro ⟨pc, ⟨t, ht⟩, hne⟩
    have hva : ∃ v, Span a pc v := by
      rcases ht with ⟨⟨⟨i, hi, _⟩, _⟩, _⟩ | ⟨⟨⟨i, hi, _⟩, _⟩, _⟩ <;> exact span_exists hi
    have hvb : ∃ v, Span b pc v := by
      rcases ht with ⟨_, ⟨i, hi, _⟩, _⟩ | ⟨_, ⟨i, hi, _⟩, _⟩ <;> exact span_exists hi
    obtain ⟨v, hv⟩ := hva
    obtain ⟨w, hw⟩ := hvb
    refine ⟨pc, v, w, hv, hw, (overlapping_iff (span_le ha hv) (span_le hb hw)).mpr ⟨?_, t, ?_⟩⟩
    · rintro rfl; exact hne ⟨v, hv, hw⟩
    · rw [within_span hv, within_span hw, during_span hv, during_span hw] at ht
      exact ht

theorem Overlap.symm {a b : Rat × Plain} (h : Overlap a b) : Overlap b a := by
  obtain ⟨pc, t, h⟩ := h
  exact ⟨pc, t, h.symm.imp And.symm And.symm⟩

/-- Two positions in a list, one right after the other. -/
def Neighbours (l : List (Rat × Plain)) (a b : Rat × Plain) : Prop :=
  ∃ pre post, l = pre ++ a :: b :: post

/-! ### What is collected -/

mutual
theorem collect_valid : ∀ (op : Op) (off : Rat), ∀ e ∈ collect op off, e.2.validPulse = true
  | .plain p, off, e, h => by
    simp only [collect] at h
    split at h
    · rename_i hv
      rw [List.mem_singleton.mp h]
      simp only
      rw [Bool.or_eq_true] at hv
      rcases hv with hv | hv
      · exact hv
      · unfold Plain.validPulse
        unfold Plain.hasOffset at hv
        cases hi : p.infos with
        | nil => rw [hi] at hv; simp at hv
        | cons _ _ => rfl
    · simp at h
  | .loop _ _ body, off, e, h => by
    simp only [collect] at h
    exact collect_valid body off e h
  | .conditional body, off, e, h => by
    simp only [collect] at h
    exact collect_valid body off e h
  | .sched items, off, e, h => by
    simp only [collect] at h
    exact collectItems_valid items off e h
theorem collectItems_valid : ∀ (items : Items) (off : Rat), ∀ e ∈ collectItems items off,
    e.2.validPulse = true
  | .nil, off, e, h => by simp [collectItems] at h
  | .cons abs op rest, off, e, h => by
    simp only [collectItems] at h
    rcases List.mem_append.mp h with h | h
    · exact collect_valid op _ e h
    · exact collectItems_valid rest off e h
end

/-- The next operation, if it starts before the end. -/
theorem nextBefore_valid {stop : Rat} {l : List (Rat × Plain)} (h : ∀ e ∈ l, e.2.validPulse = true) :
    nextBefore stop l = match l with
      | [] => none
      | e :: _ => if stop - 1 / 10 ≤ e.1 then none else some e := by
  cases l with
  | nil => rfl
  | cons e l => simp [nextBefore, h e List.mem_cons_self]

/-! ### The scan -/

/-- What is found in a scan: neighbours. -/
theorem scan_sound : ∀ (l : List (Rat × Plain)) (last : Option (Rat × Plain)),
    (∀ e ∈ l, e.2.validPulse = true) → scan last l = true →
    (∃ x e rest, last = some x ∧ l = e :: rest ∧ e.2.hasOffset = true ∧ raises e x = true) ∨
    ∃ a b, Neighbours l a b ∧ ((a.2.hasOffset = true ∧ raises a b = true) ∨
      (b.2.hasOffset = true ∧ raises b a = true))
  | [], last, hv, h => by simp [scan] at h
  | e :: rest, last, hv, h => by
    have hvr := fun x hx => hv x (List.mem_cons_of_mem e hx)
    rw [scan, Bool.or_eq_true] at h
    rcases h with h | h
    · have hnext : ∀ o, nextBefore (opEnd e) rest = some o → ∃ r, rest = o :: r := by
        intro o ho
        rw [nextBefore_valid hvr] at ho
        cases rest with
        | nil => simp at ho
        | cons c r =>
          simp only at ho
          split at ho
          · cases ho
          · simp only [Option.some.injEq] at ho; exact ⟨r, by rw [ho]⟩
      unfold checkOne at h
      by_cases ho : e.2.hasOffset = true
      · rw [if_pos ho] at h
        have hn : ∀ h' : checkNext e rest = true, ∃ a b, Neighbours (e :: rest) a b ∧
              ((a.2.hasOffset = true ∧ raises a b = true) ∨
                (b.2.hasOffset = true ∧ raises b a = true)) := by
          intro h'
          unfold checkNext at h'
          cases hnb : nextBefore (opEnd e) rest with
          | none => rw [hnb] at h'; simp at h'
          | some o =>
            rw [hnb] at h'
            obtain ⟨r, hr⟩ := hnext o hnb
            exact ⟨e, o, ⟨[], r, by rw [hr]; rfl⟩, .inl ⟨ho, h'⟩⟩
        cases last with
        | none => exact .inr (hn h)
        | some x =>
          simp only at h
          split at h
          · exact .inl ⟨x, e, rest, rfl, rfl, ho, h⟩
          · exact .inr (hn h)
      · rw [if_neg ho] at h; cases h
    · rw [if_pos (hv e List.mem_cons_self)] at h
      rcases scan_sound rest (some e) hvr h with ⟨x, c, r, hx, hl, ho, hr⟩ | ⟨a, b, ⟨pre, post, hl⟩, hr⟩
      · simp only [Option.some.injEq] at hx
        subst hx
        exact .inr ⟨e, c, ⟨[], r, by rw [hl]; rfl⟩, .inr ⟨ho, hr⟩⟩
      · exact .inr ⟨a, b, ⟨e :: pre, post, by rw [hl]; rfl⟩, hr⟩

/-- What is found for certain. -/
theorem scan_finds_second : ∀ (pre : List (Rat × Plain)) (a b : Rat × Plain) (post : List (Rat × Plain))
    (last : Option (Rat × Plain)), (∀ e ∈ pre ++ a :: b :: post, e.2.validPulse = true) →
    b.2.hasOffset = true → b.1 + 1 / 10 < opEnd a → raises b a = true →
    scan last (pre ++ a :: b :: post) = true
  | [], a, b, post, last, hv, ho, ht, hr => by
    rw [List.nil_append, scan, if_pos (hv a (by simp)), scan]
    simp only [checkOne, if_pos ho, if_pos ht, hr, Bool.true_or, Bool.or_true]
  | e :: pre, a, b, post, last, hv, ho, ht, hr => by
    rw [List.cons_append, scan, if_pos (hv e (by simp)),
      scan_finds_second pre a b post (some e) (fun x hx => hv x (by
        rw [List.cons_append]; exact List.mem_cons_of_mem _ hx)) ho ht hr]
    simp

theorem scan_finds_first : ∀ (pre : List (Rat × Plain)) (a b : Rat × Plain) (post : List (Rat × Plain))
    (last : Option (Rat × Plain)), (∀ e ∈ pre ++ a :: b :: post, e.2.validPulse = true) →
    a.2.hasOffset = true → b.1 + 1 / 10 < opEnd a → raises a b = true →
    (∀ x, (match pre.getLast? with | some x => some x | none => last) = some x →
      a.1 + 1 / 10 < opEnd x → raises a x = true) →
    scan last (pre ++ a :: b :: post) = true
  | [], a, b, post, last, hv, ho, ht, hr, hl => by
    rw [List.nil_append, scan]
    have hnb : nextBefore (opEnd a) (b :: post) = some b := by
      rw [nextBefore_valid (fun e he => hv e (by simp only [List.nil_append]; exact List.mem_cons_of_mem _ he))]
      simp only
      rw [if_neg]
      linarith
    have hcn : checkNext a (b :: post) = true := by rw [checkNext, hnb]; exact hr
    unfold checkOne
    rw [if_pos ho, hcn]
    cases last with
    | none => simp
    | some x =>
      have := hl x rfl
      by_cases hx : a.1 + 1 / 10 < opEnd x
      · simp [hx, this hx]
      · simp only [hx, if_false, Bool.true_or]
  | e :: pre, a, b, post, last, hv, ho, ht, hr, hl => by
    rw [List.cons_append, scan, if_pos (hv e (by simp)),
      scan_finds_first pre a b post (some e) (fun x hx => hv x (by
        rw [List.cons_append]; exact List.mem_cons_of_mem _ hx)) ho ht hr (by
        intro x hx
        apply hl x
        rw [List.getLast?_cons]
        cases hp : pre.getLast? with
        | none => rw [hp] at hx; simpa using hx
        | some y => rw [hp] at hx; simpa using hx)]
    simp

end Verif.Overlap
