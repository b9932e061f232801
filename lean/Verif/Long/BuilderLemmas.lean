/-
The offsets that a builder sets.
-/
import Verif.Long.Lemmas

set_option linter.unusedSimpArgs false
set_option linter.unusedVariables false

namespace Verif.Long

open Verif.Numeric (isClose)

theorem addOffset_inv {b b' : Builder} (h : Inv b.offs) {v : V} {dur : Option Rat} {rel : Rat}
    {append : Bool} {minDur : Rat} (hm : 0 ≤ minDur)
    (hr : b.addOffset v dur rel append minDur = .ok b') : Inv b'.offs := by
  unfold Builder.addOffset at hr
  simp only at hr
  cases dur with
  | none =>
    simp only at hr
    split at hr
    · cases hr
    · rename_i i hi
      rw [← Except.ok.inj hr]
      exact inv_insert h (by simp [Off.stop]) hi
  | some d =>
    simp only at hr
    split at hr
    · cases hr
    · rename_i hd
      split at hr
      · cases hr
      · rename_i i hi
        rw [← Except.ok.inj hr]
        refine inv_insert h ?_ hi
        simp only [Off.stop, Option.getD_some]
        push_neg at hd
        linarith

/-! ### The loop -/

/-- The value set, or a value from before. -/
def valueFrom (c : V) (l : List (Rat × V)) (t : Rat) : V :=
  match latest t l with
  | some e => e.2
  | none => c

/-- What should be held, with a value from before. -/
def heldFrom (bg : V) (offs : List Off) (t : Rat) : V :=
  match offs.find? (Off.covers t) with
  | some o => o.v
  | none =>
    match (offs.filter (fun o => decide (o.dur = none ∧ o.t0 ≤ t))).getLast? with
    | some o => o.v
    | none => bg

/-- Times taken as equal: equal, or it does not matter. -/
def Near (opEnd : Rat) : V → List Off → Prop
  | _, [] => True
  | bg, o :: rest =>
    match o.dur with
    | none => Near opEnd o.v rest
    | some _ => (isClose o.stop opEnd = true → o.stop = opEnd ∨ bg = 0) ∧
      (∀ next, rest.head? = some next → isClose next.t0 o.stop = true → next.t0 = o.stop) ∧
      Near opEnd (if isClose o.stop opEnd then (0, 0) else bg) rest

theorem nothing_later {offs : List Off} {t : Rat} (h : ∀ o ∈ offs, t < o.t0) (bg : V) :
    heldFrom bg offs t = bg := by
  have h1 : offs.find? (Off.covers t) = none := by
    rw [List.find?_eq_none]
    intro o ho
    unfold Off.covers
    have := h o ho
    split
    · simp only [decide_eq_true_eq, not_and]
      intro h'; linarith
    · simp
  have h2 : offs.filter (fun o => decide (o.dur = none ∧ o.t0 ≤ t)) = [] := by
    rw [List.filter_eq_nil_iff]
    intro o ho
    have := h o ho
    simp only [decide_eq_true_eq, not_and]
    intro _; linarith
  unfold heldFrom
  rw [h1, h2]
  rfl

theorem resetAt_mem (stop : Rat) (bg : V) (rest : List Off) :
    ∀ e ∈ resetAt stop bg rest, e = (stop, bg) := by
  intro e hem
  cases rest with
  | nil => exact List.mem_singleton.mp hem
  | cons x r =>
    by_cases hc : isClose x.t0 stop = true
    · simp only [resetAt, if_pos hc] at hem
      simp at hem
    · simp only [resetAt, if_neg hc] at hem
      exact List.mem_singleton.mp hem

/-- The settings of the loop are in order. -/
theorem loop_sorted (opEnd : Rat) : ∀ (offs : List Off) (bg : V), Inv offs →
    (∀ o ∈ offs, o.stop ≤ opEnd) →
    (offsetLoop opEnd bg offs).1.Pairwise (fun a b => a.1 ≤ b.1) ∧
    (∀ e ∈ (offsetLoop opEnd bg offs).1, e.1 ≤ opEnd ∧ ∀ m, (∀ o ∈ offs, m ≤ o.t0) → m ≤ e.1)
  | [], bg, _, _ => by simp [offsetLoop]
  | o :: rest, bg, h, he => by
    have hp := List.pairwise_cons.mp h.order
    have hod := h.dur o List.mem_cons_self
    have hoe := he o List.mem_cons_self
    have he' := fun x hx => he x (List.mem_cons_of_mem _ hx)
    rw [offsetLoop]
    cases hd : o.dur with
    | none =>
      simp only
      obtain ⟨ih1, ih2⟩ := loop_sorted opEnd rest o.v h.tail he'
      refine ⟨?_, ?_⟩
      · rw [List.pairwise_cons]
        refine ⟨?_, ih1⟩
        intro e hem
        exact (ih2 e hem).2 o.t0 (fun x hx => le_trans hod (hp.1 x hx))
      · intro e hem
        rcases List.mem_cons.mp hem with rfl | hem
        · exact ⟨le_trans hod hoe, fun m hm => hm o List.mem_cons_self⟩
        · exact ⟨(ih2 e hem).1, fun m hm => (ih2 e hem).2 m (fun x hx => hm x (List.mem_cons_of_mem _ hx))⟩
    | some d =>
      simp only
      generalize hbg : (if isClose o.stop opEnd = true then ((0, 0) : V) else bg) = bg'
      obtain ⟨ih1, ih2⟩ := loop_sorted opEnd rest bg' h.tail he'
      have hreset : ∀ e ∈ resetAt o.stop bg' rest, e = (o.stop, bg') := resetAt_mem _ _ _
      have hresetp : (resetAt o.stop bg' rest).Pairwise (fun a b => a.1 ≤ b.1) := by
        cases rest with
        | nil => exact List.pairwise_singleton _ _
        | cons x r =>
          by_cases hc : isClose x.t0 o.stop = true
          · simp only [resetAt, if_pos hc]
            exact List.Pairwise.nil
          · simp only [resetAt, if_neg hc]
            exact List.pairwise_singleton _ _
      refine ⟨?_, ?_⟩
      · rw [List.cons_append, List.pairwise_cons, List.pairwise_append]
        refine ⟨?_, hresetp, ih1, ?_⟩
        · intro e hem
          rcases List.mem_append.mp hem with hem | hem
          · rw [hreset e hem]; exact hod
          · exact (ih2 e hem).2 o.t0 (fun x hx => le_trans hod (hp.1 x hx))
        · intro a ha e hem
          rw [hreset a ha]
          exact (ih2 e hem).2 o.stop (fun x hx => hp.1 x hx)
      · intro e hem
        rw [List.cons_append] at hem
        rcases List.mem_cons.mp hem with rfl | hem
        · exact ⟨le_trans hod hoe, fun m hm => hm o List.mem_cons_self⟩
        · rcases List.mem_append.mp hem with hem | hem
          · rw [hreset e hem]
            exact ⟨hoe, fun m hm => le_trans (hm o List.mem_cons_self) hod⟩
          · exact ⟨(ih2 e hem).1, fun m hm => (ih2 e hem).2 m (fun x hx => hm x (List.mem_cons_of_mem _ hx))⟩

theorem valueFrom_cons {c v : V} {a t : Rat} {l : List (Rat × V)} (h : a ≤ t)
    (hl : ∀ e ∈ l, a ≤ e.1) : valueFrom c ((a, v) :: l) t = valueFrom v l t := by
  unfold valueFrom
  rw [latest, if_pos h]
  cases hr : latest t l with
  | none => rfl
  | some e =>
    have := hl e (latest_mem hr).1
    simp only [later, if_pos this]

theorem valueFrom_before {c : V} {t : Rat} {l : List (Rat × V)} (h : ∀ e ∈ l, t < e.1) :
    valueFrom c l t = c := by
  unfold valueFrom
  rw [latest_none.mpr h]

theorem heldFrom_cons_none {bg : V} {o : Off} {rest : List Off} {t : Rat} (hd : o.dur = none)
    (ht : o.t0 ≤ t) : heldFrom bg (o :: rest) t = heldFrom o.v rest t := by
  unfold heldFrom
  have hc : Off.covers t o = false := by simp [Off.covers, hd]
  rw [List.find?_cons, hc]
  simp only
  cases rest.find? (Off.covers t) with
  | some x => rfl
  | none =>
    simp only
    have : decide (o.dur = none ∧ o.t0 ≤ t) = true := by simp [hd, ht]
    rw [List.filter_cons, if_pos this, List.getLast?_cons]
    cases (rest.filter (fun o => decide (o.dur = none ∧ o.t0 ≤ t))).getLast? <;> rfl

theorem heldFrom_cons_covers {bg : V} {o : Off} {rest : List Off} {t : Rat}
    (hc : Off.covers t o = true) : heldFrom bg (o :: rest) t = o.v := by
  unfold heldFrom
  rw [List.find?_cons, hc]

theorem heldFrom_cons_skip {bg : V} {o : Off} {rest : List Off} {t : Rat} {d : Rat}
    (hd : o.dur = some d) (hc : Off.covers t o = false) :
    heldFrom bg (o :: rest) t = heldFrom bg rest t := by
  unfold heldFrom
  rw [List.find?_cons, hc]
  simp only
  have : ¬ decide (o.dur = none ∧ o.t0 ≤ t) = true := by simp [hd]
  rw [List.filter_cons, if_neg this]

/-- Before the end, the loop sets what should be held. -/
theorem loop_value (opEnd t : Rat) (ht : t < opEnd) : ∀ (offs : List Off) (bg : V), Inv offs →
    (∀ o ∈ offs, o.stop ≤ opEnd) → Near opEnd bg offs →
    valueFrom bg (offsetLoop opEnd bg offs).1 t = heldFrom bg offs t
  | [], bg, _, _, _ => rfl
  | o :: rest, bg, h, he, hn => by
    have hp := List.pairwise_cons.mp h.order
    have hod := h.dur o List.mem_cons_self
    have hoe := he o List.mem_cons_self
    have he' := fun x hx => he x (List.mem_cons_of_mem _ hx)
    have hs := (loop_sorted opEnd (o :: rest) bg h he).2
    by_cases hto : t < o.t0
    · -- nothing is set yet
      have hall : ∀ x ∈ o :: rest, t < x.t0 := by
        intro x hx
        rcases List.mem_cons.mp hx with rfl | hx
        · exact hto
        · exact lt_of_lt_of_le hto (le_trans hod (hp.1 x hx))
      rw [nothing_later hall, valueFrom_before]
      intro e hem
      have := (hs e hem).2 o.t0 (by
        intro x hx
        rcases List.mem_cons.mp hx with rfl | hx
        · exact le_refl _
        · exact le_trans hod (hp.1 x hx))
      linarith
    · push_neg at hto
      cases hd : o.dur with
      | none =>
        rw [heldFrom_cons_none hd hto]
        have ih := loop_value opEnd t ht rest o.v h.tail he' (by
          rw [Near, hd] at hn; exact hn)
        rw [← ih]
        have e1 : (offsetLoop opEnd bg (o :: rest)).1 = (o.t0, o.v) :: (offsetLoop opEnd o.v rest).1 := by
          rw [offsetLoop, hd]
        rw [e1]
        apply valueFrom_cons hto
        intro e hem
        exact ((loop_sorted opEnd rest o.v h.tail he').2 e hem).2 o.t0
          (fun x hx => le_trans hod (hp.1 x hx))
      | some d =>
        rw [Near, hd] at hn
        simp only at hn
        obtain ⟨hn1, hn2, hn3⟩ := hn
        generalize hbg : (if isClose o.stop opEnd = true then ((0, 0) : V) else bg) = bg' at hn3
        have hstop : o.stop = o.t0 + d := by simp [Off.stop, hd]
        have hsr := (loop_sorted opEnd rest bg' h.tail he').2
        have e1 : (offsetLoop opEnd bg (o :: rest)).1 = (o.t0, o.v) ::
            (resetAt o.stop bg' rest ++ (offsetLoop opEnd bg' rest).1) := by
          rw [offsetLoop, hd]
          simp only [hbg, List.cons_append]
        have hle : ∀ e ∈ (resetAt o.stop bg' rest ++ (offsetLoop opEnd bg' rest).1 : List (Rat × V)), o.stop ≤ e.1 := by
          intro e hem
          rcases List.mem_append.mp hem with hem | hem
          · rw [resetAt_mem _ _ _ e hem]
          · exact (hsr e hem).2 o.stop (fun x hx => hp.1 x hx)
        rw [e1, valueFrom_cons hto (fun e hem => le_trans hod (hle e hem))]
        by_cases hc : t < o.stop
        · -- within the offset
          have hcov : Off.covers t o = true := by
            simp only [Off.covers, hd, decide_eq_true_eq]
            exact ⟨hto, by rw [← hstop]; exact hc⟩
          rw [heldFrom_cons_covers hcov]
          apply valueFrom_before
          intro e hem
          exact lt_of_lt_of_le hc (hle e hem)
        · push_neg at hc
          have hcov : Off.covers t o = false := by
            simp only [Off.covers, hd, decide_eq_false_iff_not, not_and, not_lt]
            intro _
            rw [← hstop]; exact hc
          rw [heldFrom_cons_skip hd hcov]
          -- `isClose` at the end does not matter here
          have hbg0 : bg' = bg := by
            by_cases hcl : isClose o.stop opEnd = true
            · rcases hn1 hcl with h1 | h1
              · exact absurd (lt_of_lt_of_le ht (by rw [← h1]; exact hc)) (lt_irrefl _)
              · rw [← hbg, if_pos hcl, h1]; rfl
            · rw [← hbg, if_neg hcl]
          rw [hbg0] at hsr hn3 ⊢
          have ih := loop_value opEnd t ht rest bg h.tail he' hn3
          rw [← ih]
          cases hrest : rest with
          | nil =>
            simp only [resetAt, List.cons_append, List.nil_append]
            exact valueFrom_cons hc (by simp [offsetLoop])
          | cons next rest' =>
            simp only [resetAt]
            by_cases hcl : isClose next.t0 o.stop = true
            · rw [if_pos hcl, List.nil_append]
              have hnt := hn2 next (by rw [hrest]; rfl) hcl
              -- the next one is set at this time
              have e2 : ∃ v l, (offsetLoop opEnd bg (next :: rest')).1 = (next.t0, v) :: l := by
                rw [offsetLoop]
                cases next.dur with
                | none => exact ⟨_, _, rfl⟩
                | some d' => exact ⟨_, _, rfl⟩
              obtain ⟨v, l, e2⟩ := e2
              have hmem : ∀ e ∈ l, next.t0 ≤ e.1 := by
                have := (loop_sorted opEnd (next :: rest') bg (hrest ▸ h.tail) (hrest ▸ he')).1
                rw [e2, List.pairwise_cons] at this
                exact this.1
              rw [e2, valueFrom_cons (by rw [hnt]; exact hc) hmem,
                valueFrom_cons (by rw [hnt]; exact hc) hmem]
            · rw [if_neg hcl, List.cons_append, List.nil_append]
              apply valueFrom_cons hc
              intro e hem
              rw [← hrest] at hem
              exact (hsr e hem).2 o.stop (fun x hx => hp.1 x hx)

/-- The last setting of the loop is the background that it returns. -/
theorem loop_last (opEnd : Rat) : ∀ (offs : List Off) (bg : V),
    ∀ e, (offsetLoop opEnd bg offs).1.getLast? = some e → e.2 = (offsetLoop opEnd bg offs).2
  | [], bg, e, h => by simp [offsetLoop] at h
  | o :: rest, bg, e, h => by
    rw [offsetLoop] at h ⊢
    cases hd : o.dur with
    | none =>
      rw [hd] at h
      simp only at h ⊢
      rw [List.getLast?_cons] at h
      cases hl : (offsetLoop opEnd o.v rest).1.getLast? with
      | none =>
        rw [hl] at h
        simp only [Option.getD_none, Option.some.injEq] at h
        rw [List.getLast?_eq_none_iff] at hl
        cases rest with
        | nil => rw [← h]; rfl
        | cons x r =>
          exfalso
          rw [offsetLoop] at hl
          cases hx : x.dur <;> rw [hx] at hl <;> simp at hl
      | some e' =>
        rw [hl] at h
        simp only [Option.getD_some, Option.some.injEq] at h
        rw [← h]
        exact loop_last opEnd rest o.v e' hl
    | some d =>
      rw [hd] at h
      simp only at h ⊢
      generalize (if isClose o.stop opEnd = true then ((0, 0) : V) else bg) = bg' at h ⊢
      cases rest with
      | nil =>
        simp [offsetLoop, resetAt] at h ⊢
        rw [← h]
      | cons x r =>
        obtain ⟨e', he'⟩ : ∃ e', (offsetLoop opEnd bg' (x :: r)).1.getLast? = some e' := by
          cases hl : (offsetLoop opEnd bg' (x :: r)).1.getLast? with
          | some e' => exact ⟨e', rfl⟩
          | none =>
            exfalso
            rw [List.getLast?_eq_none_iff, offsetLoop] at hl
            cases hx : x.dur <;> rw [hx] at hl <;> simp at hl
        have : e = e' := by
          rw [List.getLast?_append, he'] at h
          simpa using h.symm
        rw [this]
        exact loop_last opEnd (x :: r) bg' e' he'

/-- The offsets that a builder sets. -/
theorem offsets_value (b : Builder) (h : Inv b.offs) (hn : Near b.opEnd (0, 0) b.offs) (t : Rat) :
    valueAt b.offsets t = held b.offs b.opEnd t := by
  have he : ∀ o ∈ b.offs, o.stop ≤ b.opEnd := fun o ho => opEnd_ge_off b h ho
  have hv : ∀ l, valueAt l t = valueFrom 0 l t := fun l => rfl
  unfold Builder.offsets
  by_cases h0 : b.offs = []
  · rw [if_pos h0, h0]
    simp [held, valueAt, latest]
  · rw [if_neg h0]
    simp only
    obtain ⟨hs1, hs2⟩ := loop_sorted b.opEnd b.offs (0, 0) h he
    by_cases ht : t < b.opEnd
    · have e1 : valueAt ((offsetLoop b.opEnd (0, 0) b.offs).1 ++
          (if isClose (offsetLoop b.opEnd (0, 0) b.offs).2.1 0 &&
            isClose (offsetLoop b.opEnd (0, 0) b.offs).2.2 0 then [] else [(b.opEnd, (0, 0))])) t =
          valueAt (offsetLoop b.opEnd (0, 0) b.offs).1 t := by
        apply valueAt_append_later
        intro x hx
        split at hx
        · simp at hx
        · rw [List.mem_singleton.mp hx]; exact ht
      rw [e1, hv]
      have := loop_value b.opEnd t ht b.offs (0, 0) h he hn
      have hz : ((0, 0) : V) = 0 := rfl
      rw [hz] at this
      rw [hz, this]
      unfold held heldFrom
      rw [if_neg (not_le.mpr ht)]
      rfl
    · push_neg at ht
      have hz : held b.offs b.opEnd t = 0 := by simp [held, ht]
      rw [hz]
      by_cases hbg : (isClose (offsetLoop b.opEnd (0, 0) b.offs).2.1 0 &&
            isClose (offsetLoop b.opEnd (0, 0) b.offs).2.2 0) = true
      · rw [if_pos hbg, List.append_nil]
        rw [Bool.and_eq_true, isClose_zero, isClose_zero] at hbg
        unfold valueAt
        rw [latest_sorted hs1 (fun x hx => le_trans (hs2 x hx).1 ht)]
        cases hl : (offsetLoop b.opEnd (0, 0) b.offs).1.getLast? with
        | none => rfl
        | some e =>
          simp only
          rw [loop_last _ _ _ e hl]
          exact Prod.ext hbg.1 hbg.2
      · rw [if_neg hbg]
        rw [valueAt_concat (e := (b.opEnd, (0, 0))) ht (fun x hx _ => (hs2 x hx).1)]
        rfl

theorem near_of_nothingNear (E : Rat) : ∀ (offs : List Off) (bg : V),
    (∀ o ∈ offs, (isClose o.stop E = true → o.stop = E) ∧
      ∀ o' ∈ offs, isClose o'.t0 o.stop = true → o'.t0 = o.stop) → Near E bg offs
  | [], bg, _ => trivial
  | o :: rest, bg, h => by
    have hr := fun bg => near_of_nothingNear E rest bg (fun x hx =>
      ⟨(h x (List.mem_cons_of_mem _ hx)).1, fun y hy =>
        (h x (List.mem_cons_of_mem _ hx)).2 y (List.mem_cons_of_mem _ hy)⟩)
    have ho := h o List.mem_cons_self
    rw [Near]
    cases hd : o.dur with
    | none => exact hr _
    | some d =>
      refine ⟨fun hc => .inl (ho.1 hc), ?_, hr _⟩
      intro next hnext hc
      exact ho.2 next (List.mem_cons_of_mem _ (List.mem_of_head? hnext)) hc

/-- Offsets without durations. -/
theorem near_of_none (E : Rat) : ∀ (offs : List Off) (bg : V), (∀ o ∈ offs, o.dur = none) →
    Near E bg offs
  | [], bg, _ => trivial
  | o :: rest, bg, h => by
    rw [Near, h o List.mem_cons_self]
    exact near_of_none E rest _ (fun x hx => h x (List.mem_cons_of_mem _ hx))

end Verif.Long
