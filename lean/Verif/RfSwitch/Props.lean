/-
C22: RF switch windows cover every pulse and do not overlap.
-/
import Verif.RfSwitch.Model
import Mathlib.Algebra.Order.Field.Rat
import Mathlib.Tactic.Linarith
import Mathlib.Data.List.Basic

set_option linter.unusedSimpArgs false
set_option linter.unusedVariables false

namespace Verif.RfSwitch

/-! ### Specification: what the hardware plays -/

mutual
/-- The pulses an operation started at `t` plays, with their absolute start: loops repeat their
body, each pass after the previous one. -/
def playedOp (t : Rat) : Op → List (Rat × PulseInfo)
  | .leaf ps => ps.map (fun p => (t + p.t0, p))
  | .sched items => playedItems t items
  | .flow reps dur body => (List.range reps).flatMap (fun i => playedOp (t + i * dur) body)

def playedItems (t : Rat) : Items → List (Rat × PulseInfo)
  | .nil => []
  | .cons absTime op rest => playedOp (t + absTime) op ++ playedItems t rest
end

/-- A microwave pulse with a waveform. -/
def IsMw (p : PulseInfo) : Prop :=
  p.endsMw = true ∧ p.marker = false ∧ p.hasWf = true ∧ 0 < p.duration

/-- A microwave voltage offset. -/
def IsVo (p : PulseInfo) : Prop :=
  p.endsMw = true ∧ p.marker = false ∧ p.hasWf = false ∧ p.duration = 0

mutual
/-- Control flow runs its body once, and the body is a schedule. -/
def SimpleOp : Op → Prop
  | .leaf _ => True
  | .sched items => SimpleItems items
  | .flow reps _ (.sched items) => reps = 1 ∧ SimpleItems items
  | .flow _ _ _ => False

def SimpleItems : Items → Prop
  | .nil => True
  | .cons _ op rest => SimpleOp op ∧ SimpleItems rest
end

/-- The toggle is on during `[a, b]`. -/
def OnDuring (tg : Toggle) (a b : Rat) : Prop := tg.start ≤ a ∧ b ≤ tg.start + tg.duration

/-! ### Merging -/

theorem mergeLoop_cover (rb : Rat) : ∀ (ps : List MwPulse) (cs ce : Rat),
    (∀ p ∈ ps, cs ≤ p.absTime) → ps.Pairwise (fun a b => a.absTime ≤ b.absTime) →
    (∃ w ∈ mergeLoop rb cs ce ps, w.1 ≤ cs ∧ ce ≤ w.2) ∧
    ∀ p ∈ ps, ∃ w ∈ mergeLoop rb cs ce ps, w.1 ≤ p.absTime ∧ p.endTime ≤ w.2 := by
  intro ps
  induction ps with
  | nil => intro cs ce _ _; simp [mergeLoop]
  | cons q ps ih =>
    intro cs ce hcs hs
    rw [List.pairwise_cons] at hs
    unfold mergeLoop
    split
    · obtain ⟨⟨w, hw, h1, h2⟩, h3⟩ := ih cs (max ce q.endTime)
        (fun p hp => hcs p (List.mem_cons_of_mem _ hp)) hs.2
      refine ⟨⟨w, hw, h1, le_trans (le_max_left _ _) h2⟩, ?_⟩
      intro p hp
      rcases List.mem_cons.mp hp with rfl | hp
      · exact ⟨w, hw, le_trans h1 (hcs _ List.mem_cons_self), le_trans (le_max_right _ _) h2⟩
      · exact h3 p hp
    · obtain ⟨⟨w, hw, h1, h2⟩, h3⟩ := ih q.absTime q.endTime hs.1 hs.2
      refine ⟨⟨(cs, ce), List.mem_cons_self, le_refl _, le_refl _⟩, ?_⟩
      intro p hp
      rcases List.mem_cons.mp hp with rfl | hp
      · exact ⟨w, List.mem_cons_of_mem _ hw, h1, h2⟩
      · obtain ⟨w', hw', h'⟩ := h3 p hp
        exact ⟨w', List.mem_cons_of_mem _ hw', h'⟩

/-- The windows of sorted pulses cover every pulse. -/
theorem mergeWindows_cover (rb : Rat) {ps : List MwPulse}
    (hs : ps.Pairwise (fun a b => a.absTime ≤ b.absTime)) :
    ∀ p ∈ ps, ∃ w ∈ mergeWindows rb ps, w.1 ≤ p.absTime ∧ p.endTime ≤ w.2 := by
  cases ps with
  | nil => simp
  | cons q ps =>
    rw [List.pairwise_cons] at hs
    obtain ⟨⟨w, hw, h1, h2⟩, h3⟩ := mergeLoop_cover rb ps q.absTime q.endTime hs.1 hs.2
    intro p hp
    rcases List.mem_cons.mp hp with rfl | hp
    · exact ⟨w, hw, h1, h2⟩
    · exact h3 p hp

theorem mergeLoop_sep (rb : Rat) (hrb : 0 ≤ rb) : ∀ (ps : List MwPulse) (cs ce : Rat), cs ≤ ce →
    (∀ p ∈ ps, 0 ≤ p.duration) → (∀ p ∈ ps, cs ≤ p.absTime) →
    ps.Pairwise (fun a b => a.absTime ≤ b.absTime) →
    (mergeLoop rb cs ce ps).Pairwise (fun v w => v.2 + 2 * rb + atol < w.1) ∧
    ∀ w ∈ mergeLoop rb cs ce ps, cs ≤ w.1 ∧ w.1 ≤ w.2 := by
  intro ps
  induction ps with
  | nil => intro cs ce h _ _ _; simp [mergeLoop, h]
  | cons q ps ih =>
    intro cs ce h hd hcs hs
    rw [List.pairwise_cons] at hs
    have hd' : ∀ p ∈ ps, 0 ≤ p.duration := fun p hp => hd p (List.mem_cons_of_mem _ hp)
    unfold mergeLoop
    split
    · exact ih cs _ (le_trans h (le_max_left _ _)) hd'
        (fun p hp => hcs p (List.mem_cons_of_mem _ hp)) hs.2
    · rename_i hgap
      have hq := hd q List.mem_cons_self
      obtain ⟨h1, h2⟩ := ih q.absTime q.endTime (by unfold MwPulse.endTime; linarith) hd' hs.1 hs.2
      rw [List.pairwise_cons]
      have hq2 := hcs q List.mem_cons_self
      refine ⟨⟨?_, h1⟩, ?_⟩
      · intro w hw
        have := (h2 w hw).1
        push Not at hgap
        simp only
        linarith
      · intro w hw
        rcases List.mem_cons.mp hw with rfl | hw
        · exact ⟨le_refl _, h⟩
        · exact ⟨le_trans hq2 (h2 w hw).1, (h2 w hw).2⟩

/-- Windows are in order and more than two ramp buffers apart. -/
theorem mergeWindows_sep (rb : Rat) (hrb : 0 ≤ rb) {ps : List MwPulse}
    (hd : ∀ p ∈ ps, 0 ≤ p.duration)
    (hs : ps.Pairwise (fun a b => a.absTime ≤ b.absTime)) :
    (mergeWindows rb ps).Pairwise (fun v w => v.2 + 2 * rb + atol < w.1) ∧
    ∀ w ∈ mergeWindows rb ps, w.1 ≤ w.2 := by
  cases ps with
  | nil => simp [mergeWindows]
  | cons q ps =>
    rw [List.pairwise_cons] at hs
    have hq := hd q List.mem_cons_self
    obtain ⟨h1, h2⟩ := mergeLoop_sep rb hrb ps q.absTime q.endTime
      (by unfold MwPulse.endTime; linarith)
      (fun p hp => hd p (List.mem_cons_of_mem _ hp)) hs.1 hs.2
    exact ⟨h1, fun w hw => (h2 w hw).2⟩

/-- An instant of a window is inside a pulse or in a short gap between two pulses. -/
def Justified (rb : Rat) (ps : List MwPulse) (x : Rat) : Prop :=
  (∃ p ∈ ps, p.absTime ≤ x ∧ x ≤ p.endTime) ∨
  ∃ p ∈ ps, ∃ q ∈ ps, p.endTime < x ∧ x < q.absTime ∧ q.absTime - p.endTime ≤ 2 * rb + atol

theorem mergeLoop_tight (rb : Rat) (all : List MwPulse) : ∀ (ps : List MwPulse) (cs ce : Rat),
    (∀ p ∈ ps, p ∈ all) → (∃ p ∈ all, p.absTime = cs) → (∃ p ∈ all, p.endTime = ce) →
    (∀ x, cs ≤ x → x ≤ ce → Justified rb all x) →
    ∀ w ∈ mergeLoop rb cs ce ps, (∃ p ∈ all, p.absTime = w.1) ∧ (∃ p ∈ all, p.endTime = w.2) ∧
      ∀ x, w.1 ≤ x → x ≤ w.2 → Justified rb all x := by
  intro ps
  induction ps with
  | nil =>
    intro cs ce _ h1 h2 h3 w hw
    simp only [mergeLoop, List.mem_singleton] at hw
    subst hw; exact ⟨h1, h2, h3⟩
  | cons q ps ih =>
    intro cs ce hall h1 h2 h3 w hw
    have hq := hall q List.mem_cons_self
    have hall' : ∀ p ∈ ps, p ∈ all := fun p hp => hall p (List.mem_cons_of_mem _ hp)
    unfold mergeLoop at hw
    split at hw
    · rename_i hgap
      refine ih cs (max ce q.endTime) hall' h1 ?_ ?_ w hw
      · rcases max_choice ce q.endTime with h | h
        · rw [h]; exact h2
        · rw [h]; exact ⟨q, hq, rfl⟩
      · intro x hx1 hx2
        by_cases hx : x ≤ ce
        · exact h3 x hx1 hx
        · push Not at hx
          have hx3 : x ≤ q.endTime := by
            rcases le_max_iff.mp hx2 with h | h
            · linarith
            · exact h
          by_cases hx4 : q.absTime ≤ x
          · exact Or.inl ⟨q, hq, hx4, hx3⟩
          · push Not at hx4
            obtain ⟨p, hp, hpe⟩ := h2
            exact Or.inr ⟨p, hp, q, hq, by rw [hpe]; exact hx, hx4, by rw [hpe]; exact hgap⟩
    · rcases List.mem_cons.mp hw with rfl | hw
      · exact ⟨h1, h2, h3⟩
      · exact ih q.absTime q.endTime hall' ⟨q, hq, rfl⟩ ⟨q, hq, rfl⟩
          (fun x a b => Or.inl ⟨q, hq, a, b⟩) w hw

/-- Windows start with a pulse, end with a pulse, and contain nothing but pulses and gaps of at
most two ramp buffers. -/
theorem mergeWindows_tight (rb : Rat) (ps : List MwPulse) :
    ∀ w ∈ mergeWindows rb ps, (∃ p ∈ ps, p.absTime = w.1) ∧ (∃ p ∈ ps, p.endTime = w.2) ∧
      ∀ x, w.1 ≤ x → x ≤ w.2 → Justified rb ps x := by
  cases ps with
  | nil => simp [mergeWindows]
  | cons q ps =>
    exact mergeLoop_tight rb (q :: ps) ps q.absTime q.endTime
      (fun p hp => List.mem_cons_of_mem _ hp) ⟨q, List.mem_cons_self, rfl⟩
      ⟨q, List.mem_cons_self, rfl⟩ (fun x a b => Or.inl ⟨q, List.mem_cons_self, a, b⟩)

/-! ### Grouping and sorting -/

theorem mem_groupKeys_aux {α : Type} (key : α → String × String) (l : List α)
    (ks : List (String × String)) (k : String × String) :
    k ∈ l.foldl (fun ks x => if key x ∈ ks then ks else ks ++ [key x]) ks ↔
      k ∈ ks ∨ ∃ x ∈ l, key x = k := by
  induction l generalizing ks with
  | nil => simp
  | cons a l ih =>
    rw [List.foldl_cons, ih]
    by_cases h : key a ∈ ks
    · rw [if_pos h]
      constructor
      · rintro (h1 | ⟨x, hx, rfl⟩)
        · exact Or.inl h1
        · exact Or.inr ⟨x, List.mem_cons_of_mem _ hx, rfl⟩
      · rintro (h1 | ⟨x, hx, rfl⟩)
        · exact Or.inl h1
        · rcases List.mem_cons.mp hx with rfl | hx
          · exact Or.inl h
          · exact Or.inr ⟨x, hx, rfl⟩
    · rw [if_neg h]
      constructor
      · rintro (h1 | ⟨x, hx, rfl⟩)
        · rcases List.mem_append.mp h1 with h1 | h1
          · exact Or.inl h1
          · simp only [List.mem_singleton] at h1
            subst h1; exact Or.inr ⟨a, List.mem_cons_self, rfl⟩
        · exact Or.inr ⟨x, List.mem_cons_of_mem _ hx, rfl⟩
      · rintro (h1 | ⟨x, hx, rfl⟩)
        · exact Or.inl (List.mem_append_left _ h1)
        · rcases List.mem_cons.mp hx with rfl | hx
          · exact Or.inl (by simp)
          · exact Or.inr ⟨x, hx, rfl⟩

theorem mem_groupKeys {α : Type} (key : α → String × String) (l : List α) (k : String × String) :
    k ∈ groupKeys key l ↔ ∃ x ∈ l, key x = k := by
  unfold groupKeys
  rw [mem_groupKeys_aux]; simp

theorem groupKeys_nodup_aux {α : Type} (key : α → String × String) (l : List α)
    (ks : List (String × String)) (h : ks.Nodup) :
    (l.foldl (fun ks x => if key x ∈ ks then ks else ks ++ [key x]) ks).Nodup := by
  induction l generalizing ks with
  | nil => exact h
  | cons a l ih =>
    rw [List.foldl_cons]
    apply ih
    split
    · exact h
    · rename_i h2
      rw [List.nodup_append]
      refine ⟨h, by simp, ?_⟩
      intro x hx y hy
      simp only [List.mem_singleton] at hy
      subst hy
      rintro rfl
      exact h2 hx

theorem groupKeys_nodup {α : Type} (key : α → String × String) (l : List α) :
    (groupKeys key l).Nodup := groupKeys_nodup_aux key l [] List.nodup_nil

theorem sort_sorted (ps : List MwPulse) :
    (ps.mergeSort (fun a b => decide (a.absTime ≤ b.absTime))).Pairwise
      (fun a b => a.absTime ≤ b.absTime) := by
  have := List.pairwise_mergeSort (le := fun a b : MwPulse => decide (a.absTime ≤ b.absTime))
    (by intro a b c; simp only [decide_eq_true_eq]; exact le_trans)
    (by intro a b; simp only [Bool.or_eq_true, decide_eq_true_eq]; exact le_total _ _) ps
  simpa using this

theorem sortEv_sorted (ps : List VoEvent) :
    (ps.mergeSort (fun a b => decide (a.absTime ≤ b.absTime))).Pairwise
      (fun a b => a.absTime ≤ b.absTime) := by
  have := List.pairwise_mergeSort (le := fun a b : VoEvent => decide (a.absTime ≤ b.absTime))
    (by intro a b c; simp only [decide_eq_true_eq]; exact le_trans)
    (by intro a b; simp only [Bool.or_eq_true, decide_eq_true_eq]; exact le_total _ _) ps
  simpa using this

/-- The toggles of a port-clock are the toggles of the merged windows of its pulses. -/
theorem mem_dressing {rb : Rat} {root : Items} {tg : Toggle} :
    tg ∈ dressing (some rb) root ↔
      ∃ w ∈ mergeWindows rb ((groupOf (fun p => (p.port, p.clock)) (allPulses root)
          (tg.port, tg.clock)).mergeSort (fun a b => decide (a.absTime ≤ b.absTime))),
        tg = toggleOf tg.port tg.clock rb w := by
  unfold dressing
  simp only [List.mem_flatMap, List.mem_map]
  constructor
  · rintro ⟨k, hk, w, hw, rfl⟩
    exact ⟨w, hw, rfl⟩
  · rintro ⟨w, hw, h⟩
    refine ⟨(tg.port, tg.clock), ?_, w, hw, h.symm⟩
    obtain ⟨⟨p, hp, _⟩, _⟩ := mergeWindows_tight rb _ w hw
    have hp := List.mem_mergeSort.mp hp
    unfold groupOf at hp
    rw [List.mem_filter] at hp
    rw [mem_groupKeys]
    exact ⟨p, hp.1, by simpa using hp.2⟩

/-- Every collected pulse or offset window is covered with the ramp buffer on both sides. -/
theorem dressing_covers {rb : Rat} {root : Items} {p : MwPulse}
    (hp : p ∈ allPulses root) :
    ∃ tg ∈ dressing (some rb) root, tg.port = p.port ∧ tg.clock = p.clock ∧
      OnDuring tg (max 0 (p.absTime - rb)) (p.endTime + rb) := by
  have hg : p ∈ (groupOf (fun p => (p.port, p.clock)) (allPulses root)
      (p.port, p.clock)).mergeSort (fun a b => decide (a.absTime ≤ b.absTime)) := by
    rw [List.mem_mergeSort]
    unfold groupOf
    rw [List.mem_filter]; simp [hp]
  obtain ⟨w, hw, h1, h2⟩ := mergeWindows_cover rb (sort_sorted _) p hg
  refine ⟨toggleOf p.port p.clock rb w, mem_dressing.mpr ⟨w, hw, rfl⟩, rfl, rfl, ?_, ?_⟩
  · show max 0 (w.1 - rb) ≤ _
    exact max_le_max (le_refl _) (by linarith)
  · show _ ≤ max 0 (w.1 - rb) + ((w.2 + rb) - max 0 (w.1 - rb))
    linarith

/-! ### Collection -/

theorem mem_collectInfos_pulse {t : Rat} {ps : List PulseInfo} {p : PulseInfo} (hp : p ∈ ps)
    (h : IsMw p) : ⟨t + p.t0, p.duration, p.port, p.clock⟩ ∈ (collectInfos t ps).1 := by
  induction ps with
  | nil => simp at hp
  | cons q ps ih =>
    simp only [collectInfos, List.mem_append]
    rcases List.mem_cons.mp hp with rfl | hp
    · left; obtain ⟨h1, h2, h3, h4⟩ := h
      simp [collectInfo, h1, h2, h3, h4]
    · exact Or.inr (ih hp)

theorem mem_collectInfos_event {t : Rat} {ps : List PulseInfo} {p : PulseInfo} (hp : p ∈ ps)
    (h : IsVo p) : ⟨t + p.t0, p.port, p.clock, p.nonzero⟩ ∈ (collectInfos t ps).2 := by
  induction ps with
  | nil => simp at hp
  | cons q ps ih =>
    simp only [collectInfos, List.mem_append]
    rcases List.mem_cons.mp hp with rfl | hp
    · left; obtain ⟨h1, h2, h3, h4⟩ := h
      simp [collectInfo, h1, h2, h3, h4]
    · exact Or.inr (ih hp)

mutual
theorem collectOp_complete (t : Rat) : ∀ (op : Op), SimpleOp op → ∀ x ∈ playedOp t op,
    (IsMw x.2 → ⟨x.1, x.2.duration, x.2.port, x.2.clock⟩ ∈ (collectOp t op).1) ∧
    (IsVo x.2 → ⟨x.1, x.2.port, x.2.clock, x.2.nonzero⟩ ∈ (collectOp t op).2)
  | .leaf ps, _, x, hx => by
    simp only [playedOp, List.mem_map] at hx
    obtain ⟨p, hp, rfl⟩ := hx
    exact ⟨fun h => by simpa [collectOp] using mem_collectInfos_pulse hp h,
      fun h => by simpa [collectOp] using mem_collectInfos_event hp h⟩
  | .sched items, h, x, hx => by
    simp only [playedOp] at hx
    simp only [SimpleOp] at h
    simpa [collectOp] using collectItems_complete t items h x hx
  | .flow reps dur (.sched items), h, x, hx => by
    simp only [SimpleOp] at h
    obtain ⟨rfl, h⟩ := h
    simp [playedOp] at hx
    simpa [collectOp] using collectItems_complete t items h x hx
  | .flow _ _ (.leaf _), h, _, _ => by simp [SimpleOp] at h
  | .flow _ _ (.flow _ _ _), h, _, _ => by simp [SimpleOp] at h

theorem collectItems_complete (t : Rat) : ∀ (items : Items), SimpleItems items →
    ∀ x ∈ playedItems t items,
    (IsMw x.2 → ⟨x.1, x.2.duration, x.2.port, x.2.clock⟩ ∈ (collectItems t items).1) ∧
    (IsVo x.2 → ⟨x.1, x.2.port, x.2.clock, x.2.nonzero⟩ ∈ (collectItems t items).2)
  | .nil, _, x, hx => by simp [playedItems] at hx
  | .cons a op rest, h, x, hx => by
    simp only [SimpleItems] at h
    simp only [playedItems, List.mem_append] at hx
    simp only [collectItems, List.mem_append]
    rcases hx with hx | hx
    · obtain ⟨h1, h2⟩ := collectOp_complete (t + a) op h.1 x hx
      exact ⟨fun y => Or.inl (h1 y), fun y => Or.inl (h2 y)⟩
    · obtain ⟨h1, h2⟩ := collectItems_complete t rest h.2 x hx
      exact ⟨fun y => Or.inr (h1 y), fun y => Or.inr (h2 y)⟩
end

theorem collectInfos_pulse_sound {t : Rat} {ps : List PulseInfo} {m : MwPulse}
    (hm : m ∈ (collectInfos t ps).1) :
    ∃ p ∈ ps, IsMw p ∧ m = ⟨t + p.t0, p.duration, p.port, p.clock⟩ := by
  induction ps with
  | nil => simp [collectInfos] at hm
  | cons q ps ih =>
    simp only [collectInfos, List.mem_append] at hm
    rcases hm with hm | hm
    · refine ⟨q, List.mem_cons_self, ?_⟩
      unfold collectInfo at hm
      split_ifs at hm with h1 h2 h3 h4 h5 <;> simp at hm
      exact ⟨⟨by simpa using h1, by simpa using h2, by simpa using h3, h5⟩, hm⟩
    · obtain ⟨p, hp, h⟩ := ih hm
      exact ⟨p, List.mem_cons_of_mem _ hp, h⟩

theorem collectInfos_event_sound {t : Rat} {ps : List PulseInfo} {m : VoEvent}
    (hm : m ∈ (collectInfos t ps).2) :
    ∃ p ∈ ps, IsVo p ∧ m = ⟨t + p.t0, p.port, p.clock, p.nonzero⟩ := by
  induction ps with
  | nil => simp [collectInfos] at hm
  | cons q ps ih =>
    simp only [collectInfos, List.mem_append] at hm
    rcases hm with hm | hm
    · refine ⟨q, List.mem_cons_self, ?_⟩
      unfold collectInfo at hm
      split_ifs at hm with h1 h2 h3 h4 h5 <;> simp at hm
      exact ⟨⟨by simpa using h1, by simpa using h2, by simpa using h3, h4⟩, hm⟩
    · obtain ⟨p, hp, h⟩ := ih hm
      exact ⟨p, List.mem_cons_of_mem _ hp, h⟩

mutual
theorem collectOp_sound (t : Rat) : ∀ (op : Op), SimpleOp op →
    (∀ m ∈ (collectOp t op).1, ∃ x ∈ playedOp t op, IsMw x.2 ∧
      m = ⟨x.1, x.2.duration, x.2.port, x.2.clock⟩) ∧
    (∀ m ∈ (collectOp t op).2, ∃ x ∈ playedOp t op, IsVo x.2 ∧
      m = ⟨x.1, x.2.port, x.2.clock, x.2.nonzero⟩)
  | .leaf ps, _ => by
    simp only [collectOp, playedOp]
    refine ⟨fun m hm => ?_, fun m hm => ?_⟩
    · obtain ⟨p, hp, h1, h2⟩ := collectInfos_pulse_sound hm
      exact ⟨_, List.mem_map.mpr ⟨p, hp, rfl⟩, h1, h2⟩
    · obtain ⟨p, hp, h1, h2⟩ := collectInfos_event_sound hm
      exact ⟨_, List.mem_map.mpr ⟨p, hp, rfl⟩, h1, h2⟩
  | .sched items, h => by
    simp only [SimpleOp] at h
    simpa [collectOp, playedOp] using collectItems_sound t items h
  | .flow reps dur (.sched items), h => by
    simp only [SimpleOp] at h
    obtain ⟨rfl, h⟩ := h
    simpa [collectOp, playedOp] using collectItems_sound t items h
  | .flow _ _ (.leaf _), h => by simp [SimpleOp] at h
  | .flow _ _ (.flow _ _ _), h => by simp [SimpleOp] at h

theorem collectItems_sound (t : Rat) : ∀ (items : Items), SimpleItems items →
    (∀ m ∈ (collectItems t items).1, ∃ x ∈ playedItems t items, IsMw x.2 ∧
      m = ⟨x.1, x.2.duration, x.2.port, x.2.clock⟩) ∧
    (∀ m ∈ (collectItems t items).2, ∃ x ∈ playedItems t items, IsVo x.2 ∧
      m = ⟨x.1, x.2.port, x.2.clock, x.2.nonzero⟩)
  | .nil, _ => by simp [collectItems]
  | .cons a op rest, h => by
    simp only [SimpleItems] at h
    obtain ⟨h1, h2⟩ := collectOp_sound (t + a) op h.1
    obtain ⟨h3, h4⟩ := collectItems_sound t rest h.2
    simp only [collectItems, playedItems, List.mem_append]
    refine ⟨fun m hm => ?_, fun m hm => ?_⟩
    · rcases hm with hm | hm
      · obtain ⟨x, hx, h⟩ := h1 m hm; exact ⟨x, Or.inl hx, h⟩
      · obtain ⟨x, hx, h⟩ := h3 m hm; exact ⟨x, Or.inr hx, h⟩
    · rcases hm with hm | hm
      · obtain ⟨x, hx, h⟩ := h2 m hm; exact ⟨x, Or.inl hx, h⟩
      · obtain ⟨x, hx, h⟩ := h4 m hm; exact ⟨x, Or.inr hx, h⟩
end

/-! ### Voltage offsets -/

/-- While a window is open it is closed by the first zero offset. -/
theorem scan_open (port clock : String) : ∀ (es : List VoEvent) (s x : Rat), s ≤ x →
    es.Pairwise (fun a b => a.absTime ≤ b.absTime) →
    (∀ z ∈ es, z.isNonzero = false → x < z.absTime) → (∃ z ∈ es, z.isNonzero = false) →
    ∃ m ∈ scanEvents port clock (some s) es, m.absTime = s ∧ x < m.endTime ∧
      m.port = port ∧ m.clock = clock := by
  intro es
  induction es with
  | nil => intro s x _ _ _ h; simp at h
  | cons e es ih =>
    intro s x hsx hs hz he
    rw [List.pairwise_cons] at hs
    unfold scanEvents
    by_cases hn : e.isNonzero = true
    · rw [if_pos hn]
      refine ih s x hsx hs.2 (fun z hz' => hz z (List.mem_cons_of_mem _ hz')) ?_
      obtain ⟨z, hz', h0⟩ := he
      rcases List.mem_cons.mp hz' with rfl | hz'
      · rw [hn] at h0; cases h0
      · exact ⟨z, hz', h0⟩
    · rw [if_neg hn]
      refine ⟨_, List.mem_cons_self, rfl, ?_, rfl, rfl⟩
      have := hz e List.mem_cons_self (by simpa using hn)
      show x < s + (e.absTime - s)
      linarith

/-- A non-zero offset that is followed by a zero one opens (or is inside) a window that lasts until
then. -/
theorem scan_covers (port clock : String) : ∀ (pre : List VoEvent) (o : Option Rat) (e : VoEvent)
    (post : List VoEvent) (x : Rat), (∀ s, o = some s → s ≤ e.absTime) →
    (pre ++ e :: post).Pairwise (fun a b => a.absTime ≤ b.absTime) →
    e.isNonzero = true → e.absTime ≤ x →
    (∀ z ∈ post, z.isNonzero = false → x < z.absTime) → (∃ z ∈ post, z.isNonzero = false) →
    ∃ m ∈ scanEvents port clock o (pre ++ e :: post), m.absTime ≤ e.absTime ∧ x < m.endTime ∧
      m.port = port ∧ m.clock = clock := by
  intro pre
  induction pre with
  | nil =>
    intro o e post x ho hs hn hx hz he
    simp only [List.nil_append, List.pairwise_cons] at hs ⊢
    cases o with
    | none =>
      unfold scanEvents
      rw [if_pos hn]
      obtain ⟨m, hm, h1, h2⟩ := scan_open port clock post e.absTime x hx hs.2 hz he
      exact ⟨m, hm, by rw [h1], h2⟩
    | some s =>
      have hse := ho s rfl
      unfold scanEvents
      rw [if_pos hn]
      obtain ⟨m, hm, h1, h2⟩ := scan_open port clock post s x (le_trans hse hx) hs.2 hz he
      exact ⟨m, hm, by rw [h1]; exact hse, h2⟩
  | cons a pre ih =>
    intro o e post x ho hs hn hx hz he
    simp only [List.cons_append, List.pairwise_cons] at hs ⊢
    have hae : a.absTime ≤ e.absTime := hs.1 e (by simp)
    cases o with
    | none =>
      unfold scanEvents
      split
      · exact ih (some a.absTime) e post x (by intro s h; cases h; exact hae) hs.2 hn hx hz he
      · exact ih none e post x (by simp) hs.2 hn hx hz he
    | some s =>
      unfold scanEvents
      split
      · exact ih (some s) e post x ho hs.2 hn hx hz he
      · obtain ⟨m, hm, h⟩ := ih none e post x (by simp) hs.2 hn hx hz he
        exact ⟨m, List.mem_cons_of_mem _ hm, h⟩

theorem scan_nonneg (port clock : String) : ∀ (es : List VoEvent) (o : Option Rat),
    (∀ s, o = some s → ∀ e ∈ es, s ≤ e.absTime) →
    es.Pairwise (fun a b => a.absTime ≤ b.absTime) →
    ∀ m ∈ scanEvents port clock o es, 0 ≤ m.duration := by
  intro es
  induction es with
  | nil => intro o _ _ m hm; cases o <;> simp [scanEvents] at hm
  | cons e es ih =>
    intro o ho hs m hm
    rw [List.pairwise_cons] at hs
    cases o with
    | none =>
      unfold scanEvents at hm
      split at hm
      · exact ih (some e.absTime) (by intro s h; cases h; exact hs.1) hs.2 m hm
      · exact ih none (by simp) hs.2 m hm
    | some s =>
      unfold scanEvents at hm
      split at hm
      · exact ih (some s) (fun s' h e' he' => ho s' h e' (List.mem_cons_of_mem _ he')) hs.2 m hm
      · rcases List.mem_cons.mp hm with rfl | hm
        · have := ho s rfl e List.mem_cons_self
          show 0 ≤ e.absTime - s
          linarith
        · exact ih none (by simp) hs.2 m hm

theorem eventsToPulses_nonneg (es : List VoEvent) : ∀ m ∈ eventsToPulses es, 0 ≤ m.duration := by
  intro m hm
  unfold eventsToPulses at hm
  obtain ⟨k, _, hm⟩ := List.mem_flatMap.mp hm
  exact scan_nonneg _ _ _ none (by simp) (sortEv_sorted _) m hm

theorem allPulses_nonneg (root : Items) (hs : SimpleItems root) :
    ∀ m ∈ allPulses root, 0 ≤ m.duration := by
  intro m hm
  unfold allPulses at hm
  rcases List.mem_append.mp hm with hm | hm
  · obtain ⟨x, _, h1, rfl⟩ := (collectItems_sound 0 root hs).1 m hm
    exact le_of_lt h1.2.2.2
  · exact eventsToPulses_nonneg _ m hm

/-! ### The property -/

/-- **C22, coverage (partial: control flow runs its body once, and the body is a schedule).**
Every microwave pulse is played with the RF switch on, from a ramp buffer before it (or time zero)
to a ramp buffer after it. -/
theorem pulse_covered_partial {rb : Rat} {root : Items} (hs : SimpleItems root)
    {t : Rat} {p : PulseInfo} (hp : (t, p) ∈ playedItems 0 root) (hmw : IsMw p) :
    ∃ tg ∈ dressing (some rb) root, tg.port = p.port ∧ tg.clock = p.clock ∧
      OnDuring tg (max 0 (t - rb)) (t + p.duration + rb) := by
  have h := (collectItems_complete 0 root hs (t, p) hp).1 hmw
  exact dressing_covers (p := ⟨t, p.duration, p.port, p.clock⟩)
    (by unfold allPulses; exact List.mem_append_left _ h)

/-- **C22, offsets (partial: as above).**  If a non-zero offset is set at `t`, no zero offset is set
from `t` to `x`, and one is set later on, then the switch is on from a ramp buffer before `t` to a
ramp buffer after `x`. -/
theorem offset_covered_partial {rb : Rat} {root : Items} (hs : SimpleItems root)
    {t x : Rat} {p : PulseInfo} (hp : (t, p) ∈ playedItems 0 root) (hvo : IsVo p)
    (hn : p.nonzero = true) (htx : t ≤ x)
    (hz : ∀ t' p', (t', p') ∈ playedItems 0 root → IsVo p' → p'.port = p.port →
      p'.clock = p.clock → p'.nonzero = false → t ≤ t' → x < t')
    (he : ∃ t' p', (t', p') ∈ playedItems 0 root ∧ IsVo p' ∧ p'.port = p.port ∧
      p'.clock = p.clock ∧ p'.nonzero = false ∧ t ≤ t') :
    ∃ tg ∈ dressing (some rb) root, tg.port = p.port ∧ tg.clock = p.clock ∧
      OnDuring tg (max 0 (t - rb)) (x + rb) := by
  let evs := (collectItems 0 root).2
  let k := (p.port, p.clock)
  let e : VoEvent := ⟨t, p.port, p.clock, p.nonzero⟩
  let l := (groupOf (fun e : VoEvent => (e.port, e.clock)) evs k).mergeSort
        (fun a b => decide (a.absTime ≤ b.absTime))
  have hmeml : ∀ z, z ∈ l ↔ z ∈ evs ∧ z.port = p.port ∧ z.clock = p.clock := by
    intro z
    show z ∈ List.mergeSort _ _ ↔ _
    rw [List.mem_mergeSort]
    unfold groupOf
    rw [List.mem_filter]
    simp [k]
  have hee : e ∈ evs := (collectItems_complete 0 root hs (t, p) hp).2 hvo
  have hel : e ∈ l := (hmeml e).mpr ⟨hee, rfl, rfl⟩
  have hsort : l.Pairwise (fun a b => a.absTime ≤ b.absTime) := sortEv_sorted _
  have hsound : ∀ z ∈ l, ∃ t' p', (t', p') ∈ playedItems 0 root ∧ IsVo p' ∧ p'.port = p.port ∧
      p'.clock = p.clock ∧ z = ⟨t', p'.port, p'.clock, p'.nonzero⟩ := by
    intro z hz'
    obtain ⟨h1, h2, h3⟩ := (hmeml z).mp hz'
    obtain ⟨⟨t', p'⟩, hx, hv, rfl⟩ := (collectItems_sound 0 root hs).2 z h1
    exact ⟨t', p', hx, hv, h2, h3, rfl⟩
  obtain ⟨pre, post, hl⟩ := List.append_of_mem hel
  have hsort2 := hsort
  rw [hl, List.pairwise_append, List.pairwise_cons] at hsort2
  obtain ⟨_, ⟨hpost, _⟩, hpre⟩ := hsort2
  have hmempost : ∀ z ∈ post, z ∈ l := by intro z hz'; rw [hl]; simp [hz']
  have hcov := scan_covers p.port p.clock pre none e post x (by simp) (by rw [← hl]; exact hsort)
    hn htx
    (by
      intro z hz' hz0
      obtain ⟨t', p', h1, h2, h3, h4, rfl⟩ := hsound z (hmempost z hz')
      exact hz t' p' h1 h2 h3 h4 hz0 (hpost _ hz'))
    (by
      obtain ⟨t', p', h1, h2, h3, h4, h5, h6⟩ := he
      have hzl : (⟨t', p'.port, p'.clock, p'.nonzero⟩ : VoEvent) ∈ l :=
        (hmeml _).mpr ⟨(collectItems_complete 0 root hs (t', p') h1).2 h2, h3, h4⟩
      have hxt := hz t' p' h1 h2 h3 h4 h5 h6
      rw [hl] at hzl
      rcases List.mem_append.mp hzl with hzl | hzl
      · exfalso
        have := hpre _ hzl e List.mem_cons_self
        simp only [e] at this
        linarith
      · rcases List.mem_cons.mp hzl with hzl | hzl
        · exfalso
          have hb : p'.nonzero = p.nonzero := congrArg VoEvent.isNonzero hzl
          rw [h5, hn] at hb; cases hb
        · exact ⟨_, hzl, h5⟩)
  rw [← hl] at hcov
  obtain ⟨m, hm, h1, h2, h3, h4⟩ := hcov
  have hma : m ∈ allPulses root := by
    unfold allPulses
    apply List.mem_append_right
    unfold eventsToPulses
    exact List.mem_flatMap.mpr ⟨k, (mem_groupKeys _ _ _).mpr ⟨e, hee, rfl⟩, hm⟩
  obtain ⟨tg, htg, g1, g2, g3, g4⟩ := dressing_covers (rb := rb) hma
  refine ⟨tg, htg, by rw [g1, h3], by rw [g2, h4], le_trans g3 ?_, le_trans ?_ g4⟩
  · exact max_le_max (le_refl _) (by show m.absTime - rb ≤ t - rb; simp only [e] at h1; linarith)
  · linarith

/-- **C22, order.**  The toggles of one port-clock are in order of time and never overlap: each
starts after the previous one has ended. -/
theorem toggles_disjoint {rb : Rat} (hrb : 0 ≤ rb) {root : Items} (hs : SimpleItems root) :
    (dressing (some rb) root).Pairwise (fun a b => a.port = b.port → a.clock = b.clock →
      a.start + a.duration < b.start) := by
  unfold dressing
  simp only
  rw [List.pairwise_flatMap]
  refine ⟨?_, ?_⟩
  · intro k _
    rw [List.pairwise_map]
    obtain ⟨h1, h2⟩ := mergeWindows_sep rb hrb (ps := (groupOf (fun p => (p.port, p.clock))
        (allPulses root) k).mergeSort (fun a b => decide (a.absTime ≤ b.absTime)))
      (by
        intro p hp
        rw [List.mem_mergeSort] at hp
        unfold groupOf at hp
        exact allPulses_nonneg root hs p (List.mem_filter.mp hp).1)
      (sort_sorted _)
    refine h1.imp ?_
    intro v w hvw _ _
    show max 0 (v.1 - rb) + ((v.2 + rb) - max 0 (v.1 - rb)) < max 0 (w.1 - rb)
    refine lt_of_lt_of_le ?_ (le_max_right _ _)
    have : (0 : Rat) < atol := by unfold atol; norm_num
    linarith
  · refine (groupKeys_nodup _ _).imp ?_
    intro k k' hk a ha b hb hp hc
    obtain ⟨w, _, rfl⟩ := List.mem_map.mp ha
    obtain ⟨w', _, rfl⟩ := List.mem_map.mp hb
    exact absurd (Prod.ext hp hc) hk

/-- **C22, tightness.**  A toggle starts a ramp buffer before a pulse (or at zero), ends a ramp
buffer after one, and in between every instant is inside a pulse or in a gap of at most two ramp
buffers between two pulses (offset windows count as pulses). -/
theorem toggle_tight {rb : Rat} {root : Items} {tg : Toggle}
    (h : tg ∈ dressing (some rb) root) :
    (∃ p ∈ allPulses root, p.port = tg.port ∧ p.clock = tg.clock ∧
      tg.start = max 0 (p.absTime - rb)) ∧
    (∃ p ∈ allPulses root, p.port = tg.port ∧ p.clock = tg.clock ∧
      tg.start + tg.duration = p.endTime + rb) ∧
    (∀ x, tg.start + rb ≤ x → x ≤ tg.start + tg.duration - rb →
      0 < tg.start → Justified rb (allPulses root) x) := by
  obtain ⟨w, hw, htg⟩ := mem_dressing.mp h
  obtain ⟨⟨p, hp, hp1⟩, ⟨q, hq, hq1⟩, hj⟩ := mergeWindows_tight rb _ w hw
  have hin : ∀ p ∈ (groupOf (fun p => (p.port, p.clock)) (allPulses root)
          (tg.port, tg.clock)).mergeSort (fun a b => decide (a.absTime ≤ b.absTime)),
      p ∈ allPulses root ∧ p.port = tg.port ∧ p.clock = tg.clock := by
    intro p hp
    rw [List.mem_mergeSort] at hp
    unfold groupOf at hp
    obtain ⟨a, b⟩ := List.mem_filter.mp hp
    simp only [beq_iff_eq, Prod.mk.injEq] at b
    exact ⟨a, b⟩
  have hstart : tg.start = max 0 (w.1 - rb) := by rw [htg]; rfl
  have hend : tg.start + tg.duration = w.2 + rb := by
    rw [htg]
    show max 0 (w.1 - rb) + ((w.2 + rb) - max 0 (w.1 - rb)) = _
    ring
  refine ⟨⟨p, (hin p hp).1, (hin p hp).2.1, (hin p hp).2.2, by rw [hstart, hp1]⟩,
    ⟨q, (hin q hq).1, (hin q hq).2.1, (hin q hq).2.2, by rw [hend, hq1]⟩, ?_⟩
  intro x h1 h2 h3
  rw [hend] at h2
  rw [hstart] at h1 h3
  have h4 : w.1 - rb = max 0 (w.1 - rb) := by
    rcases max_choice 0 (w.1 - rb) with h | h
    · rw [h] at h3; exact absurd h3 (lt_irrefl _)
    · exact h.symm
  rw [← h4] at h1
  rcases hj x (by linarith) (by linarith) with ⟨p, hp, h⟩ | ⟨p, hp, q, hq, h⟩
  · exact Or.inl ⟨p, (hin p hp).1, h⟩
  · exact Or.inr ⟨p, (hin p hp).1, q, (hin q hq).1, h⟩

/-- **C22.**  Toggles never start before time zero; nothing is inserted if the pass is disabled or
there is no microwave pulse. -/
theorem toggles_start {c : Option Rat} {root : Items} :
    (∀ tg ∈ dressing c root, 0 ≤ tg.start) ∧ dressing none root = [] ∧
    (allPulses root = [] → dressing c root = []) := by
  refine ⟨?_, rfl, ?_⟩
  · intro tg h
    cases c with
    | none => simp [dressing] at h
    | some rb =>
      obtain ⟨w, _, htg⟩ := mem_dressing.mp h
      rw [htg]; exact le_max_left _ _
  · intro h
    cases c with
    | none => rfl
    | some rb => simp [dressing, h, groupKeys]

/-! ### Instances and findings -/

/-- A microwave pulse. -/
def mw (dur : Rat) : PulseInfo := ⟨"q0:mw", "q0.01", true, 0, dur, false, true, false⟩

/-- A microwave voltage offset. -/
def vo (nz : Bool) : PulseInfo := ⟨"q0:mw", "q0.01", true, 0, 0, false, false, nz⟩

/-- Instance: two close pulses in a sub-schedule, an offset window, a far pulse. -/
def sample : Items :=
  .cons 100 (.sched (.cons 0 (.leaf [mw 20]) (.cons 50 (.leaf [mw 20]) .nil)))
    (.cons 500 (.flow 1 60 (.sched (.cons 0 (.leaf [vo true]) (.cons 60 (.leaf [vo false]) .nil))))
      .nil)

theorem sample_simple : SimpleItems sample := by simp [sample, SimpleItems, SimpleOp]

example : IsMw (mw 20) ∧ (150, mw 20) ∈ playedItems 0 sample := by
  constructor
  · exact ⟨rfl, rfl, rfl, by show (0 : Rat) < 20; norm_num⟩
  · simp [sample, playedItems, playedOp, mw, vo]; try norm_num

example : IsVo (vo true) ∧ (500, vo true) ∈ playedItems 0 sample ∧
    (560, vo false) ∈ playedItems 0 sample := by
  refine ⟨⟨rfl, rfl, rfl, rfl⟩, ?_, ?_⟩
  · simp [sample, playedItems, playedOp, mw, vo]; try norm_num
  · simp [sample, playedItems, playedOp, mw, vo]; try norm_num

/-- The windows of `sample` with a ramp buffer of 20: (100..170) and (500..560). -/
example : mergeWindows 20 [⟨100, 20, "q0:mw", "q0.01"⟩, ⟨150, 20, "q0:mw", "q0.01"⟩,
      ⟨500, 60, "q0:mw", "q0.01"⟩] = [(100, 170), (500, 560)] := by
  decide +kernel

/-- The events of `sample` are turned into the window 500..560. -/
example : scanEvents "q0:mw" "q0.01" none [⟨500, "q0:mw", "q0.01", true⟩,
      ⟨560, "q0:mw", "q0.01", false⟩] = [⟨500, 60, "q0:mw", "q0.01"⟩] := by
  decide +kernel

theorem dressing_single (rb : Rat) (root : Items) (p : MwPulse) (h : allPulses root = [p]) :
    dressing (some rb) root = [toggleOf p.port p.clock rb (p.absTime, p.endTime)] := by
  unfold dressing
  simp [h, groupKeys, groupOf, mergeWindows, mergeLoop]

/-- Finding (violates C22): only the first pass of a loop is covered.  A loop of two passes of
1000 each plays its pulse at 1000 too, where the switch is off. -/
theorem loop_not_covered :
    let root : Items := .cons 0 (.flow 2 1000 (.sched (.cons 0 (.leaf [mw 100]) .nil))) .nil
    (1000, mw 100) ∈ playedItems 0 root ∧ IsMw (mw 100) ∧
    ∀ tg ∈ dressing (some 20) root, tg.start + tg.duration < 1000 := by
  refine ⟨?_, ⟨rfl, rfl, rfl, by show (0 : Rat) < 100; norm_num⟩, ?_⟩
  · simp [playedItems, playedOp, List.range_succ, mw]
  · have : allPulses (.cons 0 (.flow 2 1000 (.sched (.cons 0 (.leaf [mw 100]) .nil))) .nil)
        = [⟨0, 100, "q0:mw", "q0.01"⟩] := by
      simp [allPulses, collectItems, collectOp, collectInfos, collectInfo, mw, eventsToPulses,
        groupKeys]
    intro tg htg
    rw [dressing_single 20 _ _ this] at htg
    simp only [List.mem_singleton] at htg
    subst htg
    simp [toggleOf, MwPulse.endTime]
    norm_num

/-- Finding (violates C22): a control-flow operation whose body is a plain pulse is not covered. -/
theorem plain_body_not_covered :
    let root : Items := .cons 0 (.flow 1 100 (.leaf [mw 100])) .nil
    (0, mw 100) ∈ playedItems 0 root ∧ dressing (some 20) root = [] := by
  refine ⟨by simp [playedItems, playedOp, mw], ?_⟩
  apply toggles_start.2.2
  simp [allPulses, collectItems, collectOp, eventsToPulses, groupKeys]

/-- Finding: an offset that is never set back to zero is not covered at all. -/
theorem open_offset_not_covered :
    dressing (some 20) (.cons 0 (.leaf [vo true]) .nil) = [] := by
  apply toggles_start.2.2
  simp [allPulses, collectItems, collectOp, collectInfos, collectInfo, vo, eventsToPulses,
    groupKeys, groupOf, scanEvents]

end Verif.RfSwitch
