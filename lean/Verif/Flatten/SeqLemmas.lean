/-
Lemmas: schedules added in order of time.
-/
import Verif.Flatten.Lemmas
import Verif.Numeric.Props

set_option linter.unusedSimpArgs false
set_option linter.unusedVariables false
set_option linter.unusedSectionVars false

namespace Verif.Flatten

open Verif.StableSort

variable {D α : Type}

theorem ns_close {t : Rat} (h : (onGrid t).isOk = true) :
    |t * 1000000000 - ns t| ≤ 11 / 10000 := by
  unfold onGrid at h
  cases hg : Numeric.toGridTime t 1 with
  | error e => rw [hg] at h; cases h
  | ok n =>
    have h1 := (Numeric.grid_time_iff t 1 n).mp hg
    have : ns t = n := Numeric.pyRound_unique (lt_of_le_of_lt h1.2 (by norm_num))
    rw [this]; exact h1.2

theorem ns_mono {s t : Rat} (h : s ≤ t) : ns s ≤ ns t := Numeric.pyRound_mono (by linarith)

theorem ns_startAt_zero (n : Int) : ns (startAt n 0) = n := by
  have : startAt n 0 * 1000000000 = (n : Rat) := by unfold startAt; ring
  unfold ns; rw [this]; exact Numeric.pyRound_int n

theorem checkAll_ok : ∀ (es : List (Entry D)), checkAll es = .ok () →
    ∀ e ∈ es, (onGrid e.time).isOk = true
  | [], _, e, he => by cases he
  | x :: es, h, e, he => by
    unfold checkAll at h
    cases hx : checkEntry x with
    | error z => rw [hx] at h; cases h
    | ok u =>
      rw [hx] at h
      rcases List.mem_cons.mp he with rfl | he
      · unfold checkEntry at hx
        cases hg : onGrid e.time with
        | error z => rw [hg] at hx; cases hx
        | ok n => rfl
      · exact checkAll_ok es h e he

/-- The infos of an operation in order of insertion. -/
def infosOf (idx : Label × Nat → Option (List Int)) (pc : PC) (es : List (Entry D)) :
    List (Info D) := es.flatMap (entryInfos idx pc)

theorem acqInfos_timing (idx : Label × Nat → Option (List Int)) (pc : PC) (name : String) (n : Int)
    (label : Label) : ∀ (qs : List (Piece D)) (i : Nat),
    (acqInfos idx pc name n label i qs).map Info.timing =
      (qs.filter (fun q => q.port = some pc.1 ∧ q.clock = some pc.2)).map
        (fun q => startAt n q.t0)
  | [], i => rfl
  | q :: qs, i => by
    unfold acqInfos
    rw [List.map_append, acqInfos_timing idx pc name n label qs (i + 1), List.filter_cons]
    by_cases h : q.port = some pc.1 ∧ q.clock = some pc.2
    · simp [h]
    · rw [if_neg h, if_neg (by simpa using h)]; rfl

/-- The pieces of an operation for a port-clock. -/
def pieces (pc : PC) (p : Plain D) : List (Piece D) :=
  (p.pulses.filter (pulseFor pc p.name)) ++
    p.acqs.filter (fun q => q.port = some pc.1 ∧ q.clock = some pc.2)

theorem plainInfos_timing (idx : Label × Nat → Option (List Int)) (pc : PC) (p : Plain D) (n : Int)
    (label : Label) (hw : p.window = false) :
    (plainInfos idx pc p n label).map Info.timing =
      (if p.asm = some pc then [startAt n 0] else []) ++
        (pieces pc p).map (fun q => startAt n q.t0) := by
  unfold plainInfos pieces
  rw [hw]
  simp only [Bool.false_eq_true, if_false, List.map_append, acqInfos_timing]
  rw [List.append_assoc]
  congr 1
  · split <;> rfl
  · congr 1
    rw [List.map_map]; rfl

mutual
theorem quiet_nil (idx : Label × Nat → Option (List Int)) (pc : PC) :
    ∀ (op : Op D) (off : Rat) (label : Label), Quiet pc op →
    infosOf idx pc (entries op off label) = []
  | .plain p, off, label, h => by
    simp only [infosOf, entries, List.flatMap_cons, List.flatMap_nil, List.append_nil, entryInfos]
    rcases h with h | ⟨h1, h2, h3⟩
    · simp [plainInfos, h]
    · cases hw : p.window with
      | true => simp [plainInfos, hw]
      | false =>
        have := plainInfos_timing idx pc p (ns off) label hw
        have hp : pieces pc p = [] := by
          unfold pieces
          rw [List.append_eq_nil_iff, List.filter_eq_nil_iff, List.filter_eq_nil_iff]
          exact ⟨fun q hq => by simp [h2 q hq], fun q hq => by simpa using h3 q hq⟩
        rw [hp, if_neg h1] at this
        simpa using this
  | .sched items, off, label, h => itemsQuiet_nil idx pc items off label h
  | .ctl c dur body, off, label, h => by
    have ih := quiet_nil idx pc body off (label ++ [none]) h.1
    unfold infosOf at ih
    simp [infosOf, entries, entryInfos, List.mem_dedup, h.2, ih]
theorem itemsQuiet_nil (idx : Label × Nat → Option (List Int)) (pc : PC) :
    ∀ (items : Items D) (off : Rat) (label : Label), ItemsQuiet pc items →
    infosOf idx pc (itemEntries items off label) = []
  | .nil, off, label, h => rfl
  | .cons name abs op rest, off, label, h => by
    have h1 := quiet_nil idx pc op (off + abs) (label ++ [some name]) h.1
    have h2 := itemsQuiet_nil idx pc rest off label h.2
    unfold infosOf at h1 h2 ⊢
    rw [itemEntries, List.flatMap_append, h1, h2]; rfl
end

mutual
theorem sequential_nonneg (pc : PC) : ∀ (op : Op D) (w : Rat), Sequential pc op w → 0 ≤ w
  | .plain p, w, h => h.1
  | .sched items, w, h => itemsSequential_le pc items 0 w h
  | .ctl c dur body, w, h => le_trans (sequential_nonneg pc body dur h.2.1) h.2.2
theorem itemsSequential_le (pc : PC) : ∀ (items : Items D) (cursor w : Rat),
    ItemsSequential pc items cursor w → cursor ≤ w
  | .nil, cursor, w, h => h
  | .cons name abs op rest, cursor, w, h => by
    rcases h with ⟨_, h⟩ | ⟨h1, d, h2, h3⟩
    · exact itemsSequential_le pc rest cursor w h
    · have := sequential_nonneg pc op d h2
      have := itemsSequential_le pc rest (abs + d) w h3
      linarith
end

/-- Both keys. -/
def Le2 (x y : Info D) : Prop := ns x.timing ≤ ns y.timing ∧ x.start ≤ y.start

/-- In the window, up to the tolerance of the grid. -/
def InWindow (lo hi : Rat) (x : Info D) : Prop :=
  (lo * 1000000000 - 22 / 10000 ≤ ns x.timing ∧ (ns x.timing : Rat) ≤ hi * 1000000000 + 22 / 10000) ∧
  lo * 1000000000 - 22 / 10000 ≤ x.start ∧ (x.start : Rat) ≤ hi * 1000000000 + 22 / 10000

theorem InWindow.le2 {lo mid mid' hi : Rat} {x y : Info D} (hx : InWindow lo mid x)
    (hy : InWindow mid' hi y) (hm : mid ≤ mid') : Le2 x y := by
  constructor
  · have h1 := hx.1.2
    have h2 := hy.1.1
    have : ((ns x.timing - ns y.timing : Int) : Rat) < 1 := by push_cast; linarith
    have h3 : ns x.timing - ns y.timing < 1 := by exact_mod_cast this
    omega
  · have h1 := hx.2.2
    have h2 := hy.2.1
    have : ((x.start - y.start : Int) : Rat) < 1 := by push_cast; linarith
    have h3 : x.start - y.start < 1 := by exact_mod_cast this
    omega

theorem InWindow.mono {lo hi lo' hi' : Rat} {x : Info D} (h : InWindow lo hi x) (h1 : lo' ≤ lo)
    (h2 : hi ≤ hi') : InWindow lo' hi' x := by
  refine ⟨⟨?_, ?_⟩, ?_, ?_⟩ <;> [have := h.1.1; have := h.1.2; have := h.2.1; have := h.2.2] <;>
    linarith

theorem marker_window (off w : Rat) (hw : 0 ≤ w) (hg : (onGrid off).isOk = true) (name : String)
    (d : Data D) : InWindow off (off + w) ⟨name, d, startAt (ns off) 0, ns off⟩ := by
  have := abs_le.mp (ns_close hg)
  unfold InWindow
  simp only [ns_startAt_zero]
  refine ⟨⟨?_, ?_⟩, ?_, ?_⟩ <;> linarith [this.1, this.2]

mutual
theorem sequential_infos (idx : Label × Nat → Option (List Int)) (pc : PC) :
    ∀ (op : Op D) (off w : Rat) (label : Label), Sequential pc op w →
    (∀ e ∈ entries op off label, (onGrid e.time).isOk = true) →
    (∀ x ∈ infosOf idx pc (entries op off label), (onGrid x.timing).isOk = true) →
    (∀ x ∈ infosOf idx pc (entries op off label), InWindow off (off + w) x) ∧
    (infosOf idx pc (entries op off label)).Pairwise Le2
  | .plain p, off, w, label, h, hg, hx => by
    simp only [infosOf, entries, List.flatMap_cons, List.flatMap_nil, List.append_nil,
      entryInfos] at hx ⊢
    have hoff : (onGrid off).isOk = true := hg ⟨off, .op p, label⟩ (by simp [entries])
    have hclose := abs_le.mp (ns_close hoff)
    have hstart : ∀ x ∈ plainInfos idx pc p (ns off) label, x.start = ns off :=
      entryInfos_start idx pc ⟨off, .op p, label⟩
    cases hw : p.window with
    | true => simp [plainInfos, hw]
    | false =>
      obtain ⟨hasm, hpw, hb⟩ := h.2 hw
      change (pieces pc p).Pairwise _ at hpw
      change ∀ q ∈ pieces pc p, _ at hb
      have htim := plainInfos_timing idx pc p (ns off) label hw
      have hmem : ∀ x ∈ plainInfos idx pc p (ns off) label,
          ∃ t0, 0 ≤ t0 ∧ t0 ≤ w ∧ x.timing = startAt (ns off) t0 := by
        intro x hxm
        have : x.timing ∈ (plainInfos idx pc p (ns off) label).map Info.timing :=
          List.mem_map_of_mem hxm
        rw [htim] at this
        rcases List.mem_append.mp this with h1 | h1
        · split at h1
          · rw [List.mem_singleton] at h1; exact ⟨0, le_refl _, h.1, h1⟩
          · cases h1
        · obtain ⟨q, hq, hqe⟩ := List.mem_map.mp h1
          exact ⟨q.t0, (hb q hq).1, (hb q hq).2, hqe.symm⟩
      refine ⟨?_, ?_⟩
      · intro x hxm
        obtain ⟨t0, h0, h1, h2⟩ := hmem x hxm
        have hc := abs_le.mp (ns_close (hx x hxm))
        rw [h2] at hc
        have hs := hstart x hxm
        have hval : startAt (ns off) t0 * 1000000000 = (ns off : Rat) + t0 * 1000000000 := by
          unfold startAt; ring
        rw [hval] at hc
        unfold InWindow
        rw [hs, h2]
        have hw0 := h.1
        refine ⟨⟨?_, ?_⟩, ?_, ?_⟩ <;> linarith [hc.1, hc.2, hclose.1, hclose.2]
      · have hpt : ((plainInfos idx pc p (ns off) label).map Info.timing).Pairwise
            (fun s t => ns s ≤ ns t) := by
          rw [htim]
          have hmap : ((pieces pc p).map (fun q => startAt (ns off) q.t0)).Pairwise
              (fun s t => ns s ≤ ns t) := by
            rw [List.pairwise_map]
            refine hpw.imp ?_
            intro a b hab
            exact ns_mono (by unfold startAt; linarith)
          by_cases ha : p.asm = some pc
          · obtain ⟨e1, e2⟩ := hasm ha
            simp [ha, pieces, e1, e2]
          · rw [if_neg ha]; simpa using hmap
        rw [List.pairwise_map] at hpt
        rw [List.pairwise_iff_forall_sublist] at hpt ⊢
        intro a b hab
        refine ⟨hpt hab, ?_⟩
        rw [hstart a (hab.subset (by simp)), hstart b (hab.subset (by simp))]
  | .sched items, off, w, label, h, hg, hx => by
    have := itemsSequential_infos idx pc items off 0 w label h hg hx
    rw [add_zero] at this
    exact this
  | .ctl c dur body, off, w, label, h, hg, hx => by
    obtain ⟨hc0, hbody, hdw⟩ := h
    have hd0 := sequential_nonneg pc body dur hbody
    have hgb : ∀ e ∈ entries body off (label ++ [none]), (onGrid e.time).isOk = true :=
      fun e he => hg e (by simp [entries, he])
    have hoff : (onGrid off).isOk = true :=
      hg ⟨off, .start c body.used.dedup body.allValid, label ++ [none]⟩ (by simp [entries])
    have hend : (onGrid (off + dur)).isOk = true :=
      hg ⟨off + dur, .stop body.used.dedup body.allValid, label ++ [none]⟩ (by simp [entries])
    have hsplit : infosOf idx pc (entries (.ctl c dur body) off label) =
        (if pc ∈ body.used then
          [⟨c.name, .loopStart c.data, startAt (ns off) c.t0, ns off⟩] else []) ++
        (infosOf idx pc (entries body off (label ++ [none])) ++
        (if pc ∈ body.used then
          [⟨"ControlFlowReturn", .loopStop, startAt (ns (off + dur)) 0, ns (off + dur)⟩]
          else [])) := by
      simp [infosOf, entries, entryInfos, List.mem_dedup]
    rw [hsplit] at hx ⊢
    have ih := sequential_infos idx pc body off dur (label ++ [none]) hbody hgb
      (fun x hxm => hx x (by simp [hxm]))
    rw [hc0]
    have w1 := marker_window (D := D) off 0 (le_refl _) hoff c.name (.loopStart c.data)
    have w2 := marker_window (D := D) (off + dur) 0 (le_refl _) hend "ControlFlowReturn" .loopStop
    rw [add_zero] at w1 w2
    by_cases hu : pc ∈ body.used
    · simp only [if_pos hu]
      refine ⟨?_, ?_⟩
      · intro x hxm
        simp only [List.mem_append, List.mem_singleton] at hxm
        rcases hxm with rfl | hxm | rfl
        · exact w1.mono (le_refl _) (by linarith)
        · exact (ih.1 x hxm).mono (le_refl _) (by linarith)
        · exact w2.mono (by linarith) (by linarith)
      · rw [List.pairwise_append, List.pairwise_append]
        refine ⟨List.pairwise_singleton _ _, ⟨ih.2, List.pairwise_singleton _ _, ?_⟩, ?_⟩
        · intro x hxm y hy
          rw [List.mem_singleton] at hy; subst hy
          exact (ih.1 x hxm).le2 w2 (le_refl _)
        · intro x hxm y hy
          rw [List.mem_singleton] at hxm; subst hxm
          rcases List.mem_append.mp hy with hy | hy
          · exact w1.le2 (ih.1 y hy) (le_refl _)
          · rw [List.mem_singleton] at hy; subst hy
            exact w1.le2 w2 (by linarith)
    · simp only [if_neg hu, List.nil_append, List.append_nil]
      exact ⟨fun x hxm => (ih.1 x hxm).mono (le_refl _) (by linarith), ih.2⟩
theorem itemsSequential_infos (idx : Label × Nat → Option (List Int)) (pc : PC) :
    ∀ (items : Items D) (off cursor w : Rat) (label : Label), ItemsSequential pc items cursor w →
    (∀ e ∈ itemEntries items off label, (onGrid e.time).isOk = true) →
    (∀ x ∈ infosOf idx pc (itemEntries items off label), (onGrid x.timing).isOk = true) →
    (∀ x ∈ infosOf idx pc (itemEntries items off label), InWindow (off + cursor) (off + w) x) ∧
    (infosOf idx pc (itemEntries items off label)).Pairwise Le2
  | .nil, off, cursor, w, label, h, hg, hx => by
    simp [infosOf, itemEntries]
  | .cons name abs op rest, off, cursor, w, label, h, hg, hx => by
    have hsplit : infosOf idx pc (itemEntries (.cons name abs op rest) off label) =
        infosOf idx pc (entries op (off + abs) (label ++ [some name])) ++
        infosOf idx pc (itemEntries rest off label) := by
      simp [infosOf, itemEntries]
    have hgr : ∀ e ∈ itemEntries rest off label, (onGrid e.time).isOk = true :=
      fun e he => hg e (by simp [itemEntries, he])
    rw [hsplit] at hx ⊢
    rcases h with ⟨hq, h⟩ | ⟨h1, d, h2, h3⟩
    · have hnil := quiet_nil idx pc op (off + abs) (label ++ [some name]) hq
      rw [hnil, List.nil_append] at hx ⊢
      exact itemsSequential_infos idx pc rest off cursor w label h hgr hx
    · have i1 := sequential_infos idx pc op (off + abs) d (label ++ [some name]) h2
        (fun e he => hg e (by simp [itemEntries, he])) (fun x hxm => hx x (by simp [hxm]))
      have i2 := itemsSequential_infos idx pc rest off (abs + d) w label h3 hgr
        (fun x hxm => hx x (by simp [hxm]))
      have hd := sequential_nonneg pc op d h2
      have hw := itemsSequential_le pc rest (abs + d) w h3
      refine ⟨?_, ?_⟩
      · intro x hxm
        rcases List.mem_append.mp hxm with hxm | hxm
        · exact (i1.1 x hxm).mono (by linarith) (by linarith)
        · exact (i2.1 x hxm).mono (by linarith) (le_refl _)
      · rw [List.pairwise_append]
        exact ⟨i1.2, i2.2, fun x hxm y hy => (i1.1 x hxm).le2 (i2.1 y hy) (by linarith)⟩
end

end Verif.Flatten
