/-
C30: overlapping pulses with voltage offsets.
-/
import Verif.Overlap.Lemmas

set_option linter.unusedSimpArgs false
set_option linter.unusedVariables false

namespace Verif.Overlap

open Verif.StableSort

mutual
theorem collect_sub : ∀ (op : Op) (off : Rat), Runs 1 none op → List.Sublist (collect op off) (plays op off)
  | .plain p, off, _ => by
    simp only [collect, plays]
    by_cases hp : p.infos = []
    · simp [hp, Plain.validPulse, Plain.hasOffset]
    · rw [if_neg hp]
      split
      · exact List.Sublist.refl _
      · exact List.nil_sublist _
  | .loop n d body, off, h => by
    simp only [collect, plays]
    obtain ⟨h1, _, h3⟩ := h
    obtain ⟨m, rfl⟩ : ∃ m, n = m + 1 := ⟨n - 1, by omega⟩
    rw [List.range_succ_eq_map, List.flatMap_cons]
    have := collect_sub body off h3
    have e : off + ((0 : Nat) : Rat) * d = off := by simp
    rw [e]
    exact this.trans (List.sublist_append_left _ _)
  | .conditional body, off, h => by
    simp only [collect, plays]
    exact collect_sub body off h
  | .sched items, off, h => by
    simp only [collect, plays]
    exact collectItems_sub items off h
theorem collectItems_sub : ∀ (items : Items) (off : Rat), RunsItems 1 none items →
    List.Sublist (collectItems items off) (playsItems items off)
  | .nil, off, _ => by simp [collectItems, playsItems]
  | .cons abs op rest, off, h => by
    simp only [collectItems, playsItems]
    exact (collect_sub op _ h.1).append (collectItems_sub rest off h.2)
end

mutual
theorem collect_once : ∀ (op : Op) (off : Rat), Runs 1 (some 1) op → collect op off = plays op off
  | .plain p, off, _ => by
    simp only [collect, plays]
    by_cases hp : p.infos = []
    · simp [hp, Plain.validPulse, Plain.hasOffset]
    · have : p.validPulse = true := by
        unfold Plain.validPulse
        cases hi : p.infos with
        | nil => exact absurd hi hp
        | cons _ _ => rfl
      rw [if_neg hp, this]; rfl
  | .loop n d body, off, h => by
    simp only [collect, plays]
    obtain ⟨h1, h2, h3⟩ := h
    have := h2 1 rfl
    have hn : n = 1 := by omega
    subst hn
    have e : off + ((0 : Nat) : Rat) * d = off := by simp
    simp only [List.range_one, List.flatMap_cons, List.flatMap_nil, List.append_nil, e]
    exact collect_once body off h3
  | .conditional body, off, h => by
    simp only [collect, plays]
    exact collect_once body off h
  | .sched items, off, h => by
    simp only [collect, plays]
    exact collectItems_once items off h
theorem collectItems_once : ∀ (items : Items) (off : Rat), RunsItems 1 (some 1) items →
    collectItems items off = playsItems items off
  | .nil, off, _ => by simp [collectItems, playsItems]
  | .cons abs op rest, off, h => by
    simp only [collectItems, playsItems]
    rw [collect_once op _ h.1, collectItems_once rest off h.2]
end

theorem both_of_neighbours {l m : List (Rat × Plain)} {a b : Rat × Plain} (h : Neighbours l a b)
    (hp : l.Perm m) : Both m a b := by
  obtain ⟨pre, post, rfl⟩ := h
  refine ⟨pre ++ post, ?_⟩
  have h1 : (pre ++ a :: b :: post).Perm (a :: (pre ++ b :: post)) := List.perm_middle
  have h2 : (pre ++ b :: post).Perm (b :: (pre ++ post)) := List.perm_middle
  exact hp.symm.trans (h1.trans (h2.cons a))

theorem both_sublist {l m : List (Rat × Plain)} {a b : Rat × Plain} (h : Both l a b)
    (hs : List.Sublist l m) : Both m a b := by
  obtain ⟨rest, hr⟩ := h
  obtain ⟨r2, hr2⟩ := hs.exists_perm_append
  refine ⟨rest ++ r2, ?_⟩
  exact hr2.trans (hr.append_right r2)

/-- If a schedule is rejected, then two different operations are played of which one has a voltage
offset, and that overlap on some port-clock. -/
theorem rejection_sound (s : Op) (hr : Runs 1 none s)
    (hd : ∀ e ∈ plays s 0, ∀ i ∈ e.2.infos, 0 ≤ i.dur) (h : rejected s = true) :
    ∃ a b, Both (plays s 0) a b ∧ (a.2.hasOffset = true ∨ b.2.hasOffset = true) ∧ Overlap a b := by
  unfold rejected at h
  have hv : ∀ e ∈ sortBy Prod.fst (collect s 0), e.2.validPulse = true :=
    fun e he => collect_valid s 0 e (mem_sortBy.mp he)
  rcases scan_sound _ none hv h with ⟨x, e, rest, hx, _⟩ | ⟨a, b, hn, hab⟩
  · cases hx
  · have hboth := both_sublist (both_of_neighbours hn (sortBy_perm Prod.fst (collect s 0)))
      (collect_sub s 0 hr)
    have hma : a ∈ plays s 0 := by
      obtain ⟨rest, hp⟩ := hboth
      exact hp.mem_iff.mpr (by simp)
    have hmb : b ∈ plays s 0 := by
      obtain ⟨rest, hp⟩ := hboth
      exact hp.mem_iff.mpr (by simp)
    refine ⟨a, b, hboth, ?_, ?_⟩
    · rcases hab with ⟨h1, _⟩ | ⟨h1, _⟩
      · exact .inl h1
      · exact .inr h1
    · rcases hab with ⟨_, h2⟩ | ⟨_, h2⟩
      · obtain ⟨pc, ⟨t, ht⟩, _⟩ := (raises_iff (hd a hma) (hd b hmb)).mp h2
        exact ⟨pc, t, ht⟩
      · obtain ⟨pc, ⟨t, ht⟩, _⟩ := (raises_iff (hd b hmb) (hd a hma)).mp h2
        exact Overlap.symm ⟨pc, t, ht⟩

theorem full_span {e : Rat × Plain} {pc : String × String} (h : e.2.Full pc) :
    Span e pc (e.1, e.1 + e.2.dur) := by
  obtain ⟨hp, ⟨i, hi, h1⟩, ⟨j, hj, h2⟩⟩ := h
  refine ⟨⟨i, hi, by simp [h1]⟩, ?_, ⟨j, hj, by simp only; linarith⟩, ?_⟩
  · intro k hk
    have := hp k (List.mem_filter.mp hk).1
    simp only; linarith
  · intro k hk
    have := hp k (List.mem_filter.mp hk).1
    simp only; linarith

theorem raises_full {a b : Rat × Plain} {pc : String × String} (ha : a.2.Full pc) (hb : b.2.Full pc)
    (h1 : a.1 < b.1) (h2 : b.1 < opEnd a) : raises a b = true ∧ raises b a = true := by
  have sa := full_span ha
  have sb := full_span hb
  unfold opEnd at h2
  constructor
  · rw [raises_spans]
    refine ⟨pc, _, _, sa, sb, ?_⟩
    simp only [overlapping, decide_eq_true_eq]
    exact .inr (.inr (.inl ⟨h1, h2⟩))
  · rw [raises_spans]
    refine ⟨pc, _, _, sb, sa, ?_⟩
    simp only [overlapping, decide_eq_true_eq]
    exact .inl ⟨h1, h2⟩

/-- An overlap that involves a voltage offset is rejected, if all operations play on one port-clock
during their whole duration and start at different times, loops run once, and operations without
voltage offsets do not overlap with each other. (In general it is not: see the cases below.) -/
theorem overlap_rejected_partial (s : Op) (pc : String × String) (hr : Runs 1 (some 1) s)
    (hf : ∀ e ∈ plays s 0, e.2.Full pc)
    (hne : (plays s 0).Pairwise (fun a b => a.1 ≠ b.1))
    (hno : (plays s 0).Pairwise (fun a b => a.2.hasOffset = false → b.2.hasOffset = false →
      opEnd a ≤ b.1 ∨ opEnd b ≤ a.1))
    (a b : Rat × Plain) (hab : Both (plays s 0) a b) (ho : a.2.hasOffset = true ∨ b.2.hasOffset = true)
    (h1 : a.1 ≤ b.1) (h2 : b.1 + 1 / 10 < opEnd a) : rejected s = true := by
  unfold rejected
  rw [collect_once s 0 hr]
  have hp := sortBy_perm Prod.fst (plays s 0)
  have hs := sortBy_sorted Prod.fst (plays s 0)
  have hvalid : ∀ e ∈ sortBy Prod.fst (plays s 0), e.2.validPulse = true := by
    intro e he
    rw [← collect_once s 0 hr] at he
    exact collect_valid s 0 e (mem_sortBy.mp he)
  have hne' : (sortBy Prod.fst (plays s 0)).Pairwise (fun a b => a.1 ≠ b.1) :=
    (hp.pairwise_iff (fun h => h.symm)).mpr hne
  have hno' : (sortBy Prod.fst (plays s 0)).Pairwise (fun a b => a.2.hasOffset = false →
      b.2.hasOffset = false → opEnd a ≤ b.1 ∨ opEnd b ≤ a.1) :=
    (hp.pairwise_iff (fun h ha hb => (h hb ha).symm)).mpr hno
  have hf' : ∀ e ∈ sortBy Prod.fst (plays s 0), e.2.Full pc := fun e he => hf e (mem_sortBy.mp he)
  have hab' : Both (sortBy Prod.fst (plays s 0)) a b := by
    obtain ⟨rest, h⟩ := hab
    exact ⟨rest, hp.trans h⟩
  generalize sortBy Prod.fst (plays s 0) = l at *
  have hlt : l.Pairwise (fun a b => a.1 < b.1) :=
    (hs.and hne').imp (fun h => lt_of_le_of_ne h.1 h.2)
  -- `a` comes before `b`
  obtain ⟨rest, hr2⟩ := hab'
  have hab1 : a.1 ≠ b.1 := by
    have := (hr2.pairwise_iff (R := fun a b : Rat × Plain => a.1 ≠ b.1) (fun h => h.symm)).mp hne'
    rw [List.pairwise_cons] at this
    exact this.1 b (by simp)
  have hab2 : a.1 < b.1 := lt_of_le_of_ne h1 hab1
  have ha : a ∈ l := hr2.mem_iff.mpr (by simp)
  have hb : b ∈ l := hr2.mem_iff.mpr (by simp)
  obtain ⟨pre, suf, rfl⟩ := List.append_of_mem ha
  have hbs : b ∈ suf := by
    rcases List.mem_append.mp hb with h | h
    · rw [List.pairwise_append] at hlt
      have := hlt.2.2 b h a (by simp)
      linarith
    · rcases List.mem_cons.mp h with rfl | h
      · exact absurd rfl hab1
      · exact h
  cases suf with
  | nil => simp at hbs
  | cons c suf =>
    -- the next one starts before the end of `a`
    have hlt' := hlt
    rw [List.pairwise_append, List.pairwise_cons] at hlt'
    obtain ⟨_, ⟨hac, hcs⟩, hpre⟩ := hlt'
    have hac' := hac c (by simp)
    have hcb : c.1 ≤ b.1 := by
      rcases List.mem_cons.mp hbs with rfl | h
      · exact le_refl _
      · exact le_of_lt ((List.pairwise_cons.mp hcs).1 b h)
    have hca : c.1 + 1 / 10 < opEnd a := by linarith
    obtain ⟨hra, hrc⟩ := raises_full (hf' a (by simp)) (hf' c (by simp)) hac' (by linarith)
    by_cases hoc : c.2.hasOffset = true
    · exact scan_finds_second pre a c suf none hvalid hoc hca hrc
    · have hoa : a.2.hasOffset = true := by
        by_contra hoa
        rw [Bool.not_eq_true] at hoa hoc
        rw [List.pairwise_append, List.pairwise_cons] at hno'
        rcases hno'.2.1.1 c (by simp) hoa hoc with h | h
        · linarith
        · have hfull := full_span (hf' c (by simp))
          have hle := span_le (fun i hi => ((hf' c (by simp)).1 i hi).2.1) hfull
          simp only at hle
          unfold opEnd at h
          linarith
      apply scan_finds_first pre a c suf none hvalid hoa hca hra
      intro x hx ht
      cases hpl : pre.getLast? with
      | none => rw [hpl] at hx; simp at hx
      | some y =>
        rw [hpl] at hx
        simp only [Option.some.injEq] at hx
        subst hx
        have hy : y ∈ pre := List.mem_of_getLast? hpl
        have hya := hpre y hy a (by simp)
        exact (raises_full (hf' y (by simp [hy])) (hf' a (by simp)) hya (by linarith)).2


/-! ### Cases -/

/-- A pulse of `d` ns on a port. -/
def pulse (port : String) (d : Rat) : Plain := ⟨[⟨port, "cl", 0, d, true, false⟩], d⟩

/-- A stitched pulse of `d` ns on a port: an offset, a waveform, and the offset reset. -/
def stitched (port : String) (d : Rat) : Plain :=
  ⟨[⟨port, "cl", 0, 0, false, true⟩, ⟨port, "cl", 0, d, true, false⟩, ⟨port, "cl", d, 0, false, true⟩], d⟩

/-- A schedule. -/
def mk : List (Rat × Op) → Op := fun l => .sched (l.foldr (fun x r => .cons x.1 x.2 r) .nil)

theorem full_pulse (port : String) {d : Rat} (h : 0 ≤ d) : (pulse port d).Full (port, "cl") := by
  refine ⟨?_, ⟨⟨port, "cl", 0, d, true, false⟩, by simp [pulse, Plain.on], rfl⟩,
    ⟨⟨port, "cl", 0, d, true, false⟩, by simp [pulse, Plain.on], by simp [pulse]⟩⟩
  intro i hi
  simp only [pulse, List.mem_singleton] at hi
  subst hi
  simp [pulse, h]

theorem full_stitched (port : String) {d : Rat} (h : 0 ≤ d) : (stitched port d).Full (port, "cl") := by
  refine ⟨?_, ⟨⟨port, "cl", 0, 0, false, true⟩, by simp [stitched, Plain.on], rfl⟩,
    ⟨⟨port, "cl", d, 0, false, true⟩, by simp [stitched, Plain.on], by simp [stitched]⟩⟩
  intro i hi
  simp only [stitched, List.mem_cons, List.not_mem_nil, or_false] at hi
  rcases hi with rfl | rfl | rfl <;> simp [stitched, h]

/-- Overlap of operations that play all the time. -/
theorem overlap_full {a b : Rat × Plain} {pc : String × String} (ha : a.2.Full pc) (hb : b.2.Full pc)
    (t : Rat) (h1 : a.1 < t) (h2 : t < opEnd a) (h3 : b.1 ≤ t) (h4 : t ≤ opEnd b) : Overlap a b := by
  refine ⟨pc, t, .inl ⟨?_, ?_⟩⟩
  · rw [within_span (full_span ha)]; exact ⟨h1, h2⟩
  · rw [during_span (full_span hb)]; exact ⟨h3, h4⟩

/-- A schedule with a stitched pulse inside a loop and a conditional, during another pulse. -/
def bad : Op := mk [
  (0, .plain (pulse "p" 20)),
  (100, .loop 1 40 (.conditional (mk [(4, .plain (stitched "p" 20))]))),
  (110, .plain (pulse "p" 60))]

theorem bad_plays : plays bad 0 =
    [(0, pulse "p" 20), (104, stitched "p" 20), (110, pulse "p" 60)] := by
  decide +kernel

theorem bad_rejected : rejected bad = true := by
  unfold rejected
  rw [sortBy_eq_insSort]
  decide +kernel

/-- The hypotheses of `rejection_sound` hold for a schedule that is rejected. -/
example : Runs 1 none bad ∧ (∀ e ∈ plays bad 0, ∀ i ∈ e.2.infos, 0 ≤ i.dur) ∧ rejected bad = true := by
  refine ⟨?_, ?_, bad_rejected⟩
  · simp [bad, mk, Runs, RunsItems]
  · rw [bad_plays]
    decide +kernel

/-- The hypotheses of `overlap_rejected_partial` hold for it as well. -/
example : rejected bad = true := by
  have hf : ∀ e ∈ plays bad 0, e.2.Full ("p", "cl") := by
    rw [bad_plays]
    intro e he
    simp only [List.mem_cons, List.not_mem_nil, or_false] at he
    rcases he with rfl | rfl | rfl
    · exact full_pulse _ (by norm_num)
    · exact full_stitched _ (by norm_num)
    · exact full_pulse _ (by norm_num)
  refine overlap_rejected_partial bad ("p", "cl") (by simp [bad, mk, Runs, RunsItems]) hf ?_ ?_
    (104, stitched "p" 20) (110, pulse "p" 60) ⟨[(0, pulse "p" 20)], ?_⟩ (.inl rfl) ?_ ?_
  · rw [bad_plays]; decide +kernel
  · rw [bad_plays]; decide +kernel
  · rw [bad_plays]; decide +kernel
  · norm_num
  · simp only [opEnd, stitched]; norm_num

/-- Full claim: overlaps that involve voltage offsets are rejected. -/
def Missed (s : Op) : Prop :=
  ∃ a b, Both (plays s 0) a b ∧ a.2.hasOffset = true ∧ Overlap a b ∧ rejected s = false

/-- Missed: the same stitched pulse twice at the same time. -/
theorem missed_same_time :
    Missed (mk [(0, .plain (stitched "p" 20)), (0, .plain (stitched "p" 20))]) := by
  refine ⟨(0, stitched "p" 20), (0, stitched "p" 20), ⟨[], by decide +kernel⟩, rfl,
    overlap_full (full_stitched _ (by norm_num)) (full_stitched _ (by norm_num)) 10 ?_ ?_ ?_ ?_, ?_⟩
  case refine_5 => unfold rejected; rw [sortBy_eq_insSort]; decide +kernel
  all_goals (simp only [opEnd, stitched]; norm_num)

/-- Missed: a stitched pulse during a long pulse, after a short pulse has been played (on another
port) in the meantime. -/
theorem missed_during_long :
    Missed (mk [(0, .plain (pulse "p" 100)), (10, .plain (pulse "q" 10)),
      (40, .plain (stitched "p" 20))]) := by
  refine ⟨(40, stitched "p" 20), (0, pulse "p" 100), ⟨[(10, pulse "q" 10)], by decide +kernel⟩, rfl,
    overlap_full (full_stitched _ (by norm_num)) (full_pulse _ (by norm_num)) 50 ?_ ?_ ?_ ?_, ?_⟩
  case refine_5 => unfold rejected; rw [sortBy_eq_insSort]; decide +kernel
  all_goals (simp only [opEnd, stitched, pulse]; norm_num)

/-- Missed: a pulse during a stitched pulse, if another operation on another port starts first. -/
theorem missed_other_first :
    Missed (mk [(0, .plain (stitched "p" 100)), (10, .plain (pulse "q" 10)),
      (40, .plain (pulse "p" 20))]) := by
  refine ⟨(0, stitched "p" 100), (40, pulse "p" 20), ⟨[(10, pulse "q" 10)], by decide +kernel⟩, rfl,
    overlap_full (full_stitched _ (by norm_num)) (full_pulse _ (by norm_num)) 50 ?_ ?_ ?_ ?_, ?_⟩
  case refine_5 => unfold rejected; rw [sortBy_eq_insSort]; decide +kernel
  all_goals (simp only [opEnd, stitched, pulse]; norm_num)

/-- Missed: a pulse right after a stitched pulse that starts during a pulse on another port. -/
theorem missed_no_look_ahead :
    Missed (mk [(0, .plain (pulse "q" 40)), (20, .plain (stitched "p" 40)),
      (40, .plain (pulse "p" 40))]) := by
  refine ⟨(20, stitched "p" 40), (40, pulse "p" 40), ⟨[(0, pulse "q" 40)], by decide +kernel⟩, rfl,
    overlap_full (full_stitched _ (by norm_num)) (full_pulse _ (by norm_num)) 50 ?_ ?_ ?_ ?_, ?_⟩
  case refine_5 => unfold rejected; rw [sortBy_eq_insSort]; decide +kernel
  all_goals (simp only [opEnd, stitched, pulse]; norm_num)

/-- Missed: a pulse during the second iteration of a loop with a stitched pulse. -/
theorem missed_second_iteration :
    Missed (mk [(0, .loop 2 100 (mk [(0, .plain (stitched "p" 40)), (80, .plain (pulse "p" 20))])),
      (110, .plain (pulse "p" 40))]) := by
  refine ⟨(100, stitched "p" 40), (110, pulse "p" 40),
    ⟨[(0, stitched "p" 40), (80, pulse "p" 20), (180, pulse "p" 20)], by decide +kernel⟩, rfl,
    overlap_full (full_stitched _ (by norm_num)) (full_pulse _ (by norm_num)) 120 ?_ ?_ ?_ ?_, ?_⟩
  case refine_5 => unfold rejected; rw [sortBy_eq_insSort]; decide +kernel
  all_goals (simp only [opEnd, stitched, pulse]; norm_num)

end Verif.Overlap
