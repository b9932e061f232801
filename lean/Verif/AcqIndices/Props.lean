/-
C19: acquisition indices of a channel are 0..n-1, each used once.
-/
import Verif.AcqIndices.Model
import Mathlib.Data.List.Nodup
import Mathlib.Data.List.Range
import Mathlib.Algebra.BigOperators.Group.List.Basic
import Mathlib.Tactic.NormNum
import Mathlib.Algebra.Order.Field.Rat

set_option linter.unusedSimpArgs false
set_option linter.unusedVariables false
set_option linter.unusedSectionVars false

namespace Verif.AcqIndices

variable {Ch U : Type} [DecidableEq Ch]

/-! ### Specification -/

/-- Binned acquisitions get acquisition indices. -/
def Binned (a : Acq Ch U) : Prop :=
  isAverage a.info.protocol a.info.mode = true ∨ isAppend a.info.protocol a.info.mode = true

/-- The entries one acquisition takes: one if averaged, one per repetition of the loops around it if
appended. -/
def entries (a : Acq Ch U) : List (Coord U) :=
  if isAverage a.info.protocol a.info.mode then [⟨a.info.coords, none, none⟩]
  else if isAppend a.info.protocol a.info.mode then appendCoords a
  else []

/-- The entries of a channel for a list of acquisitions. -/
def channel (ch : Ch) (l : List (Acq Ch U)) : List (Coord U) :=
  (l.filter (fun a => decide (a.info.ch = ch))).flatMap entries

/-- The indices of acquisition `a` when the acquisitions `before` came before. -/
def indices (before : List (Acq Ch U)) (a : Acq Ch U) : List Nat :=
  List.range' (channel a.info.ch before).length (entries a).length

/-- The indices stored for an acquisition. -/
def Idx.toList : Idx → List Nat
  | .one n => [n]
  | .many l => l

/-- When an acquisition is accepted after the acquisitions `before`. -/
def OkAt (before : List (Acq Ch U)) (a : Acq Ch U) : Prop :=
  (∀ b ∈ before, b.info.ch = a.info.ch →
    b.info.protocol = a.info.protocol ∧ b.info.mode = a.info.mode) ∧
  (isAverage a.info.protocol a.info.mode = true →
    a.info.index = none ∨ a.info.index = some ((channel a.info.ch before).length : Int)) ∧
  (Binned a ∨
    (isTrace a.info.protocol a.info.mode = true ∧ ∀ b ∈ before, b.info.ch ≠ a.info.ch) ∨
    isDistribution a.info.protocol a.info.mode = true)

/-! ### Invariant -/

structure Inv (P : List (Acq Ch U)) (st : St Ch U) : Prop where
  none : ∀ ch, Dict.get? st.chans ch = none ↔ ∀ a ∈ P, a.info.ch ≠ ch
  some : ∀ ch d, Dict.get? st.chans ch = some d → ∀ a ∈ P, a.info.ch = ch →
    d.protocol = a.info.protocol ∧ d.mode = a.info.mode ∧
    (Binned a → d.coords = .list (channel ch P))
  map : ∀ P1 a P2, P = P1 ++ a :: P2 → Binned a →
    ∃ i, Dict.get? st.map a.key = .some i ∧ i.toList = indices P1 a

theorem Inv.init : Inv ([] : List (Acq Ch U)) ⟨[], []⟩ :=
  ⟨fun ch => by simp [Dict.get?_nil], fun ch d h => by simp [Dict.get?_nil] at h,
    fun P1 a P2 h => by simp at h⟩

theorem channel_append (ch : Ch) (l m : List (Acq Ch U)) :
    channel ch (l ++ m) = channel ch l ++ channel ch m := by
  unfold channel; rw [List.filter_append, List.flatMap_append]

theorem channel_one (ch : Ch) (a : Acq Ch U) :
    channel ch [a] = if a.info.ch = ch then entries a else [] := by
  unfold channel
  by_cases h : a.info.ch = ch <;> simp [h]

theorem trace_not_binned {a : Acq Ch U} (h : isTrace a.info.protocol a.info.mode = true) :
    isAverage a.info.protocol a.info.mode = false ∧ isAppend a.info.protocol a.info.mode = false := by
  unfold isTrace at h
  simp only [Bool.and_eq_true, Bool.or_eq_true, beq_iff_eq] at h
  obtain ⟨h1, h2⟩ := h
  rw [h1]
  rcases h2 with h2 | h2 <;> rw [h2] <;> decide

theorem distribution_not_binned {a : Acq Ch U}
    (h : isDistribution a.info.protocol a.info.mode = true) :
    isAverage a.info.protocol a.info.mode = false ∧ isAppend a.info.protocol a.info.mode = false ∧
      isTrace a.info.protocol a.info.mode = false := by
  unfold isDistribution at h
  simp only [Bool.and_eq_true, beq_iff_eq] at h
  rw [h.1, h.2]
  decide

/-- A split of a list with one more element. -/
theorem split_snoc {A : Type} {P : List A} {a b : A} {P1 P2 : List A} (h : P ++ [a] = P1 ++ b :: P2) :
    (P1 = P ∧ b = a ∧ P2 = []) ∨ ∃ P2', P2 = P2' ++ [a] ∧ P = P1 ++ b :: P2' := by
  rcases List.eq_nil_or_concat P2 with rfl | ⟨P2', c, rfl⟩
  · left
    have := List.append_inj' h rfl
    exact ⟨this.1.symm, by simpa using this.2.symm, rfl⟩
  · right
    rw [List.concat_eq_append] at h ⊢
    rw [← List.cons_append, ← List.append_assoc] at h
    have := List.append_inj' h rfl
    have hc : a = c := by simpa using this.2
    exact ⟨P2', by rw [hc], this.1⟩

/-- Storing the data of an acquisition. -/
theorem inv_store {P : List (Acq Ch U)} {st : St Ch U} (hi : Inv P st) (a : Acq Ch U)
    (hcomp : ∀ b ∈ P, b.info.ch = a.info.ch → b.info.protocol = a.info.protocol ∧ b.info.mode = a.info.mode)
    (d : Data U) (hd1 : d.protocol = a.info.protocol) (hd2 : d.mode = a.info.mode)
    (hd3 : Binned a → d.coords = .list (channel a.info.ch P ++ entries a))
    (m : List ((Label × Nat) × Idx))
    (hm1 : Binned a → ∃ i, Dict.get? m a.key = some i ∧ i.toList = indices P a)
    (hm2 : ∀ b ∈ P, Dict.get? m b.key = Dict.get? st.map b.key) :
    Inv (P ++ [a]) ⟨Dict.set st.chans a.info.ch d, m⟩ := by
  refine ⟨?_, ?_, ?_⟩
  · intro ch
    simp only [Dict.get?_set]
    by_cases h : ch = a.info.ch
    · rw [if_pos h]
      constructor
      · intro hn; cases hn
      · intro hn
        exact absurd h.symm (hn a (by simp))
    · rw [if_neg h, hi.none ch]
      constructor
      · intro hn b hb
        rcases List.mem_append.mp hb with hb | hb
        · exact hn b hb
        · simp only [List.mem_singleton] at hb
          subst hb; exact fun e => h e.symm
      · intro hn b hb
        exact hn b (List.mem_append_left _ hb)
  · intro ch d' hd' b hb hbc
    simp only [Dict.get?_set] at hd'
    by_cases h : ch = a.info.ch
    · rw [if_pos h] at hd'
      have := Option.some.inj hd'
      subst this
      have hba : b.info.protocol = a.info.protocol ∧ b.info.mode = a.info.mode := by
        rcases List.mem_append.mp hb with hb | hb
        · exact hcomp b hb (hbc.trans h)
        · simp only [List.mem_singleton] at hb
          subst hb; exact ⟨rfl, rfl⟩
      refine ⟨by rw [hd1, hba.1], by rw [hd2, hba.2], ?_⟩
      intro hbin
      have hbin' : Binned a := by
        unfold Binned at hbin ⊢
        rw [hba.1, hba.2] at hbin
        exact hbin
      rw [hd3 hbin', channel_append, channel_one, h, if_pos rfl]
    · rw [if_neg h] at hd'
      have hb' : b ∈ P := by
        rcases List.mem_append.mp hb with hb | hb
        · exact hb
        · simp only [List.mem_singleton] at hb
          subst hb; exact absurd hbc.symm h
      obtain ⟨h1, h2, h3⟩ := hi.some ch d' hd' b hb' hbc
      refine ⟨h1, h2, fun hbin => ?_⟩
      rw [h3 hbin, channel_append, channel_one, if_neg (fun e => h e.symm), List.append_nil]
  · intro P1 b P2 hsplit hbin
    rcases split_snoc hsplit with ⟨rfl, rfl, rfl⟩ | ⟨P2', rfl, hP⟩
    · exact hm1 hbin
    · obtain ⟨i, h1, h2⟩ := hi.map P1 b P2' hP hbin
      refine ⟨i, ?_, h2⟩
      simp only
      rw [hm2 b (by rw [hP]; simp)]
      exact h1

/-- The data of the channel of a binned acquisition. -/
theorem dataOf_spec {P : List (Acq Ch U)} {st : St Ch U} (hi : Inv P st) (a : Acq Ch U)
    (hcomp : ∀ b ∈ P, b.info.ch = a.info.ch → b.info.protocol = a.info.protocol ∧ b.info.mode = a.info.mode)
    (hbin : Binned a) :
    (dataOf st a).protocol = a.info.protocol ∧ (dataOf st a).mode = a.info.mode ∧
      (dataOf st a).coords = .list (channel a.info.ch P) := by
  unfold dataOf
  cases hg : Dict.get? st.chans a.info.ch with
  | none =>
    have hn := (hi.none a.info.ch).mp hg
    refine ⟨rfl, rfl, ?_⟩
    simp only [Option.getD_none]
    have : channel a.info.ch P = [] := by
      unfold channel
      rw [List.filter_eq_nil_iff.mpr]
      · rfl
      · intro b hb; simpa using hn b hb
    rw [this]
  | some d =>
    have hex : ∃ b ∈ P, b.info.ch = a.info.ch := by
      by_contra hne
      push Not at hne
      rw [(hi.none a.info.ch).mpr hne] at hg
      cases hg
    obtain ⟨b, hb, hbc⟩ := hex
    obtain ⟨h1, h2, h3⟩ := hi.some _ d hg b hb hbc
    obtain ⟨c1, c2⟩ := hcomp b hb hbc
    simp only [Option.getD_some]
    refine ⟨h1.trans c1, h2.trans c2, h3 ?_⟩
    unfold Binned at hbin ⊢
    rw [c1, c2]; exact hbin

theorem compatible_iff {P : List (Acq Ch U)} {st : St Ch U} (hi : Inv P st) (a : Acq Ch U) :
    compatible st a = true ↔ ∀ b ∈ P, b.info.ch = a.info.ch →
      b.info.protocol = a.info.protocol ∧ b.info.mode = a.info.mode := by
  unfold compatible
  cases hg : Dict.get? st.chans a.info.ch with
  | none =>
    have hn := (hi.none a.info.ch).mp hg
    simp only [true_iff]
    intro b hb hbc
    exact absurd hbc (hn b hb)
  | some d =>
    simp only [Bool.and_eq_true, beq_iff_eq]
    constructor
    · intro h b hb hbc
      obtain ⟨h1, h2, _⟩ := hi.some _ d hg b hb hbc
      exact ⟨h1.symm.trans h.1, h2.symm.trans h.2⟩
    · intro h
      have hex : ∃ b ∈ P, b.info.ch = a.info.ch := by
        by_contra hne
        push Not at hne
        rw [(hi.none a.info.ch).mpr hne] at hg
        cases hg
      obtain ⟨b, hb, hbc⟩ := hex
      obtain ⟨h1, h2, _⟩ := hi.some _ d hg b hb hbc
      exact ⟨h1.trans (h b hb hbc).1, h2.trans (h b hb hbc).2⟩

/-- One acquisition. -/
theorem step_spec {P : List (Acq Ch U)} {st : St Ch U} (hi : Inv P st) (a : Acq Ch U)
    (hkey : ∀ b ∈ P, b.key ≠ a.key) :
    (OkAt P a → ∃ st', step st a = .ok st' ∧ Inv (P ++ [a]) st') ∧
    (¬ OkAt P a → step st a = .error .valueError) := by
  have hset : ∀ i, ∀ b ∈ P, Dict.get? (Dict.set st.map a.key i) b.key = Dict.get? st.map b.key :=
    fun i b hb => Dict.get?_set_ne _ _ (hkey b hb)
  by_cases hc : compatible st a = true
  · have hcomp := (compatible_iff hi a).mp hc
    unfold step
    rw [hc]
    simp only [Bool.not_true, Bool.false_eq_true, if_false]
    by_cases hav : isAverage a.info.protocol a.info.mode = true
    · have hbin : Binned a := Or.inl hav
      obtain ⟨d1, d2, d3⟩ := dataOf_spec hi a hcomp hbin
      have hent : entries a = [⟨a.info.coords, none, none⟩] := by unfold entries; rw [if_pos hav]
      rw [if_pos hav]
      unfold stepAverage
      rw [d3]
      simp only
      by_cases hix : a.info.index.isSome ∧ a.info.index ≠ some ((channel a.info.ch P).length : Int)
      · rw [if_pos hix]
        refine ⟨?_, fun _ => rfl⟩
        intro hok
        rcases hok.2.1 hav with h | h
        · rw [h] at hix; simp at hix
        · exact absurd h hix.2
      · rw [if_neg hix]
        refine ⟨fun _ => ⟨_, rfl, ?_⟩, fun hn => ?_⟩
        · refine inv_store hi a hcomp ⟨_, _, .list _⟩ d1 d2 ?_ _ ?_ ?_
          · intro _; simp only [hent]
          · intro _
            refine ⟨_, Dict.get?_set_self _ _ _, ?_⟩
            unfold indices
            rw [hent]; rfl
          · exact hset _
        · exfalso
          apply hn
          refine ⟨hcomp, fun _ => ?_, Or.inl hbin⟩
          by_contra h
          push Not at h
          apply hix
          exact ⟨by rw [Option.isSome_iff_ne_none]; exact h.1, h.2⟩
    · have hav' : isAverage a.info.protocol a.info.mode = false := by simpa using hav
      rw [if_neg hav]
      by_cases hap : isAppend a.info.protocol a.info.mode = true
      · have hbin : Binned a := Or.inr hap
        obtain ⟨d1, d2, d3⟩ := dataOf_spec hi a hcomp hbin
        have hent : entries a = appendCoords a := by unfold entries; rw [if_neg hav, if_pos hap]
        rw [if_pos hap]
        unfold stepAppend
        rw [d3]
        simp only
        refine ⟨fun _ => ⟨_, rfl, ?_⟩, fun hn => ?_⟩
        · refine inv_store hi a hcomp ⟨_, _, .list _⟩ d1 d2 ?_ _ ?_ ?_
          · intro _; simp only [hent]
          · intro _
            refine ⟨_, Dict.get?_set_self _ _ _, ?_⟩
            unfold indices
            rw [hent]; rfl
          · exact hset _
        · exact absurd ⟨hcomp, fun h => absurd h hav, Or.inl hbin⟩ hn
      · rw [if_neg hap]
        have hnb : ¬ Binned a := by rintro (h | h) <;> [exact hav h; exact hap h]
        by_cases htr : isTrace a.info.protocol a.info.mode = true
        · rw [if_pos htr]
          cases hg : Dict.get? st.chans a.info.ch with
          | none =>
            have hn := (hi.none a.info.ch).mp hg
            refine ⟨fun _ => ⟨_, rfl, ?_⟩, fun hno => ?_⟩
            · exact inv_store hi a hcomp _ rfl rfl (fun h => absurd h hnb) st.map
                (fun h => absurd h hnb) (fun b _ => rfl)
            · exact absurd ⟨hcomp, fun h => absurd h hav, Or.inr (Or.inl ⟨htr, hn⟩)⟩ hno
          | some d =>
            refine ⟨?_, fun _ => rfl⟩
            rintro ⟨_, _, h | h | h⟩
            · exact absurd h hnb
            · rw [(hi.none a.info.ch).mpr h.2] at hg; cases hg
            · have := (distribution_not_binned h).2.2
              rw [htr] at this; cases this
        · rw [if_neg htr]
          by_cases hdi : isDistribution a.info.protocol a.info.mode = true
          · rw [if_pos hdi]
            refine ⟨fun _ => ⟨_, rfl, ?_⟩, fun hno => ?_⟩
            · exact inv_store hi a hcomp _ rfl rfl (fun h => absurd h hnb) st.map
                (fun h => absurd h hnb) (fun b _ => rfl)
            · exact absurd ⟨hcomp, fun h => absurd h hav, Or.inr (Or.inr hdi)⟩ hno
          · rw [if_neg hdi]
            refine ⟨?_, fun _ => rfl⟩
            rintro ⟨_, _, h | h | h⟩
            · exact absurd h hnb
            · exact absurd h.1 htr
            · exact absurd h hdi
  · have hc' : compatible st a = false := by simpa using hc
    unfold step
    rw [hc']
    refine ⟨?_, fun _ => rfl⟩
    intro hok
    exact absurd ((compatible_iff hi a).mpr hok.1) hc

theorem run_spec : ∀ (as P : List (Acq Ch U)) (st : St Ch U), Inv P st →
    ((P ++ as).map Acq.key).Nodup →
    ((∀ P1 a P2, as = P1 ++ a :: P2 → OkAt (P ++ P1) a) →
      ∃ st', run as st = .ok st' ∧ Inv (P ++ as) st') ∧
    ((∃ P1 a P2, as = P1 ++ a :: P2 ∧ ¬ OkAt (P ++ P1) a) → run as st = .error .valueError) := by
  intro as
  induction as with
  | nil =>
    intro P st hi _
    refine ⟨fun _ => ⟨st, rfl, by simpa using hi⟩, ?_⟩
    rintro ⟨P1, a, P2, h, _⟩
    simp at h
  | cons a as ih =>
    intro P st hi hnd
    have hkey : ∀ b ∈ P, b.key ≠ a.key := by
      intro b hb heq
      rw [List.map_append, List.nodup_append] at hnd
      exact hnd.2.2 b.key (List.mem_map.mpr ⟨b, hb, rfl⟩) a.key (by simp) heq
    obtain ⟨s1, s2⟩ := step_spec hi a hkey
    by_cases hok : OkAt P a
    · obtain ⟨st1, hst1, hi1⟩ := s1 hok
      have hassoc : (P ++ [a]) ++ as = P ++ a :: as := by simp
      obtain ⟨t1, t2⟩ := ih (P ++ [a]) st1 hi1 (by rw [hassoc]; exact hnd)
      have hrun : run (a :: as) st = run as st1 := by
        show (do let st ← step st a; run as st) = _
        rw [hst1]; rfl
      rw [hrun, ← hassoc]
      refine ⟨fun h => t1 ?_, fun h => t2 ?_⟩
      · intro P1 b P2 hs
        have := h (a :: P1) b P2 (by rw [hs]; rfl)
        simpa using this
      · obtain ⟨P1, b, P2, hs, hno⟩ := h
        cases P1 with
        | nil =>
          simp only [List.nil_append, List.cons.injEq] at hs
          rw [List.append_nil, ← hs.1] at hno
          exact absurd hok hno
        | cons c P1 =>
          simp only [List.cons_append, List.cons.injEq] at hs
          refine ⟨P1, b, P2, hs.2, ?_⟩
          rw [hs.1]
          simpa using hno
    · have he : run (a :: as) st = .error .valueError := by
        show (do let st ← step st a; run as st) = _
        rw [s2 hok]; rfl
      refine ⟨fun h => absurd (by simpa using h [] a as rfl) hok, fun _ => he⟩

/-! ### Keys are unique -/

mutual
/-- Names are unique in each schedule (schedulables are stored in a dict by name). -/
def UniqueNames : Op Ch U → Prop
  | .plain _ => True
  | .sched items => (names items).Nodup ∧ UniqueNamesItems items
  | .loop body _ => UniqueNames body
  | .cond body => UniqueNames body
def UniqueNamesItems : Items Ch U → Prop
  | .nil => True
  | .cons _ _ op rest => UniqueNames op ∧ UniqueNamesItems rest
/-- The names of the schedulables. -/
def names : Items Ch U → List String
  | .nil => []
  | .cons name _ _ rest => name :: names rest
end

theorem number_keys (label : Label) (loops : List Nat) : ∀ (infos : List (Info Ch U)) (n : Nat),
    (number label loops n infos).map Acq.key = (List.range' n infos.length).map (fun k => (label, k)) := by
  intro infos
  induction infos with
  | nil => intro n; rfl
  | cons i is ih => intro n; simp [number, ih, List.range'_succ]

theorem mem_sched {items : Items Ch U} {label : Label} {loops : List Nat} {a : Acq Ch U}
    (h : a ∈ acqsOf (.sched items) label loops) :
    ∃ e ∈ itemAcqs items label loops, a ∈ e.2 := by
  simp only [acqsOf, List.mem_flatMap] at h
  obtain ⟨e, he, ha⟩ := h
  exact ⟨e, List.mem_mergeSort.mp he, ha⟩

mutual
theorem label_prefix : ∀ (op : Op Ch U) (label : Label) (loops : List Nat),
    ∀ a ∈ acqsOf op label loops, ∃ s, a.key.1 = label ++ s
  | .plain infos, label, loops, a, h => by
    simp only [acqsOf] at h
    have : a.key ∈ (number label loops 0 infos).map Acq.key := List.mem_map.mpr ⟨a, h, rfl⟩
    rw [number_keys] at this
    obtain ⟨k, _, hk⟩ := List.mem_map.mp this
    exact ⟨[], by simp [← hk]⟩
  | .sched items, label, loops, a, h => by
    obtain ⟨e, he, ha⟩ := mem_sched h
    obtain ⟨n, _, s, hs⟩ := item_prefix items label loops e he a ha
    exact ⟨some n :: s, by rw [hs]⟩
  | .loop body reps, label, loops, a, h => by
    simp only [acqsOf] at h
    obtain ⟨s, hs⟩ := label_prefix body _ _ a h
    exact ⟨none :: s, by rw [hs]; simp⟩
  | .cond body, label, loops, a, h => by
    simp only [acqsOf] at h
    obtain ⟨s, hs⟩ := label_prefix body _ _ a h
    exact ⟨none :: s, by rw [hs]; simp⟩
theorem item_prefix : ∀ (items : Items Ch U) (label : Label) (loops : List Nat),
    ∀ e ∈ itemAcqs items label loops, ∀ a ∈ e.2, ∃ n ∈ names items, ∃ s, a.key.1 = label ++ some n :: s
  | .nil, label, loops, e, he, a, ha => by simp [itemAcqs] at he
  | .cons name abs op rest, label, loops, e, he, a, ha => by
    simp only [itemAcqs, List.mem_cons] at he
    rcases he with rfl | he
    · obtain ⟨s, hs⟩ := label_prefix op _ _ a ha
      exact ⟨name, by simp [names], s, by rw [hs]; simp⟩
    · obtain ⟨n, hn, s, hs⟩ := item_prefix rest label loops e he a ha
      exact ⟨n, by simp [names, hn], s, hs⟩
end

mutual
theorem acqsOf_nodup : ∀ (op : Op Ch U) (label : Label) (loops : List Nat), UniqueNames op →
    ((acqsOf op label loops).map Acq.key).Nodup
  | .plain infos, label, loops, h => by
    simp only [acqsOf, number_keys]
    exact (List.nodup_range').map (fun x y hxy => (Prod.mk.inj hxy).2)
  | .sched items, label, loops, h => by
    simp only [UniqueNames] at h
    have := itemAcqs_nodup items label loops h.1 h.2
    simp only [acqsOf]
    have hp : (((itemAcqs items label loops).mergeSort (fun a b => decide (a.1 ≤ b.1))).flatMap
        Prod.snd).Perm ((itemAcqs items label loops).flatMap Prod.snd) :=
      (List.mergeSort_perm _ _).flatMap_right _
    exact ((hp.map Acq.key).nodup_iff).mpr this
  | .loop body reps, label, loops, h => by
    simp only [acqsOf]; simp only [UniqueNames] at h
    exact acqsOf_nodup body _ _ h
  | .cond body, label, loops, h => by
    simp only [acqsOf]; simp only [UniqueNames] at h
    exact acqsOf_nodup body _ _ h
theorem itemAcqs_nodup : ∀ (items : Items Ch U) (label : Label) (loops : List Nat),
    (names items).Nodup → UniqueNamesItems items →
    (((itemAcqs items label loops).flatMap Prod.snd).map Acq.key).Nodup
  | .nil, label, loops, hn, h => by simp [itemAcqs]
  | .cons name abs op rest, label, loops, hn, h => by
    simp only [names, List.nodup_cons] at hn
    simp only [UniqueNamesItems] at h
    simp only [itemAcqs, List.flatMap_cons, List.map_append]
    rw [List.nodup_append]
    refine ⟨acqsOf_nodup op _ _ h.1, itemAcqs_nodup rest label loops hn.2 h.2, ?_⟩
    intro k hk k' hk' heq
    subst heq
    obtain ⟨a, ha, rfl⟩ := List.mem_map.mp hk
    obtain ⟨b, hb, hkb⟩ := List.mem_map.mp hk'
    obtain ⟨e, he, hb⟩ := List.mem_flatMap.mp hb
    obtain ⟨s, hs⟩ := label_prefix op _ _ a ha
    obtain ⟨n, hn', s', hs'⟩ := item_prefix rest label loops e he b hb
    rw [← hkb, hs'] at hs
    simp only [List.append_assoc, List.cons_append, List.nil_append, List.append_cancel_left_eq,
      List.cons.injEq, Option.some.injEq] at hs
    rw [hs.1] at hn'
    exact hn.1 hn'
end

theorem order_perm (op : Op Ch U) : (order op).Perm (acqsOf op [] []) := by
  unfold order
  have := List.filter_append_perm (fun a : Acq Ch U => a.info.index.isSome) (acqsOf op [] [])
  have he : (acqsOf op [] []).filter (fun a => a.info.index.isNone) =
      (acqsOf op [] []).filter (fun a => !a.info.index.isSome) := by
    congr 1
    funext a
    cases a.info.index <;> rfl
  rw [he]
  exact this

theorem order_nodup (op : Op Ch U) (h : UniqueNames op) : ((order op).map Acq.key).Nodup :=
  (((order_perm op).map Acq.key).nodup_iff).mpr (acqsOf_nodup op [] [] h)

/-! ### C19 -/

theorem generate_spec (op : Op Ch U) (hu : UniqueNames op) :
    ((∀ P1 a P2, order op = P1 ++ a :: P2 → OkAt P1 a) →
      ∃ st, generate op = .ok st ∧ Inv (order op) st) ∧
    ((∃ P1 a P2, order op = P1 ++ a :: P2 ∧ ¬ OkAt P1 a) → generate op = .error .valueError) := by
  have := run_spec (order op) [] ⟨[], []⟩ Inv.init (by simpa using order_nodup op hu)
  unfold generate
  simpa using this

/-- C19, acceptance: a schedule is accepted exactly when, in the order of traversal, every
acquisition has the protocol and bin mode of its channel, a supported combination of these, a trace
is alone on its channel, and an explicit index of an averaged acquisition is the next one. -/
theorem accepted_iff (op : Op Ch U) (hu : UniqueNames op) :
    (∃ st, generate op = .ok st) ↔ ∀ P1 a P2, order op = P1 ++ a :: P2 → OkAt P1 a := by
  obtain ⟨h1, h2⟩ := generate_spec op hu
  constructor
  · rintro ⟨st, hst⟩
    by_contra hne
    push Not at hne
    rw [h2 hne] at hst
    cases hst
  · intro h
    obtain ⟨st, hst, _⟩ := h1 h
    exact ⟨st, hst⟩

/-- Everything else is rejected with a `ValueError`. -/
theorem rejected (op : Op Ch U) (hu : UniqueNames op) (e : Err) (h : generate op = .error e) :
    e = .valueError := by
  obtain ⟨h1, h2⟩ := generate_spec op hu
  by_cases hall : ∀ P1 a P2, order op = P1 ++ a :: P2 → OkAt P1 a
  · obtain ⟨st, hst, _⟩ := h1 hall
    rw [hst] at h; cases h
  · push Not at hall
    rw [h2 hall] at h
    exact (Except.error.inj h).symm

theorem generate_inv (op : Op Ch U) (hu : UniqueNames op) {st : St Ch U}
    (h : generate op = .ok st) :
    Inv (order op) st ∧ ∀ P1 a P2, order op = P1 ++ a :: P2 → OkAt P1 a := by
  have hall := (accepted_iff op hu).mp ⟨st, h⟩
  obtain ⟨st', h1, h2⟩ := (generate_spec op hu).1 hall
  rw [h] at h1
  have := Except.ok.inj h1
  subst this
  exact ⟨h2, hall⟩

/-- C19: all acquisitions of the schedule are handled, each under its own key. -/
theorem all_handled (op : Op Ch U) (hu : UniqueNames op) :
    (order op).Perm (acqsOf op [] []) ∧ ((order op).map Acq.key).Nodup :=
  ⟨order_perm op, order_nodup op hu⟩

/-- The indices stored for an acquisition. -/
def stored (st : St Ch U) (a : Acq Ch U) : List Nat :=
  match Dict.get? st.map a.key with
  | none => []
  | some i => i.toList

/-- C19: the indices of an acquisition follow those of the acquisitions of its channel handled
before; there is one if it is averaged and one per repetition of the surrounding loops if it is
appended. -/
theorem indices_assigned (op : Op Ch U) (hu : UniqueNames op) {st : St Ch U}
    (h : generate op = .ok st) {P1 P2 : List (Acq Ch U)} {a : Acq Ch U}
    (hs : order op = P1 ++ a :: P2) (hb : Binned a) : stored st a = indices P1 a := by
  obtain ⟨i, h1, h2⟩ := (generate_inv op hu h).1.map P1 a P2 hs hb
  unfold stored
  rw [h1]; exact h2

theorem concat_indices (ch : Ch) (f : Acq Ch U → List Nat) : ∀ (l P : List (Acq Ch U)),
    (∀ P1 a P2, l = P1 ++ a :: P2 → a.info.ch = ch → f a = indices (P ++ P1) a) →
    (l.filter (fun a => decide (a.info.ch = ch))).flatMap f =
      List.range' (channel ch P).length (channel ch l).length := by
  intro l
  induction l with
  | nil => intro P _; simp [channel]
  | cons a l ih =>
    intro P h
    have ih' := ih (P ++ [a]) (by
      intro P1 b P2 hs hc
      have := h (a :: P1) b P2 (by rw [hs]; rfl) hc
      simpa using this)
    have hcons : channel ch (a :: l) = channel ch [a] ++ channel ch l := channel_append ch [a] l
    rw [channel_append, List.length_append] at ih'
    rw [hcons, channel_one] at *
    by_cases hc : a.info.ch = ch
    · rw [List.filter_cons_of_pos (by simpa using hc), List.flatMap_cons, ih',
        h [] a l rfl hc]
      unfold indices
      rw [if_pos hc, hc, List.append_nil, List.length_append]
      have := List.range'_append (s := (channel ch P).length) (m := (entries a).length)
        (n := (channel ch l).length) (step := 1)
      rw [Nat.one_mul] at this
      exact this
    · rw [List.filter_cons_of_neg (by simpa using hc), ih', if_neg hc]
      simp

/-- C19: the indices of the acquisitions of a binned channel are together 0, ..., n-1, each once,
where n is the number of entries of the channel. -/
theorem indices_exactly_once (op : Op Ch U) (hu : UniqueNames op) {st : St Ch U}
    (h : generate op = .ok st) (ch : Ch) (hb : ∃ a ∈ order op, a.info.ch = ch ∧ Binned a) :
    ∃ d l, Dict.get? st.chans ch = some d ∧ d.coords = .list l ∧
      ((order op).filter (fun a => decide (a.info.ch = ch))).flatMap (stored st) =
        List.range l.length := by
  obtain ⟨hinv, hok⟩ := generate_inv op hu h
  obtain ⟨a, ha, hac, hab⟩ := hb
  cases hg : Dict.get? st.chans ch with
  | none => exact absurd hac ((hinv.none ch).mp hg a ha)
  | some d =>
    obtain ⟨d1, d2, d3⟩ := hinv.some ch d hg a ha hac
    refine ⟨d, _, rfl, d3 hab, ?_⟩
    rw [concat_indices ch (stored st) (order op) []]
    · simp [channel, List.range_eq_range']
    · intro P1 b P2 hs hbc
      rw [List.nil_append]
      apply indices_assigned op hu h hs
      have hbm : b ∈ order op := by rw [hs]; simp
      obtain ⟨e1, e2, _⟩ := hinv.some ch d hg b hbm hbc
      unfold Binned at hab ⊢
      rw [← e1, ← e2, d1, d2]
      exact hab

/-- C19: the coordinates stored at the indices of an acquisition are its own. -/
theorem coords_match (op : Op Ch U) (hu : UniqueNames op) {st : St Ch U}
    (h : generate op = .ok st) {a : Acq Ch U} (ha : a ∈ order op) (hb : Binned a) :
    ∃ d l, Dict.get? st.chans a.info.ch = some d ∧ d.coords = .list l ∧
      (stored st a).map (fun i => l[i]?) = (entries a).map some := by
  obtain ⟨hinv, hok⟩ := generate_inv op hu h
  obtain ⟨P1, P2, hs⟩ := List.append_of_mem ha
  cases hg : Dict.get? st.chans a.info.ch with
  | none => exact absurd rfl ((hinv.none _).mp hg a ha)
  | some d =>
    obtain ⟨d1, d2, d3⟩ := hinv.some _ d hg a ha rfl
    refine ⟨d, _, rfl, d3 hb, ?_⟩
    rw [indices_assigned op hu h hs hb]
    unfold indices
    have hc : channel a.info.ch (order op) =
        channel a.info.ch P1 ++ (entries a ++ channel a.info.ch P2) := by
      rw [hs, channel_append]
      congr 1
      have := channel_append a.info.ch [a] P2
      rw [channel_one, if_pos rfl] at this
      exact this
    rw [hc]
    apply List.ext_getElem
    · simp
    · intro i h1 h2
      simp only [List.length_map] at h1 h2
      simp only [List.getElem_map, List.getElem_range', Nat.one_mul]
      rw [List.getElem?_append_right (by omega)]
      rw [Nat.add_sub_cancel_left, List.getElem?_append_left h2, List.getElem?_eq_getElem h2]

/-! ### The number of indices is the number of executions -/

mutual
/-- The acquisitions executed, with all loops unrolled and all conditions true. -/
def executions : Op Ch U → Label → List (Label × Nat)
  | .plain infos, label => (List.range infos.length).map (fun k => (label, k))
  | .sched items, label => executionsItems items label
  | .loop body reps, label => (List.replicate reps (executions body (label ++ [none]))).flatten
  | .cond body, label => executions body (label ++ [none])
/-- The same for the schedulables. -/
def executionsItems : Items Ch U → Label → List (Label × Nat)
  | .nil, _ => []
  | .cons name _ op rest, label => executions op (label ++ [some name]) ++ executionsItems rest label
end

mutual
theorem exec_prefix : ∀ (op : Op Ch U) (label : Label), ∀ k ∈ executions op label,
    ∃ s, k.1 = label ++ s
  | .plain infos, label, k, h => by
    simp only [executions, List.mem_map] at h
    obtain ⟨_, _, rfl⟩ := h
    exact ⟨[], by simp⟩
  | .sched items, label, k, h => by
    simp only [executions] at h
    obtain ⟨n, _, s, hs⟩ := execItems_prefix items label k h
    exact ⟨some n :: s, hs⟩
  | .loop body reps, label, k, h => by
    simp only [executions, List.mem_flatten, List.mem_replicate] at h
    obtain ⟨l, ⟨_, rfl⟩, h⟩ := h
    obtain ⟨s, hs⟩ := exec_prefix body _ k h
    exact ⟨none :: s, by rw [hs]; simp⟩
  | .cond body, label, k, h => by
    simp only [executions] at h
    obtain ⟨s, hs⟩ := exec_prefix body _ k h
    exact ⟨none :: s, by rw [hs]; simp⟩
theorem execItems_prefix : ∀ (items : Items Ch U) (label : Label), ∀ k ∈ executionsItems items label,
    ∃ n ∈ names items, ∃ s, k.1 = label ++ some n :: s
  | .nil, label, k, h => by simp [executionsItems] at h
  | .cons name abs op rest, label, k, h => by
    simp only [executionsItems, List.mem_append] at h
    rcases h with h | h
    · obtain ⟨s, hs⟩ := exec_prefix op _ k h
      exact ⟨name, by simp [names], s, by rw [hs]; simp⟩
    · obtain ⟨n, hn, s, hs⟩ := execItems_prefix rest label k h
      exact ⟨n, by simp [names, hn], s, hs⟩
end

theorem number_mem {label : Label} {loops : List Nat} {a : Acq Ch U} : ∀ {infos : List (Info Ch U)}
    {n : Nat}, a ∈ number label loops n infos → a.loops = loops ∧ a.key.1 = label ∧
      n ≤ a.key.2 ∧ a.key.2 < n + infos.length := by
  intro infos
  induction infos with
  | nil => intro n h; simp [number] at h
  | cons i is ih =>
    intro n h
    simp only [number, List.mem_cons] at h
    rcases h with rfl | h
    · simp
    · obtain ⟨h1, h2, h3, h4⟩ := ih h
      exact ⟨h1, h2, by omega, by simp; omega⟩

mutual
theorem exec_count : ∀ (op : Op Ch U) (label : Label) (loops : List Nat), UniqueNames op →
    ∀ a ∈ acqsOf op label loops, ∃ t, a.loops = loops ++ t ∧
      (executions op label).count a.key = t.prod
  | .plain infos, label, loops, hu, a, h => by
    simp only [acqsOf] at h
    obtain ⟨h1, h2, h3, h4⟩ := number_mem h
    refine ⟨[], by simp [h1], ?_⟩
    simp only [executions, List.prod_nil]
    apply List.count_eq_one_of_mem
    · exact (List.nodup_range).map (fun x y hxy => (Prod.mk.inj hxy).2)
    · exact List.mem_map.mpr ⟨a.key.2, by simp; omega, by rw [← h2]⟩
  | .sched items, label, loops, hu, a, h => by
    simp only [UniqueNames] at hu
    obtain ⟨e, he, ha⟩ := mem_sched h
    exact execItems_count items label loops hu.1 hu.2 e he a ha
  | .loop body reps, label, loops, hu, a, h => by
    simp only [acqsOf] at h
    simp only [UniqueNames] at hu
    obtain ⟨t, h1, h2⟩ := exec_count body _ _ hu a h
    refine ⟨reps :: t, by rw [h1]; simp, ?_⟩
    simp only [executions, List.count_flatten, List.map_replicate, List.sum_replicate, h2,
      List.prod_cons]
    rfl
  | .cond body, label, loops, hu, a, h => by
    simp only [acqsOf] at h
    simp only [UniqueNames] at hu
    exact exec_count body _ _ hu a h
theorem execItems_count : ∀ (items : Items Ch U) (label : Label) (loops : List Nat),
    (names items).Nodup → UniqueNamesItems items →
    ∀ e ∈ itemAcqs items label loops, ∀ a ∈ e.2, ∃ t, a.loops = loops ++ t ∧
      (executionsItems items label).count a.key = t.prod
  | .nil, label, loops, hn, hu, e, he, a, ha => by simp [itemAcqs] at he
  | .cons name abs op rest, label, loops, hn, hu, e, he, a, ha => by
    simp only [names, List.nodup_cons] at hn
    simp only [UniqueNamesItems] at hu
    simp only [itemAcqs, List.mem_cons] at he
    simp only [executionsItems, List.count_append]
    rcases he with rfl | he
    · obtain ⟨t, h1, h2⟩ := exec_count op _ _ hu.1 a ha
      refine ⟨t, h1, ?_⟩
      rw [h2, List.count_eq_zero_of_not_mem, Nat.add_zero]
      intro hx
      obtain ⟨n, hn', s, hs⟩ := execItems_prefix rest label _ hx
      obtain ⟨s', hs'⟩ := label_prefix op _ _ a ha
      rw [hs'] at hs
      simp only [List.append_assoc, List.cons_append, List.nil_append, List.append_cancel_left_eq,
        List.cons.injEq, Option.some.injEq] at hs
      rw [← hs.1] at hn'
      exact hn.1 hn'
    · obtain ⟨t, h1, h2⟩ := execItems_count rest label loops hn.2 hu.2 e he a ha
      refine ⟨t, h1, ?_⟩
      rw [h2, List.count_eq_zero_of_not_mem, Nat.zero_add]
      intro hx
      obtain ⟨s, hs⟩ := exec_prefix op _ _ hx
      obtain ⟨n, hn', s', hs'⟩ := item_prefix rest label loops e he a ha
      rw [hs'] at hs
      simp only [List.append_assoc, List.cons_append, List.nil_append, List.append_cancel_left_eq,
        List.cons.injEq, Option.some.injEq] at hs
      rw [hs.1] at hn'
      exact hn.1 hn'
end

theorem prod_eq (l : List Nat) : prod l = l.prod := by
  unfold prod
  rw [List.prod_eq_foldl]

/-- C19: an appended acquisition gets one index for each time it is executed, and the coordinates
there are its own, numbered by the execution (without number outside loops). -/
theorem one_index_per_execution (op : Op Ch U) (hu : UniqueNames op) {st : St Ch U}
    (h : generate op = .ok st) {a : Acq Ch U} (ha : a ∈ order op)
    (hb : isAppend a.info.protocol a.info.mode = true) :
    (stored st a).length = (executions op []).count a.key ∧
    ∃ d l, Dict.get? st.chans a.info.ch = some d ∧ d.coords = .list l ∧
      ∀ (k : Nat) i, (stored st a)[k]? = some i → ∃ c, l[i]? = some c ∧ c.user = a.info.coords ∧
        c.legacy = a.info.index ∧ (c.rep = some k ∨ (c.rep = none ∧ a.loops = [])) := by
  have hna : ¬ isAverage a.info.protocol a.info.mode = true := by
    intro hx
    unfold isAverage at hx
    unfold isAppend at hb
    cases hm : a.info.mode <;> simp [hm] at hx hb
  have hent : entries a = appendCoords a := by
    unfold entries
    rw [if_neg hna, if_pos hb]
  obtain ⟨t, h1, h2⟩ := exec_count op [] [] hu a ((order_perm op).mem_iff.mp ha)
  have hlen : (appendCoords a).length = (executions op []).count a.key := by
    rw [h2]
    simp only [List.nil_append] at h1
    unfold appendCoords
    rw [h1]
    cases t with
    | nil => rfl
    | cons x t => simp [prod_eq]
  obtain ⟨P1, P2, hs⟩ := List.append_of_mem ha
  have hst := indices_assigned op hu h hs (Or.inr hb)
  refine ⟨by rw [hst]; simp [indices, hent, hlen], ?_⟩
  obtain ⟨d, l, h3, h4, h5⟩ := coords_match op hu h ha (Or.inr hb)
  refine ⟨d, l, h3, h4, ?_⟩
  intro k i hk
  have hk' : ((stored st a).map (fun i => l[i]?))[k]? = some (l[i]?) := by
    rw [List.getElem?_map, hk]; rfl
  rw [h5, List.getElem?_map, hent] at hk'
  cases hc : (appendCoords a)[k]? with
  | none => rw [hc] at hk'; cases hk'
  | some c =>
    rw [hc] at hk'
    refine ⟨c, (Option.some.inj hk').symm, ?_⟩
    unfold appendCoords at hc
    split at hc
    · rename_i he
      cases k with
      | zero =>
        have := (Option.some.inj hc); subst this
        exact ⟨rfl, rfl, Or.inr ⟨rfl, by simpa using he⟩⟩
      | succ k => simp at hc
    · rw [List.getElem?_map] at hc
      cases hr : (List.range (prod a.loops))[k]? with
      | none => rw [hr] at hc; cases hc
      | some r =>
        rw [hr] at hc
        have hrk : k = r := by
          obtain ⟨_, hh⟩ := List.getElem?_eq_some_iff.mp hr
          simpa using hh
        have := (Option.some.inj hc); subst this
        exact ⟨rfl, rfl, Or.inl (by rw [hrk])⟩

/-- C19: an explicit index of an averaged acquisition is the index it gets. -/
theorem explicit_average (op : Op Ch U) (hu : UniqueNames op) {st : St Ch U}
    (h : generate op = .ok st) {a : Acq Ch U} (ha : a ∈ order op)
    (hb : isAverage a.info.protocol a.info.mode = true) {i : Int} (hi : a.info.index = some i) :
    (stored st a).map (fun (n : Nat) => (n : Int)) = [i] := by
  obtain ⟨hinv, hok⟩ := generate_inv op hu h
  obtain ⟨P1, P2, hs⟩ := List.append_of_mem ha
  rw [indices_assigned op hu h hs (Or.inl hb)]
  have hent : entries a = [⟨a.info.coords, none, none⟩] := by unfold entries; rw [if_pos hb]
  rcases (hok P1 a P2 hs).2.1 hb with hx | hx
  · rw [hi] at hx; cases hx
  · rw [hi] at hx
    unfold indices
    rw [hent, Option.some.inj hx]
    rfl

/-- C19: the acquisitions with an explicit index come first, and both groups are in the order of
traversal. -/
theorem explicit_first (op : Op Ch U) : ∃ E I, order op = E ++ I ∧ List.Sublist E (acqsOf op [] []) ∧
    List.Sublist I (acqsOf op [] []) ∧ (∀ a ∈ E, a.info.index.isSome) ∧ (∀ a ∈ I, a.info.index = none) := by
  refine ⟨_, _, rfl, List.filter_sublist, List.filter_sublist, ?_, ?_⟩
  · intro a ha; exact (List.mem_filter.mp ha).2
  · intro a ha; simpa using (List.mem_filter.mp ha).2

/-- C19: of two schedulables of one schedule, the acquisitions of the one that starts earlier come
first in the traversal. -/
theorem time_order (items : Items Ch U) (label : Label) (loops : List Nat)
    (e1 e2 : Rat × List (Acq Ch U)) (h1 : e1 ∈ itemAcqs items label loops)
    (h2 : e2 ∈ itemAcqs items label loops) (hlt : e1.1 < e2.1) :
    ∃ A B C, acqsOf (.sched items) label loops = A ++ e1.2 ++ B ++ e2.2 ++ C := by
  have hs : ((itemAcqs items label loops).mergeSort (fun a b => decide (a.1 ≤ b.1))).Pairwise
      (fun a b => decide (a.1 ≤ b.1) = true) := by
    apply List.pairwise_mergeSort
    · intro a b c hab hbc
      simp only [decide_eq_true_eq] at *
      exact le_trans hab hbc
    · intro a b
      simp only [Bool.or_eq_true, decide_eq_true_eq]
      exact le_total _ _
  have m1 := List.mem_mergeSort (le := fun a b : Rat × List (Acq Ch U) => decide (a.1 ≤ b.1)).mpr h1
  have m2 := List.mem_mergeSort (le := fun a b : Rat × List (Acq Ch U) => decide (a.1 ≤ b.1)).mpr h2
  simp only [acqsOf]
  generalize (itemAcqs items label loops).mergeSort (fun a b => decide (a.1 ≤ b.1)) = s at *
  obtain ⟨s1, s2, rfl⟩ := List.append_of_mem m1
  rcases List.mem_append.mp m2 with m2 | m2
  · rw [List.pairwise_append] at hs
    have := hs.2.2 e2 m2 e1 (by simp)
    simp only [decide_eq_true_eq] at this
    exact absurd hlt (not_lt.mpr this)
  · rcases List.mem_cons.mp m2 with rfl | m2
    · exact absurd hlt (lt_irrefl _)
    · obtain ⟨s3, s4, rfl⟩ := List.append_of_mem m2
      refine ⟨s1.flatMap Prod.snd, s3.flatMap Prod.snd, s4.flatMap Prod.snd, ?_⟩
      simp

/-! ### A concrete case -/

/-- An acquisition operation. -/
def acqOp (ch : Nat) (mode : BinMode) (index : Option Int) : Op Nat Unit :=
  .plain [⟨ch, "SSBIntegrationComplex", mode, (), index⟩]

/-- Appended acquisitions in a loop and outside, averaged ones with and without explicit index. -/
def exOp : Op Nat Unit :=
  .sched (.cons "a" 0 (.loop (acqOp 0 .append none) 3) (.cons "b" 10 (acqOp 0 .append none)
    (.cons "c" 20 (acqOp 1 .average none) (.cons "d" 30 (acqOp 1 .average (some 0)) .nil))))

theorem exOrder : order exOp =
    [⟨([some "d"], 0), [], ⟨1, "SSBIntegrationComplex", .average, (), some 0⟩⟩,
      ⟨([some "a", none], 0), [3], ⟨0, "SSBIntegrationComplex", .append, (), none⟩⟩,
      ⟨([some "b"], 0), [], ⟨0, "SSBIntegrationComplex", .append, (), none⟩⟩,
      ⟨([some "c"], 0), [], ⟨1, "SSBIntegrationComplex", .average, (), none⟩⟩] := by
  unfold order
  have : acqsOf exOp [] [] =
    [⟨([some "a", none], 0), [3], ⟨0, "SSBIntegrationComplex", .append, (), none⟩⟩,
      ⟨([some "b"], 0), [], ⟨0, "SSBIntegrationComplex", .append, (), none⟩⟩,
      ⟨([some "c"], 0), [], ⟨1, "SSBIntegrationComplex", .average, (), none⟩⟩,
      ⟨([some "d"], 0), [], ⟨1, "SSBIntegrationComplex", .average, (), some 0⟩⟩] := by
    norm_num [exOp, acqsOf, itemAcqs, acqOp, number, List.mergeSort,
      List.MergeSort.Internal.splitInTwo, List.merge]
  rw [this]
  decide +kernel

/-- The hypotheses of the theorems are met, and the result is as expected. -/
example : UniqueNames exOp ∧ (∃ st, generate exOp = .ok st ∧
    st.map = [(([some "d"], 0), .one 0), (([some "a", none], 0), .many [0, 1, 2]),
      (([some "b"], 0), .many [3]), (([some "c"], 0), .one 1)]) ∧
    ∃ a ∈ order exOp, a.info.ch = 0 ∧ Binned a := by
  refine ⟨by simp [UniqueNames, UniqueNamesItems, names, exOp, acqOp], ?_, ?_⟩
  · unfold generate
    rw [exOrder]
    exact ⟨_, rfl, by decide +kernel⟩
  · rw [exOrder]
    exact ⟨⟨([some "b"], 0), [], ⟨0, "SSBIntegrationComplex", .append, (), none⟩⟩, by simp, rfl,
      Or.inr (by decide +kernel)⟩

/-! ### Limits -/

/-- Finding: the order is not global time order. An acquisition in a sub-schedule that starts
earlier is counted first, although it happens (at 100) after the other one (at 50). -/
theorem not_global_time_order :
    (acqsOf (.sched (.cons "sub" 0 (.sched (.cons "late" 100 (acqOp 0 .average none) .nil))
      (.cons "early" 50 (acqOp 0 .average none) .nil)) : Op Nat Unit) [] []).map (fun a => a.key.1) =
      [[some "sub", some "late"], [some "early"]] := by
  norm_num [acqsOf, itemAcqs, acqOp, number, List.mergeSort,
      List.MergeSort.Internal.splitInTwo, List.merge]

/-- Finding: explicit indices of appended acquisitions are not checked and not used: here they
are 7 and 7, and the acquisitions get 0 and 1. -/
theorem append_index_ignored : ∃ st, run [⟨([some "a"], 0), [], ⟨0, "SSBIntegrationComplex", .append, (), some 7⟩⟩,
      ⟨([some "b"], 0), [], ⟨0, "SSBIntegrationComplex", .append, (), some 7⟩⟩]
      (⟨[], []⟩ : St Nat Unit) = .ok st ∧
      st.map = [(([some "a"], 0), .many [0]), (([some "b"], 0), .many [1])] :=
  ⟨_, rfl, by decide +kernel⟩

end Verif.AcqIndices
