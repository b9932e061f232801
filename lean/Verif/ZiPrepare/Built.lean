/-
What the builders put in, and the values of the nodes that follow from it.
-/
import Verif.ZiPrepare.Effect

set_option linter.unusedSimpArgs false
set_option linter.unusedVariables false

namespace Verif.ZiPrepare
open Spec

/-- The settings of an HDAWG after the first three. -/
def HdMem (c : HdCfg) (d : Daq) : Prop :=
  (∃ a < c.awgs, d = ⟨[.name "awgs", .index a, .name "time"], .num c.clock, .setValue⟩) ∨
  (∃ o ∈ c.outs,
    d = ⟨[.name "sigouts", .index (o.awg * 2), .name "on"], .num 1, .setValue⟩ ∨
    d = ⟨[.name "sigouts", .index (o.awg * 2 + 1), .name "on"], .num 1, .setValue⟩ ∨
    d = ⟨[.name "awgs", .index o.awg, .name "outputs", .index 0, .name "gains", .index 0], .num o.gain1, .setValue⟩ ∨
    d = ⟨[.name "awgs", .index o.awg, .name "outputs", .index 1, .name "gains", .index 1], .num o.gain2, .setValue⟩ ∨
    d = ⟨[.name "sigouts", .index (o.awg * 2), .name "offset"], .num o.offI, .setValue⟩ ∨
    d = ⟨[.name "sigouts", .index (o.awg * 2 + 1), .name "offset"], .num o.offQ, .setValue⟩ ∨
    d = ⟨[.name "awgs", .index o.awg, .name "commandtable", .name "data"], .text o.table, .setVector⟩ ∨
    ∃ w ∈ o.waves, d = ⟨[.name "awgs", .index o.awg, .name "waveform", .name "waves", .index w.1], .wave w.2, .setVector⟩)

theorem withTimes_mem {k : Nat} {l : List Nat} {m : List Daq} (h : withTimes k l = .ok m) (d : Daq) :
    d ∈ m ↔ ∃ a ∈ l, d = ⟨[.name "awgs", .index a, .name "time"], .num k, .setValue⟩ := by
  induction l generalizing m with
  | nil => simp only [withTimes, Except.ok.injEq] at h; subst h; simp
  | cons a l ih =>
    rw [withTimes] at h
    unfold withTime at h
    by_cases h14 : 14 ≤ k
    · rw [if_pos h14] at h; cases h
    · rw [if_neg h14] at h
      simp only at h
      cases hr : withTimes k l with
      | error e => rw [hr] at h; cases h
      | ok m' =>
        rw [hr] at h
        simp only [Except.ok.injEq] at h
        subst h
        simp only [List.cons_append, List.nil_append, List.mem_cons, ih hr, setNum, awgNode]
        constructor
        · rintro (rfl | ⟨b, hb, rfl⟩)
          · exact ⟨a, Or.inl rfl, rfl⟩
          · exact ⟨b, Or.inr hb, rfl⟩
        · rintro ⟨b, rfl | hb, rfl⟩
          · exact Or.inl rfl
          · exact Or.inr ⟨b, hb, rfl⟩

theorem outputDaqs_mem {l : List HdOut} {m : List Daq} (h : outputDaqs l = .ok m) (d : Daq) :
    d ∈ m ↔ ∃ o ∈ l,
    d = ⟨[.name "sigouts", .index (o.awg * 2), .name "on"], .num 1, .setValue⟩ ∨
    d = ⟨[.name "sigouts", .index (o.awg * 2 + 1), .name "on"], .num 1, .setValue⟩ ∨
    d = ⟨[.name "awgs", .index o.awg, .name "outputs", .index 0, .name "gains", .index 0], .num o.gain1, .setValue⟩ ∨
    d = ⟨[.name "awgs", .index o.awg, .name "outputs", .index 1, .name "gains", .index 1], .num o.gain2, .setValue⟩ ∨
    d = ⟨[.name "sigouts", .index (o.awg * 2), .name "offset"], .num o.offI, .setValue⟩ ∨
    d = ⟨[.name "sigouts", .index (o.awg * 2 + 1), .name "offset"], .num o.offQ, .setValue⟩ := by
  induction l generalizing m with
  | nil => simp only [outputDaqs, Except.ok.injEq] at h; subst h; simp
  | cons o l ih =>
    rw [outputDaqs] at h
    unfold withGain at h
    by_cases hg : o.gain1 < -1 ∨ o.gain2 < -1
    · rw [if_pos hg] at h; cases h
    · rw [if_neg hg] at h
      simp only at h
      cases hr : outputDaqs l with
      | error e => rw [hr] at h; cases h
      | ok m' =>
        rw [hr] at h
        simp only [Except.ok.injEq] at h
        subst h
        simp only [withSigouts, setNum, onNode, gainNode, offsetNode, List.cons_append, List.nil_append, List.mem_cons,
          List.mem_append, ih hr, or_assoc, or_and_right, exists_or, exists_eq_left]

theorem hdBuilder_daq {c : HdCfg} {b : Builder} (h : hdBuilder c = .ok b) :
    ∃ C, b.daq = [⟨[.name "sigouts", .any, .name "on"], .num 0, .setValue⟩,
        ⟨[.name "awgs", .any, .name "single"], .num 1, .setValue⟩,
        ⟨[.name "system", .name "awg", .name "channelgrouping"], .num c.grouping, .setValue⟩] ++ C ∧
      (∀ d, d ∈ C ↔ HdMem c d) ∧ b.awg = c.outs.map (fun o => (o.awg, o.seqc)) := by
  unfold hdBuilder at h
  cases h1 : withTimes c.clock (List.range c.awgs) with
  | error e => rw [h1] at h; cases h
  | ok times =>
    rw [h1] at h
    simp only at h
    cases h2 : outputDaqs c.outs with
    | error e => rw [h2] at h; cases h
    | ok outs =>
      rw [h2] at h
      simp only [Except.ok.injEq] at h
      subst h
      refine ⟨times ++ outs ++ c.outs.flatMap tableDaqs, by simp [setNum, onNode, awgNode, groupingNode], ?_, rfl⟩
      intro d
      rw [List.mem_append, List.mem_append, withTimes_mem h1, outputDaqs_mem h2, List.mem_flatMap]
      unfold HdMem
      simp only [List.mem_range, tableDaqs, List.mem_cons, List.mem_map, tableNode, waveNode]
      constructor
      · rintro ((h | ⟨o, ho, h⟩) | ⟨o, ho, h⟩)
        · exact Or.inl h
        · refine Or.inr ⟨o, ho, ?_⟩
          rcases h with h | h | h | h | h | h <;> simp [h]
        · refine Or.inr ⟨o, ho, ?_⟩
          rcases h with h | ⟨w, hw, h⟩
          · simp [h]
          · right; right; right; right; right; right; right
            exact ⟨w, hw, h.symm⟩
      · rintro (h | ⟨o, ho, h⟩)
        · exact Or.inl (Or.inl h)
        · rcases h with h | h | h | h | h | h | h | ⟨w, hw, h⟩
          · exact Or.inl (Or.inr ⟨o, ho, by simp [h]⟩)
          · exact Or.inl (Or.inr ⟨o, ho, by simp [h]⟩)
          · exact Or.inl (Or.inr ⟨o, ho, by simp [h]⟩)
          · exact Or.inl (Or.inr ⟨o, ho, by simp [h]⟩)
          · exact Or.inl (Or.inr ⟨o, ho, by simp [h]⟩)
          · exact Or.inl (Or.inr ⟨o, ho, by simp [h]⟩)
          · exact Or.inr ⟨o, ho, by simp [h]⟩
          · exact Or.inr ⟨o, ho, Or.inr ⟨w, hw, h.symm⟩⟩

theorem sent_append (a b : List Daq) : sent (a ++ b) = sent a ++ sent b := by simp [sent]

theorem mem_sent {l : List Daq} {e : Node × Val} : e ∈ sent l ↔ ∃ d ∈ l, d.fn ≠ .void ∧ d.node = e.1 ∧ d.value = e.2 := by
  unfold sent
  simp only [List.mem_map, List.mem_filter, decide_eq_true_eq]
  constructor
  · rintro ⟨d, ⟨h1, h2⟩, rfl⟩; exact ⟨d, h1, h2, rfl, rfl⟩
  · rintro ⟨d, h1, h2, h3, h4⟩; exact ⟨d, ⟨h1, h2⟩, by rw [h3, h4]⟩

theorem hdMem_real {c : HdCfg} {d : Daq} (h : HdMem c d) : Real d.node ∧ d.fn ≠ .void := by
  unfold Real
  rcases h with ⟨a, ha, rfl⟩ | ⟨o, ho, h⟩
  · simp
  · rcases h with rfl | rfl | rfl | rfl | rfl | rfl | rfl | ⟨w, hw, rfl⟩ <;> simp

theorem wildFirst_append {a b : List (Node × Val)} (ha : WildFirst a) (hb : ∀ e ∈ b, Real e.1) : WildFirst (a ++ b) := by
  unfold WildFirst
  rw [List.pairwise_append]
  refine ⟨ha, ?_, fun x hx y hy => Or.inl (hb y hy)⟩
  exact List.Pairwise.imp_of_mem (R := fun _ _ => True) (fun _ hy _ => Or.inl (hb _ hy))
    (List.pairwise_of_forall (fun _ _ => trivial))

theorem wild_of_real {b : List (Node × Val)} (hb : ∀ e ∈ b, Real e.1) : WildFirst b :=
  wildFirst_append (a := []) List.Pairwise.nil hb

theorem last_real {W C : List (Node × Val)} (hC : ∀ e ∈ C, Real e.1) {n : Node} {v : Val} (hm : (n, v) ∈ C)
    (hf : ∀ w, (n, w) ∈ C → w = v) : Last (W ++ C) n v := by
  apply last_append
  apply last_of_final (wild_of_real hC)
  obtain ⟨w, hw⟩ := final_exists (List.mem_map_of_mem (f := Prod.fst) hm)
  have := hf w (final_mem hw)
  subst this
  exact hw

theorem last_wild {W C : List (Node × Val)} (hC : ∀ e ∈ C, Real e.1) {n : Node} {v : Val} (hn : ∀ w, (n, w) ∉ C)
    (hW : Last W n v) : Last (W ++ C) n v := by
  rw [last_append_left]
  · exact hW
  · intro e he hc
    have := covers_real hc (hC e he)
    exact hn e.2 (by rw [← this]; exact he)

theorem covers_cons {p s : Seg} {ps ss : Node} : Covers (p :: ps) (s :: ss) ↔ (p = .any ∨ p = s) ∧ Covers ps ss := by
  unfold Covers; exact List.forall₂_cons

theorem covers_nil : Covers [] [] := .nil

theorem covers_cons_nil {p : Seg} {ps : Node} : ¬ Covers (p :: ps) [] := by
  unfold Covers; intro h; cases h

theorem covers_nil_cons {p : Seg} {ps : Node} : ¬ Covers [] (p :: ps) := by
  unfold Covers; intro h; cases h

/-- The first settings of an HDAWG. -/
theorem hd_first (g : Nat) : WildFirst [([.name "sigouts", .any, .name "on"], .num 0),
    ([.name "awgs", .any, .name "single"], .num 1), ([.name "system", .name "awg", .name "channelgrouping"], .num g)] := by
  unfold WildFirst
  simp only [List.pairwise_cons, List.mem_cons, List.not_mem_nil, or_false, forall_eq_or_imp, forall_eq, IsEmpty.forall_iff,
    implies_true, List.Pairwise.nil, and_true]
  refine ⟨⟨Or.inr ?_, Or.inl ?_⟩, Or.inl ?_⟩
  · rintro n ⟨h1, h2⟩
    cases n with
    | nil => exact covers_cons_nil h1
    | cons s n =>
      have a1 := (covers_cons.1 h1).1
      have a2 := (covers_cons.1 h2).1
      simp at a1 a2
      rw [← a1] at a2
      simp at a2
  · simp [Real]
  · simp [Real]

theorem hd_regular {c : HdCfg} {b : Builder} (h : hdBuilder c = .ok b) : Regular false b.build := by
  obtain ⟨C, h1, h2, h3⟩ := hdBuilder_daq h
  constructor
  · show WildFirst (sent b.daq)
    rw [h1, sent_append]
    apply wildFirst_append
    · exact hd_first c.grouping
    · intro e he
      obtain ⟨d, hd, _, h4, _⟩ := mem_sent.1 he
      rw [← h4]
      exact (hdMem_real ((h2 d).1 hd)).1
  · intro d hd
    have : d ∈ b.daq := hd
    rw [h1] at this
    constructor
    · intro hv
      exfalso
      rcases List.mem_append.1 this with h | h
      · simp at h
        rcases h with rfl | rfl | rfl <;> simp at hv
      · exact (hdMem_real ((h2 d).1 h)).2 hv
    · rintro ⟨h, _⟩; cases h

end Verif.ZiPrepare
