/-
The nodes of a UHFQA that is configured.
-/
import Verif.ZiPrepare.Uh

set_option linter.unusedSimpArgs false
set_option linter.unusedVariables false

namespace Verif.ZiPrepare
open Spec

/-- Nothing of a list covers a node. -/
def Misses (l : List (Node × Val)) (n : Node) : Prop := ∀ e ∈ l, ¬ Covers e.1 n

theorem misses_append {l m : List (Node × Val)} {n : Node} : Misses (l ++ m) n ↔ Misses l n ∧ Misses m n := by
  unfold Misses
  constructor
  · intro h; exact ⟨fun e he => h e (by simp [he]), fun e he => h e (by simp [he])⟩
  · rintro ⟨h1, h2⟩ e he
    rcases List.mem_append.1 he with he | he
    · exact h1 e he
    · exact h2 e he

theorem misses_cons {x : Node × Val} {m : List (Node × Val)} {n : Node} : Misses (x :: m) n ↔ ¬ Covers x.1 n ∧ Misses m n := by
  unfold Misses; simp

theorem misses_nil {n : Node} : Misses [] n := by unfold Misses; simp

theorem last_left {l m : List (Node × Val)} {n : Node} {v : Val} (hm : Misses m n) (h : Last l n v) : Last (l ++ m) n v :=
  (last_append_left hm).2 h

theorem last_cons_left {x : Node × Val} {m : List (Node × Val)} {n : Node} {v : Val} (hm : Misses m n) (hx : x.2 = v)
    (hc : Covers x.1 n) : Last (x :: m) n v := ⟨[], x.1, m, by rw [← hx]; rfl, hc, hm⟩

theorem last_cons_right {x : Node × Val} {m : List (Node × Val)} {n : Node} {v : Val} (h : Last m n v) : Last (x :: m) n v :=
  last_append (l := [x]) h

theorem mon_misses {l : List (Nat × Nat)} {n : Node} (h : ∀ s, ¬ Covers [.name "qas", .index 0, .name "monitor", .name s] n) :
    Misses (sent (l.flatMap monitorDaqs)) n := by
  intro e he
  obtain ⟨d, hd, _, h3, _⟩ := mem_sent.1 he
  rw [List.mem_flatMap] at hd
  obtain ⟨m, _, hd⟩ := hd
  simp only [monitorDaqs, setNum, qaNode, List.mem_cons, List.not_mem_nil, or_false] at hd
  rw [← h3]
  rcases hd with rfl | rfl | rfl <;> exact h _

theorem weights_misses {l : List (Bool × Nat × List Rat)} {n : Node} (h : ∀ e ∈ l, ¬ Covers
    [.name "qas", .index 0, .name "integration", .name "weights", .index e.2.1, .name (if e.1 then "imag" else "real")] n) :
    Misses (uhWeights l) n := by
  intro e he
  obtain ⟨x, hx, rfl⟩ := List.mem_map.1 he
  exact h x hx

theorem zeros_misses {n : Node} (h : ∀ k s, ¬ Covers
    [.name "qas", .index 0, .name "integration", .name "weights", .index k, .name s] n) : Misses uhZeros n := by
  intro e he
  simp only [uhZeros, List.mem_append, List.mem_map] at he
  rcases he with ⟨k, _, rfl⟩ | ⟨k, _, rfl⟩ <;> exact h _ _

theorem weights_last {l : List (Bool × Nat × List Rat)} {im : Bool} {k : Nat} {w : List Rat} (h : LastWeights l im k w) :
    Last (uhWeights l) [.name "qas", .index 0, .name "integration", .name "weights", .index k,
      .name (if im then "imag" else "real")] (.vec w) := by
  obtain ⟨a, b, rfl, hb⟩ := h
  unfold uhWeights
  rw [List.map_append, List.map_cons]
  apply last_append
  refine last_cons_left ?_ rfl (covers_self _)
  apply weights_misses
  intro e he
  have := hb e he
  simp only [covers_cons, covers_nil]
  obtain ⟨e1, e2, e3⟩ := e
  simp only at this ⊢
  intro h
  simp at h
  obtain ⟨h1, h2⟩ := h
  apply this
  refine ⟨?_, h1⟩
  cases e1 <;> cases im <;> simp at h2 ⊢

theorem zeros_last {k : Nat} (hk : k < 10) (im : Bool) :
    Last uhZeros [.name "qas", .index 0, .name "integration", .name "weights", .index k,
      .name (if im then "imag" else "real")] (.vec (List.replicate 4096 0)) := by
  have hr : ∀ e ∈ uhZeros, Real e.1 := by
    intro e he
    simp only [uhZeros, List.mem_append, List.mem_map] at he
    unfold Real
    rcases he with ⟨k, _, rfl⟩ | ⟨k, _, rfl⟩ <;> simp
  have := last_real (W := []) hr (n := [.name "qas", .index 0, .name "integration", .name "weights", .index k,
      .name (if im then "imag" else "real")]) (v := .vec (List.replicate 4096 0))
  rw [List.nil_append] at this
  apply this
  · simp only [uhZeros, List.mem_append, List.mem_map]
    cases im
    · exact Or.inl ⟨k, List.mem_range.2 hk, rfl⟩
    · exact Or.inr ⟨k, List.mem_range.2 hk, rfl⟩
  · intro w hw
    simp only [uhZeros, List.mem_append, List.mem_map] at hw
    rcases hw with ⟨k, _, h⟩ | ⟨k, _, h⟩ <;> exact (Prod.mk.inj h).2.symm

theorem uh_real {c : UhCfg} : ∀ e ∈ uhOuts c.clock ++ (uhZeros ++ (uhOffsets c.offI c.offQ ++
    (sent (c.monitors.flatMap monitorDaqs) ++ (uhWeights c.weights ++ (uhAcq c.acq ++ uhResets))))), Real e.1 := by
  intro e he
  unfold Real
  simp only [List.mem_append] at he
  rcases he with he | he | he | he | he | he | he
  · simp only [uhOuts, List.mem_cons, List.not_mem_nil, or_false] at he
    rcases he with rfl | rfl | rfl <;> simp
  · simp only [uhZeros, List.mem_append, List.mem_map] at he
    rcases he with ⟨k, _, rfl⟩ | ⟨k, _, rfl⟩ <;> simp
  · simp only [uhOffsets, List.mem_cons, List.not_mem_nil, or_false] at he
    rcases he with rfl | rfl <;> simp
  · obtain ⟨d, hd, _, h3, _⟩ := mem_sent.1 he
    rw [List.mem_flatMap] at hd
    obtain ⟨m, _, hd⟩ := hd
    simp only [monitorDaqs, setNum, qaNode, List.mem_cons, List.not_mem_nil, or_false] at hd
    rw [← h3]
    rcases hd with rfl | rfl | rfl <;> simp
  · obtain ⟨x, hx, rfl⟩ := List.mem_map.1 he
    simp
  · cases hq : c.acq with
    | none => rw [hq] at he; cases he
    | some q =>
      rw [hq] at he
      obtain ⟨n, r, a⟩ := q
      simp only [uhAcq, List.mem_cons, List.not_mem_nil, or_false] at he
      rcases he with rfl | rfl | rfl | rfl | rfl | rfl | rfl | rfl | rfl | rfl <;> simp
  · simp only [uhResets, List.mem_cons, List.not_mem_nil, or_false] at he
    rcases he with rfl | rfl | rfl | rfl <;> simp

theorem uh_first : WildFirst uhWild := by
  unfold WildFirst uhWild
  simp only [List.pairwise_cons, List.mem_cons, List.not_mem_nil, or_false, forall_eq_or_imp, forall_eq, IsEmpty.forall_iff,
    implies_true, List.Pairwise.nil, and_true]
  refine ⟨⟨Or.inr ?_, Or.inr ?_⟩, Or.inr ?_⟩
  · rintro n ⟨h1, h2⟩
    cases n with
    | nil => exact covers_cons_nil h1
    | cons s n =>
      have a1 := (covers_cons.1 h1).1
      have a2 := (covers_cons.1 h2).1
      simp at a1 a2
      rw [← a1] at a2
      simp at a2
  · rintro n ⟨h1, h2⟩
    cases n with
    | nil => exact covers_cons_nil h1
    | cons s n =>
      have a1 := (covers_cons.1 h1).1
      have a2 := (covers_cons.1 h2).1
      simp at a1 a2
      rw [← a1] at a2
      simp at a2
  · rintro n ⟨h1, h2⟩
    unfold Covers at h1 h2
    have e1 := h1.length_eq
    have e2 := h2.length_eq
    simp at e1 e2
    omega

theorem uh_regular {c : UhCfg} {b : Builder} (h : uhBuilder c = .ok b) : Regular true b.build := by
  obtain ⟨h1, h2, _, _⟩ := uhBuilder_sent h
  refine ⟨?_, h2⟩
  show WildFirst (sent b.daq)
  rw [h1]
  exact wildFirst_append uh_first uh_real

theorem acq_misses {q : Option (Nat × Nat × Nat)} {n : Node} (h : ∀ a b c, Misses (uhAcq (some (a, b, c))) n) :
    Misses (uhAcq q) n := by
  cases q with
  | none => exact misses_nil
  | some t => exact h _ _ _


/-- A tactic for nodes that are not in a part. -/
macro "far" : tactic => `(tactic| (
  first
  | (simp [uhOuts, uhOffsets, uhAcq, uhResets, misses_cons, misses_nil, covers_cons, covers_nil, covers_cons_nil, covers_nil_cons]
     done)
  | (apply acq_misses; intro a b c
     simp [uhOuts, uhOffsets, uhAcq, uhResets, misses_cons, misses_nil, covers_cons, covers_nil, covers_cons_nil, covers_nil_cons])
  | (apply mon_misses; simp [covers_cons, covers_nil, covers_cons_nil, covers_nil_cons])
  | (apply zeros_misses; simp [covers_cons, covers_nil, covers_cons_nil, covers_nil_cons])
  | (apply weights_misses; simp [covers_cons, covers_nil, covers_cons_nil, covers_nil_cons])))

/-- The nodes that the settings of a UHFQA determine. -/
theorem uh_nodes {c : UhCfg} {b : Builder} (hb : uhBuilder c = .ok b) {h : Hw} (hr : Reflects b.build h) {name : String}
    (hen : c.acq = none → Shows h [.name "qas", .index 0, .name "result", .name "enable"] (.num 1))
    (hp : ∃ p, Runs h 0 p ∧ p.source = c.seqc ∧ ∀ w ∈ c.waves, Dict.get? p.files ⟨name, 0, w.1⟩ =
      some (w.2.map (fun s : Int × Int => ((s.1 : Rat) / 32767, (s.2 : Rat) / 32767)))) : UhConfigured name c h := by
  obtain ⟨h1, _, _, _⟩ := uhBuilder_sent hb
  have key : ∀ {n v}, Last (uhWild ++ (uhOuts c.clock ++ (uhZeros ++ (uhOffsets c.offI c.offQ ++
        (sent (c.monitors.flatMap monitorDaqs) ++ (uhWeights c.weights ++ (uhAcq c.acq ++ uhResets))))))) n v → Shows h n v := by
    intro n v hl
    apply hr.nodes
    show Last (sent b.daq) n v
    rw [h1]; exact hl
  have kR : ∀ {n v}, Last uhResets n v → Shows h n v := fun hl =>
    key (last_append (last_append (last_append (last_append (last_append (last_append (last_append hl)))))))
  have kA : ∀ {n v}, Last (uhAcq c.acq) n v → Misses uhResets n → Shows h n v := fun hl hm =>
    key (last_append (last_append (last_append (last_append (last_append (last_append (last_left hm hl)))))))
  have kW : ∀ {n v}, Last (uhWeights c.weights) n v → Misses (uhAcq c.acq) n → Misses uhResets n → Shows h n v :=
    fun hl h1 hm => key (last_append (last_append (last_append (last_append (last_append
      (last_left (misses_append.2 ⟨h1, hm⟩) hl))))))
  have kO : ∀ {n v}, Last (uhOffsets c.offI c.offQ) n v → Misses (sent (c.monitors.flatMap monitorDaqs)) n →
      Misses (uhWeights c.weights) n → Misses (uhAcq c.acq) n → Misses uhResets n → Shows h n v :=
    fun hl h1 h2 h3 hm => key (last_append (last_append (last_append
      (last_left (misses_append.2 ⟨h1, misses_append.2 ⟨h2, misses_append.2 ⟨h3, hm⟩⟩⟩) hl))))
  have kZ : ∀ {n v}, Last uhZeros n v → Misses (uhOffsets c.offI c.offQ) n →
      Misses (sent (c.monitors.flatMap monitorDaqs)) n →
      Misses (uhWeights c.weights) n → Misses (uhAcq c.acq) n → Misses uhResets n → Shows h n v :=
    fun hl h0 h1 h2 h3 hm => key (last_append (last_append
      (last_left (misses_append.2 ⟨h0, misses_append.2 ⟨h1, misses_append.2 ⟨h2, misses_append.2 ⟨h3, hm⟩⟩⟩⟩) hl)))
  have kU : ∀ {n v}, Last (uhOuts c.clock) n v → Misses uhZeros n → Misses (uhOffsets c.offI c.offQ) n →
      Misses (sent (c.monitors.flatMap monitorDaqs)) n →
      Misses (uhWeights c.weights) n → Misses (uhAcq c.acq) n → Misses uhResets n → Shows h n v :=
    fun hl hz h0 h1 h2 h3 hm => key (last_append
      (last_left (misses_append.2 ⟨hz, misses_append.2 ⟨h0, misses_append.2 ⟨h1, misses_append.2 ⟨h2, misses_append.2 ⟨h3, hm⟩⟩⟩⟩⟩) hl))
  have kV : ∀ {n v}, Last uhWild n v → Misses (uhOuts c.clock) n → Misses uhZeros n → Misses (uhOffsets c.offI c.offQ) n →
      Misses (sent (c.monitors.flatMap monitorDaqs)) n →
      Misses (uhWeights c.weights) n → Misses (uhAcq c.acq) n → Misses uhResets n → Shows h n v :=
    fun hl hu hz h0 h1 h2 h3 hm => key
      (last_left (misses_append.2 ⟨hu, misses_append.2 ⟨hz, misses_append.2 ⟨h0, misses_append.2 ⟨h1, misses_append.2 ⟨h2,
        misses_append.2 ⟨h3, hm⟩⟩⟩⟩⟩⟩) hl)
  constructor
  · intro ch hch
    have : ch = 0 ∨ ch = 1 := by omega
    rcases this with rfl | rfl
    · refine kU (last_cons_left (by far) rfl (covers_self _)) ?_ ?_ ?_ ?_ ?_ ?_ <;> far
    · refine kU (last_cons_right (last_cons_left (by far) rfl (covers_self _))) ?_ ?_ ?_ ?_ ?_ ?_ <;> far
  · refine kO (last_cons_left (by far) rfl (covers_self _)) ?_ ?_ ?_ ?_ <;> far
  · refine kO (last_cons_right (last_cons_left (by far) rfl (covers_self _))) ?_ ?_ ?_ ?_ <;> far
  · refine kV (last_cons_left (by far) rfl (covers_self _)) ?_ ?_ ?_ ?_ ?_ ?_ ?_ <;> far
  · refine kU (last_cons_right (last_cons_right (last_cons_left (by far) rfl (covers_self _)))) ?_ ?_ ?_ ?_ ?_ ?_ <;> far
  · intro k
    refine kV (last_cons_right (last_cons_left (by far) rfl (by simp [covers_cons, covers_nil]))) ?_ ?_ ?_ ?_ ?_ ?_ ?_ <;> far
  · intro k
    refine kV (last_cons_right (last_cons_right (last_cons_left (by far) rfl (by simp [covers_cons, covers_nil])))) ?_ ?_ ?_ ?_ ?_ ?_ ?_ <;> far
  · intro k w hl
    refine kW (weights_last hl) ?_ ?_ <;> far
  · intro k w hl
    refine kW (weights_last hl) ?_ ?_ <;> far
  · intro k hk hn
    refine kZ (zeros_last hk false) (by far) (by far) ?_ (by far) (by far)
    apply weights_misses
    intro e he hc
    simp [covers_cons, covers_nil] at hc
    refine hn e he ⟨?_, hc.1⟩
    cases h1 : e.1 <;> simp [h1] at hc ⊢
  · intro k hk hn
    refine kZ (zeros_last hk true) (by far) (by far) ?_ (by far) (by far)
    apply weights_misses
    intro e he hc
    simp [covers_cons, covers_nil] at hc
    refine hn e he ⟨?_, hc.1⟩
    cases h1 : e.1 <;> simp [h1] at hc ⊢
  · intro q hq
    obtain ⟨a, b, d⟩ := q
    rw [Option.mem_def] at hq
    refine kA ?_ (by far)
    rw [hq]
    exact last_cons_right (last_cons_left (by far) rfl (covers_self _))
  · intro q hq
    obtain ⟨a, b, d⟩ := q
    rw [Option.mem_def] at hq
    refine kA ?_ (by far)
    rw [hq]
    iterate 7 apply last_cons_right
    exact last_cons_left (by far) rfl (covers_self _)
  · intro q hq
    obtain ⟨a, b, d⟩ := q
    rw [Option.mem_def] at hq
    refine kA ?_ (by far)
    rw [hq]
    iterate 9 apply last_cons_right
    exact last_cons_left (by far) rfl (covers_self _)
  · intro hq
    obtain ⟨⟨a, b, d⟩, hq⟩ := Option.isSome_iff_exists.1 hq
    refine kA ?_ (by far)
    rw [hq]
    exact last_cons_left (by far) rfl (covers_self _)
  · intro hq
    obtain ⟨⟨a, b, d⟩, hq⟩ := Option.isSome_iff_exists.1 hq
    refine kA ?_ (by far)
    rw [hq]
    iterate 6 apply last_cons_right
    exact last_cons_left (by far) rfl (covers_self _)
  · intro hq
    obtain ⟨⟨a, b, d⟩, hq⟩ := Option.isSome_iff_exists.1 hq
    refine kA ?_ (by far)
    rw [hq]
    iterate 5 apply last_cons_right
    exact last_cons_left (by far) rfl (covers_self _)
  · intro hq
    obtain ⟨⟨a, b, d⟩, hq⟩ := Option.isSome_iff_exists.1 hq
    refine kA ?_ (by far)
    rw [hq]
    iterate 4 apply last_cons_right
    exact last_cons_left (by far) rfl (covers_self _)
  · cases hq : c.acq with
    | none => exact hen hq
    | some q =>
      obtain ⟨a, b, d⟩ := q
      refine kA ?_ (by far)
      rw [hq]
      iterate 8 apply last_cons_right
      exact last_cons_left (by far) rfl (covers_self _)
  · exact kR (last_cons_right (last_cons_left (by far) rfl (covers_self _)))
  · exact kR (last_cons_right (last_cons_right (last_cons_right (last_cons_left (by far) rfl (covers_self _)))))
  · exact hp

/-- The averages and the length of the last trace are those of the monitor. -/
theorem uh_monitor {c : UhCfg} {b : Builder} (hb : uhBuilder c = .ok b) {h : Hw} (hr : Reflects b.build h)
    {l : List (Nat × Nat)} {m : Nat × Nat} (hm : c.monitors = l ++ [m]) :
    Shows h [.name "qas", .index 0, .name "monitor", .name "averages"] (.num m.1) ∧
    Shows h [.name "qas", .index 0, .name "monitor", .name "length"] (.num m.2) := by
  obtain ⟨h1, _, _, _⟩ := uhBuilder_sent hb
  have key : ∀ {n v}, Last (sent (monitorDaqs m)) n v → Misses (uhWeights c.weights) n → Misses (uhAcq c.acq) n →
      Misses uhResets n → Shows h n v := by
    intro n v hl k1 k2 k3
    apply hr.nodes
    show Last (sent b.daq) n v
    rw [h1, hm]
    have hs : sent ((l ++ [m]).flatMap monitorDaqs) = sent (l.flatMap monitorDaqs) ++ sent (monitorDaqs m) := by
      rw [List.flatMap_append]
      simp [sent]
    rw [hs]
    exact last_append (last_append (last_append (last_append
      (last_left (misses_append.2 ⟨k1, misses_append.2 ⟨k2, k3⟩⟩) (last_append hl)))))
  constructor
  · refine key (last_cons_right (last_cons_left ?_ rfl (covers_self _))) ?_ ?_ ?_
    · simp [sent, setNum, qaNode, misses_cons, misses_nil, covers_cons, covers_nil]
    all_goals far
  · refine key (last_cons_right (last_cons_right (last_cons_left misses_nil rfl (covers_self _)))) ?_ ?_ ?_ <;> far

end Verif.ZiPrepare
