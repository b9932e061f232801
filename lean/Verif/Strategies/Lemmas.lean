import Verif.Strategies.Spec

set_option linter.unusedSimpArgs false
set_option linter.unusedVariables false

namespace Verif.Strategies

open Verif.Flatten (Info)
open Verif.Waves (Entry WfDict SelfHashed addIfUnique addPath generateData round12)

variable {K : Type} [DecidableEq K]

/-- A memory that was built by adding waveforms. -/
def MemOk (hash : List Int → K) (m : Mem K) : Prop :=
  (WfDict m.awg ∧ SelfHashed hash m.awg) ∧ (WfDict m.weights ∧ SelfHashed hash m.weights)

/-- One memory is a continuation of another. -/
def Below (m m' : Mem K) : Prop := m.awg <+: m'.awg ∧ m.weights <+: m'.weights

theorem Below.refl (m : Mem K) : Below m m := ⟨List.prefix_rfl, List.prefix_rfl⟩

theorem Below.trans {a b c : Mem K} (h : Below a b) (h' : Below b c) : Below a c :=
  ⟨h.1.trans h'.1, h.2.trans h'.2⟩

theorem find_prefix {α : Type} {p : α → Bool} {a b : List α} (h : a <+: b) {x : α}
    (hx : a.find? p = some x) : b.find? p = some x := by
  obtain ⟨t, rfl⟩ := h
  rw [List.find?_append, hx]; rfl

theorem add_find (hash : List Int → K) (d : List (Entry K)) (w : List Rat) :
    ∃ e, (addIfUnique hash d w).1.find? (fun e => e.key == hash (round12 w)) = some e ∧
      e.index = (addIfUnique hash d w).2 := by
  unfold addIfUnique
  split
  · rename_i e he
    exact ⟨e, he, rfl⟩
  · rename_i he
    refine ⟨⟨hash (round12 w), w, Waves.firstFree (d.map Entry.index)⟩, ?_, rfl⟩
    simp only
    rw [List.find?_append, he]
    simp

/-- Adding a waveform again to a later memory changes nothing and gives the same index. -/
theorem add_final {hash : List Int → K} {d fin : List (Entry K)} {w : List Rat}
    (h : (addIfUnique hash d w).1 <+: fin) : addIfUnique hash fin w = (fin, (addIfUnique hash d w).2) := by
  obtain ⟨e, h1, h2⟩ := add_find hash d w
  have := find_prefix h h1
  conv_lhs => unfold addIfUnique
  rw [this]
  simp only [h2]

theorem addPath_prefix (hash : List Int → K) (d : List (Entry K)) (w : List Rat) :
    d <+: (addPath hash d w).1 := by
  unfold addPath
  split
  · exact Waves.add_prefix hash d _
  · exact List.prefix_rfl

theorem addPath_final {hash : List Int → K} {d fin : List (Entry K)} {w : List Rat}
    (h : (addPath hash d w).1 <+: fin) : addPath hash fin w = (fin, (addPath hash d w).2) := by
  unfold addPath at *
  split
  · rename_i hn
    rw [if_pos hn] at h
    rw [add_final h]
  · rfl

theorem generateData_final {hash : List Int → K} {d fin : List (Entry K)} {re im : List Rat}
    (h : (generateData hash d re im).1 <+: fin) :
    generateData hash fin re im = (fin, (generateData hash d re im).2) := by
  unfold generateData at *
  simp only at h
  have h1 := addPath_final ((addPath_prefix hash (addPath hash d re).1 im).trans h)
  have h2 := addPath_final h
  simp only [h1, h2]

theorem addPath_ok {hash : List Int → K} {d : List (Entry K)} {w : List Rat}
    (h : WfDict d ∧ SelfHashed hash d) : WfDict (addPath hash d w).1 ∧ SelfHashed hash (addPath hash d w).1 := by
  unfold addPath
  split
  · exact ⟨Waves.add_wf hash _ h.1, Waves.add_self hash _ h.2⟩
  · exact h

theorem lift_ok {α : Type} {x : Except Numeric.Err α} {y : α} (h : lift x = .ok y) : x = .ok y := by
  cases x with
  | ok a => simpa [lift] using h
  | error e => simp [lift] at h

theorem bind_ok {α β : Type} {x : Except Err α} {f : α → Except Err β} {y : β} (h : x.bind f = .ok y) :
    ∃ a, x = .ok a ∧ f a = .ok y := by
  cases x with
  | ok a => exact ⟨a, rfl, h⟩
  | error e => simp [Except.bind] at h

/-- What `genPulse` accepts. -/
theorem genPulse_ok {c : Config K} {mem mem' : Mem K} {d : Data} {s : Q1.Strategy}
    (h : genPulse c mem d = .ok (mem', s)) : ∃ re im, d.wave = some (re, im) ∧
      mem' = { mem with awg := (generateData c.hash mem.awg re im).1 } ∧
      ((im.any (fun y => decide (y ≠ 0)) && !c.complex) = false) ∧
      (((generateData c.hash mem.awg re im).2 = (none, none) ∧ s = .pulse none none 0 0) ∨
      ((generateData c.hash mem.awg re im).2 ≠ (none, none) ∧ ∃ gI gQ,
        Numeric.expandAwg (Waves.peak re) 65536 = .ok gI ∧ Numeric.expandAwg (Waves.peak im) 65536 = .ok gQ ∧
        s = .pulse (generateData c.hash mem.awg re im).2.1 (generateData c.hash mem.awg re im).2.2 gI gQ)) := by
  unfold genPulse at h
  split at h
  · simp at h
  · rename_i re im hw
    refine ⟨re, im, hw, ?_⟩
    split at h
    · simp at h
    · rename_i hc
      simp only at h
      generalize hg : generateData c.hash mem.awg re im = r at h ⊢
      obtain ⟨d', i0, i1⟩ := r
      have hc : (im.any (fun y => decide (y ≠ 0)) && !c.complex) = false := by
        cases hh : (im.any (fun y => decide (y ≠ 0)) && !c.complex) with
        | true => exact absurd hh hc
        | false => rfl
      have key : ((i0, i1) ≠ (none, none)) → ∀ {x},
          ((lift (Numeric.expandAwg (Waves.peak re) 65536)).bind (fun gI =>
            (lift (Numeric.expandAwg (Waves.peak im) 65536)).bind (fun gQ =>
              (.ok ({ mem with awg := d' }, Q1.Strategy.pulse i0 i1 gI gQ) : Except Err (Mem K × Q1.Strategy))))) = .ok x →
          x.1 = { mem with awg := d' } ∧ ∃ gI gQ, Numeric.expandAwg (Waves.peak re) 65536 = .ok gI ∧
            Numeric.expandAwg (Waves.peak im) 65536 = .ok gQ ∧ x.2 = .pulse i0 i1 gI gQ := by
        intro _ x hx
        obtain ⟨gI, h1, hx⟩ := bind_ok hx
        obtain ⟨gQ, h2, hx⟩ := bind_ok hx
        simp only [Except.ok.injEq] at hx
        subst hx
        exact ⟨rfl, gI, gQ, lift_ok h1, lift_ok h2, rfl⟩
      cases i0 with
      | none =>
        cases i1 with
        | none =>
          simp only [Except.ok.injEq, Prod.mk.injEq] at h
          obtain ⟨rfl, rfl⟩ := h
          exact ⟨rfl, hc, .inl ⟨rfl, rfl⟩⟩
        | some b =>
          obtain ⟨h1, h2⟩ := key (by simp) h
          exact ⟨h1, hc, .inr ⟨by simp, h2⟩⟩
      | some a =>
        have h' : ((lift (Numeric.expandAwg (Waves.peak re) 65536)).bind (fun gI =>
            (lift (Numeric.expandAwg (Waves.peak im) 65536)).bind (fun gQ =>
              (.ok ({ mem with awg := d' }, Q1.Strategy.pulse (some a) i1 gI gQ) : Except Err (Mem K × Q1.Strategy))))) =
            .ok (mem', s) := by
          cases i1 <;> exact h
        obtain ⟨h1, h2⟩ := key (by simp) h'
        exact ⟨h1, hc, .inr ⟨by simp, h2⟩⟩

/-- `genPulse` on a later memory. -/
theorem genPulse_final {c : Config K} {mem mem' fin : Mem K} {d : Data} {s : Q1.Strategy}
    (h : genPulse c mem d = .ok (mem', s)) (hb : Below mem' fin) : genPulse c fin d = .ok (fin, s) := by
  obtain ⟨re, im, hw, hm, hc, hs⟩ := genPulse_ok h
  subst hm
  have hg := generateData_final hb.1
  unfold genPulse
  rw [hw]
  simp only [hc, Bool.false_eq_true, if_false, hg]
  rcases hs with ⟨h1, rfl⟩ | ⟨h1, gI, gQ, h2, h3, rfl⟩
  · rw [h1]
  · generalize (generateData c.hash mem.awg re im).2 = r at h1
    obtain ⟨i0, i1⟩ := r
    cases i0 <;> cases i1 <;> first
      | (exact absurd rfl h1)
      | (simp only [h2, h3]; rfl)

theorem genPulse_below {c : Config K} {mem mem' : Mem K} {d : Data} {s : Q1.Strategy}
    (h : genPulse c mem d = .ok (mem', s)) : Below mem mem' ∧ (MemOk c.hash mem → MemOk c.hash mem') := by
  obtain ⟨re, im, hw, hm, hc, hs⟩ := genPulse_ok h
  subst hm
  refine ⟨⟨?_, List.prefix_rfl⟩, fun hok => ⟨?_, hok.2⟩⟩
  · exact (addPath_prefix c.hash mem.awg re).trans (addPath_prefix c.hash _ im)
  · exact addPath_ok (addPath_ok hok.1)

/-- What `genWeights` accepts. -/
theorem genWeights_ok {c : Config K} {mem : Mem K} {a : Acq} {r : Mem K × Nat × Nat}
    (h : genWeights c mem a = .ok r) : ∃ w0 w1, a.weights = [w0, w1] ∧
      ((Waves.weightTooLarge w0 || Waves.weightTooLarge w1) = false) ∧
      r = ({ mem with weights := (addIfUnique c.hash (addIfUnique c.hash mem.weights w0).1 w1).1 },
        (addIfUnique c.hash mem.weights w0).2,
        (addIfUnique c.hash (addIfUnique c.hash mem.weights w0).1 w1).2) := by
  unfold genWeights at h
  split at h
  · rename_i w0 w1 hw
    refine ⟨w0, w1, hw, ?_⟩
    split at h
    · simp at h
    · rename_i hn
      simp only [Except.ok.injEq] at h
      exact ⟨by simpa using hn, h.symm⟩
  · simp at h

theorem genWeights_final {c : Config K} {mem fin : Mem K} {a : Acq} {r : Mem K × Nat × Nat}
    (h : genWeights c mem a = .ok r) (hb : Below r.1 fin) : genWeights c fin a = .ok (fin, r.2) := by
  obtain ⟨w0, w1, hw, hn, rfl⟩ := genWeights_ok h
  have h2 := add_final hb.2
  have h1 := add_final ((Waves.add_prefix c.hash (addIfUnique c.hash mem.weights w0).1 w1).trans hb.2)
  unfold genWeights
  rw [hw]
  simp only [hn, Bool.false_eq_true, if_false, h1, h2]

theorem genWeights_below {c : Config K} {mem : Mem K} {a : Acq} {r : Mem K × Nat × Nat}
    (h : genWeights c mem a = .ok r) : Below mem r.1 ∧ (MemOk c.hash mem → MemOk c.hash r.1) := by
  obtain ⟨w0, w1, hw, hn, rfl⟩ := genWeights_ok h
  refine ⟨⟨List.prefix_rfl, ?_⟩, fun hok => ⟨hok.1, ?_⟩⟩
  · exact (Waves.add_prefix c.hash mem.weights w0).trans (Waves.add_prefix c.hash _ w1)
  · exact ⟨Waves.add_wf _ _ (Waves.add_wf _ _ hok.2.1), Waves.add_self _ _ (Waves.add_self _ _ hok.2.2)⟩

/-- A step that on a later memory does the same, without changing it. -/
def Settled (hash : List Int → K) {α : Type} (f : Mem K → Except Err (Mem K × α)) : Prop :=
  ∀ mem mem' a, f mem = .ok (mem', a) → (Below mem mem' ∧ (MemOk hash mem → MemOk hash mem')) ∧
    ∀ fin, Below mem' fin → f fin = .ok (fin, a)

theorem settled_const (hash : List Int → K) {α : Type} (x : Except Err α) :
    Settled hash (fun mem : Mem K => x.bind (fun a => .ok (mem, a))) := by
  intro mem mem' a h
  obtain ⟨b, rfl, h⟩ := bind_ok h
  simp only [Except.ok.injEq, Prod.mk.injEq] at h
  obtain ⟨rfl, rfl⟩ := h
  exact ⟨⟨Below.refl _, id⟩, fun fin _ => rfl⟩

theorem Settled.map {hash : List Int → K} {α β : Type} {f : Mem K → Except Err (Mem K × α)}
    (h : Settled hash f) (g : α → β) :
    Settled hash (fun mem => (f mem).bind (fun r => .ok (r.1, g r.2))) := by
  intro mem mem' b hb
  obtain ⟨⟨m, a⟩, h1, h2⟩ := bind_ok hb
  simp only [Except.ok.injEq, Prod.mk.injEq] at h2
  obtain ⟨rfl, rfl⟩ := h2
  obtain ⟨h3, h4⟩ := h _ _ _ h1
  refine ⟨h3, fun fin hf => ?_⟩
  simp only [h4 fin hf]
  rfl

theorem settled_bind {hash : List Int → K} {α β : Type} (x : Except Err α)
    {f : α → Mem K → Except Err (Mem K × β)} (h : ∀ a, x = .ok a → Settled hash (f a)) :
    Settled hash (fun mem => x.bind (fun a => f a mem)) := by
  intro mem mem' b hb
  obtain ⟨a, h1, h2⟩ := bind_ok hb
  obtain ⟨h3, h4⟩ := h a h1 _ _ _ h2
  refine ⟨h3, fun fin hf => ?_⟩
  rw [h1]
  exact h4 fin hf

theorem settled_ok (hash : List Int → K) {α : Type} (a : α) : Settled hash (fun mem : Mem K => .ok (mem, a)) :=
  settled_const hash (.ok a)

theorem settled_error (hash : List Int → K) {α : Type} (e : Err) :
    Settled hash (fun _ : Mem K => (.error e : Except Err (Mem K × α))) := by
  intro mem mem' a h; simp at h

theorem genPulse_settled (c : Config K) (d : Data) : Settled c.hash (fun mem => genPulse c mem d) :=
  fun _ _ _ h => ⟨genPulse_below h, fun _ hf => genPulse_final h hf⟩

theorem genWeights_settled (c : Config K) (a : Acq) : Settled c.hash (fun mem => genWeights c mem a) :=
  fun _ _ _ h => ⟨genWeights_below h, fun _ hf => genWeights_final h hf⟩

theorem genAcq_settled (c : Config K) (i : Info Data) (d : Data) (a : Acq) (k : Kind) :
    Settled c.hash (fun mem => genAcq c mem i d a k) := by
  unfold genAcq
  refine settled_bind _ (fun _ _ => ?_)
  cases k
  case weighed =>
    exact (genWeights_settled c a).map (fun r => Q1.Strategy.weighed (c.acqIndex a.channel) (c.bin i) r.1 r.2)
  case ttl => exact settled_bind _ (fun t _ => settled_ok c.hash _)
  case timetag scope =>
    exact settled_bind _ (fun f0 _ => settled_bind _ (fun f1 _ => settled_bind _ (fun t _ => settled_ok c.hash _)))
  all_goals exact settled_ok c.hash _

theorem genOther_settled (c : Config K) (name : String) (d : Data) (k : Kind) :
    Settled c.hash (fun mem => genOther c mem name d k) := by
  cases k
  case pulse => exact genPulse_settled c d
  case setFreq => exact settled_bind _ (fun n _ => settled_ok c.hash _)
  case offset =>
    unfold genOther
    cases d.offset with
    | none => exact settled_error _ _
    | some o => exact settled_bind _ (fun x _ => settled_bind _ (fun y _ => settled_ok c.hash _))
  all_goals first
    | exact settled_ok c.hash _
    | exact settled_error c.hash _

theorem genOne_settled (c : Config K) (i : Info Data) : Settled c.hash (fun mem => genOne c mem i) := by
  unfold genOne
  refine settled_bind _ (fun d _ => settled_bind _ (fun k _ => ?_))
  have key : ∀ k, Settled c.hash (fun mem => ((match d.acq with
          | some a => genAcq c mem i d a k
          | none => genOther c mem i.name d k).bind (fun r =>
            (.ok (r.1, Q1.Op.leaf ⟨Flatten.ns i.timing, decide (i.name = "IdlePulse"), d.isParam, d.isRT, r.2, none⟩)
              : Except Err (Mem K × Q1.Op))))) := by
    intro k
    cases d.acq with
    | none =>
      exact (genOther_settled c i.name d k).map (fun s => Q1.Op.leaf ⟨Flatten.ns i.timing, decide (i.name = "IdlePulse"), d.isParam, d.isRT, s, none⟩)
    | some a =>
      exact (genAcq_settled c i d a k).map (fun s => Q1.Op.leaf ⟨Flatten.ns i.timing, decide (i.name = "IdlePulse"), d.isParam, d.isRT, s, none⟩)
  cases k
  case loop n => exact settled_ok c.hash _
  case conditional a => exact settled_ok c.hash _
  case ret => exact settled_ok c.hash _
  all_goals exact key _

/-- All operations: with the final memory, each gives what it gave. -/
theorem genAll_final (c : Config K) : ∀ (is : List (Info Data)) (mem fin : Mem K) (ops : List Q1.Op),
    genAll c mem is = .ok (fin, ops) → (Below mem fin ∧ (MemOk c.hash mem → MemOk c.hash fin)) ∧
      List.Forall₂ (fun i op => genOne c fin i = .ok (fin, op)) is ops
  | [], mem, fin, ops, h => by
    simp only [genAll, Except.ok.injEq, Prod.mk.injEq] at h
    obtain ⟨rfl, rfl⟩ := h
    exact ⟨⟨Below.refl _, id⟩, .nil⟩
  | i :: is, mem, fin, ops, h => by
    rw [genAll] at h
    obtain ⟨⟨m1, op⟩, h1, h⟩ := bind_ok h
    obtain ⟨⟨m2, ops'⟩, h2, h⟩ := bind_ok h
    simp only [Except.ok.injEq, Prod.mk.injEq] at h
    obtain ⟨rfl, rfl⟩ := h
    obtain ⟨h3, h4⟩ := genAll_final c is _ _ _ h2
    obtain ⟨h5, h6⟩ := genOne_settled c i _ _ _ h1
    exact ⟨⟨h5.1.trans h3.1, fun hok => h3.2 (h5.2 hok)⟩, .cons (h6 _ h3.1) h4⟩

theorem memOk_empty (hash : List Int → K) : MemOk hash (⟨[], []⟩ : Mem K) := by
  unfold MemOk WfDict SelfHashed
  simp

theorem strategies_final {c : Config K} {is : List (Info Data)} {fin : Mem K} {ops : List Q1.Op}
    (h : strategies c is = .ok (fin, ops)) : MemOk c.hash fin ∧
      List.Forall₂ (fun i op => genOne c fin i = .ok (fin, op)) is ops := by
  obtain ⟨h1, h2⟩ := genAll_final c is _ _ _ h
  exact ⟨h1.2 (memOk_empty _), h2⟩

end Verif.Strategies
