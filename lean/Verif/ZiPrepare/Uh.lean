/-
The values of the nodes of a UHFQA.
-/
import Verif.ZiPrepare.Hd

set_option linter.unusedSimpArgs false
set_option linter.unusedVariables false

namespace Verif.ZiPrepare
open Spec

/-- The values that are sent for the first settings. -/
def uhWild : List (Node × Val) :=
  [([.name "awgs", .index 0, .name "single"], .num 1), ([.name "qas", .index 0, .name "rotations", .any], .cplx 1 1),
    ([.name "qas", .index 0, .name "integration", .name "sources", .any], .num 0)]

/-- Outputs and clock. -/
def uhOuts (k : Nat) : List (Node × Val) :=
  [([.name "sigouts", .index 0, .name "on"], .num 1), ([.name "sigouts", .index 1, .name "on"], .num 1),
    ([.name "awgs", .index 0, .name "time"], .num k)]

/-- The zeros. -/
def uhZeros : List (Node × Val) :=
  (List.range 10).map (fun k => ([.name "qas", .index 0, .name "integration", .name "weights", .index k, .name "real"],
      Val.vec (List.replicate 4096 0))) ++
    (List.range 10).map (fun k => ([.name "qas", .index 0, .name "integration", .name "weights", .index k, .name "imag"],
      Val.vec (List.replicate 4096 0)))

/-- The offsets. -/
def uhOffsets (i q : Rat) : List (Node × Val) :=
  [([.name "sigouts", .index 0, .name "offset"], .num i), ([.name "sigouts", .index 1, .name "offset"], .num q)]

/-- The weights. -/
def uhWeights (l : List (Bool × Nat × List Rat)) : List (Node × Val) :=
  l.map (fun e => ([.name "qas", .index 0, .name "integration", .name "weights", .index e.2.1,
    .name (if e.1 then "imag" else "real")], Val.vec e.2.2))

/-- The acquisitions. -/
def uhAcq : Option (Nat × Nat × Nat) → List (Node × Val)
  | none => []
  | some (n, r, a) => [
      ([.name "qas", .index 0, .name "integration", .name "mode"], .num 0),
      ([.name "qas", .index 0, .name "integration", .name "length"], .num n),
      ([.name "qas", .index 0, .name "result", .name "enable"], .num 0),
      ([.name "qas", .index 0, .name "monitor", .name "enable"], .num 0),
      ([.name "qas", .index 0, .name "delay"], .num 0),
      ([.name "qas", .index 0, .name "result", .name "mode"], .num 0),
      ([.name "qas", .index 0, .name "result", .name "source"], .num 7),
      ([.name "qas", .index 0, .name "result", .name "length"], .num r),
      ([.name "qas", .index 0, .name "result", .name "enable"], .num 1),
      ([.name "qas", .index 0, .name "result", .name "averages"], .num a)]

/-- The resets. -/
def uhResets : List (Node × Val) :=
  [([.name "qas", .index 0, .name "result", .name "reset"], .num 0),
    ([.name "qas", .index 0, .name "result", .name "reset"], .num 1),
    ([.name "qas", .index 0, .name "monitor", .name "reset"], .num 0),
    ([.name "qas", .index 0, .name "monitor", .name "reset"], .num 1)]

theorem withWeights_sent {l : List (Bool × Nat × List Rat)} {m : List Daq} (h : withWeights l = .ok m) :
    sent m = uhWeights l ∧ (∀ d ∈ m, d.fn ≠ .void ∧ waveOf d.node = none) := by
  induction l generalizing m with
  | nil => simp only [withWeights, Except.ok.injEq] at h; subst h; exact ⟨rfl, by simp⟩
  | cons e l ih =>
    obtain ⟨im, k, w⟩ := e
    rw [withWeights] at h
    by_cases h1 : 4096 < w.length
    · rw [if_pos h1] at h; cases h
    · rw [if_neg h1] at h
      by_cases h2 : 10 ≤ k
      · rw [if_pos h2] at h; cases h
      · rw [if_neg h2] at h
        cases hr : withWeights l with
        | error e => rw [hr] at h; cases h
        | ok m' =>
          rw [hr] at h
          simp only [Except.ok.injEq] at h
          subst h
          obtain ⟨i1, i2⟩ := ih hr
          constructor
          · rw [uhWeights, List.map_cons, ← uhWeights, ← i1]
            simp [sent, weightNode]
          · intro d hd
            rcases List.mem_cons.1 hd with rfl | hd
            · exact ⟨by simp, rfl⟩
            · exact i2 d hd

theorem withAcq_sent {q : Option (Nat × Nat × Nat)} {m : List Daq} (h : withAcq q = .ok m) :
    sent m = uhAcq q ∧ (∀ d ∈ m, d.fn ≠ .void ∧ waveOf d.node = none) := by
  cases q with
  | none => simp only [withAcq, Except.ok.injEq] at h; subst h; exact ⟨rfl, by simp⟩
  | some t =>
    obtain ⟨n, r, a⟩ := t
    simp only [withAcq] at h
    by_cases hn : 4096 < n
    · rw [if_pos hn] at h; cases h
    · rw [if_neg hn] at h
      simp only [Except.ok.injEq] at h
      subst h
      refine ⟨rfl, ?_⟩
      intro d hd
      simp only [acqDaqs, setNum, qaNode, result, List.mem_cons, List.not_mem_nil, or_false] at hd
      rcases hd with rfl | rfl | rfl | rfl | rfl | rfl | rfl | rfl | rfl | rfl <;> exact ⟨by simp, rfl⟩

theorem waves_sent (l : List (Nat × List (Int × Int))) :
    sent (l.map (fun w => (⟨waveNode 0 w.1, .wave w.2, .void⟩ : Daq))) = [] := by
  unfold sent
  simp [List.filter_map, Function.comp_def]

theorem sent_map_vec (l : List Nat) (f : Nat → Node) (v : Val) :
    sent (l.map (fun k => ⟨f k, v, .setVector⟩)) = l.map (fun k => (f k, v)) := by
  simp [sent, List.filter_map, Function.comp_def]

theorem withTime_ok {a k : Nat} {m : List Daq} (h : withTime a k = .ok m) : m = [setNum (awgNode (.index a) "time") k] := by
  unfold withTime at h
  by_cases h14 : 14 ≤ k
  · rw [if_pos h14] at h; cases h
  · rw [if_neg h14] at h; cases h; rfl

/-- What is sent to a UHFQA. -/
theorem uhBuilder_sent {c : UhCfg} {b : Builder} (h : uhBuilder c = .ok b) :
    sent b.daq = uhWild ++ (uhOuts c.clock ++ (uhZeros ++ (uhOffsets c.offI c.offQ ++
        (sent (c.monitors.flatMap monitorDaqs) ++ (uhWeights c.weights ++ (uhAcq c.acq ++ uhResets)))))) ∧
      Kinds true b.daq ∧ b.awg = [(0, c.seqc)] ∧
      b.daq.filter (fun d => (waveOf d.node).isSome) = c.waves.map (fun w => ⟨waveNode 0 w.1, .wave w.2, .void⟩) := by
  unfold uhBuilder at h
  cases h1 : withTime 0 c.clock with
  | error e => rw [h1] at h; cases h
  | ok time =>
    rw [h1] at h
    simp only at h
    cases h2 : withWeights c.weights with
    | error e => rw [h2] at h; cases h
    | ok weights =>
      rw [h2] at h
      simp only at h
      cases h3 : withAcq c.acq with
      | error e => rw [h3] at h; cases h
      | ok acq =>
        rw [h3] at h
        simp only [Except.ok.injEq] at h
        obtain ⟨w1, w2⟩ := withWeights_sent h2
        obtain ⟨a1, a2⟩ := withAcq_sent h3
        have ht := withTime_ok h1
        subst ht
        subst h
        have mon : ∀ d ∈ c.monitors.flatMap monitorDaqs, d.fn ≠ .void ∧ waveOf d.node = none := by
          intro d hd
          rw [List.mem_flatMap] at hd
          obtain ⟨m, _, hd⟩ := hd
          simp only [monitorDaqs, setNum, qaNode, List.mem_cons, List.not_mem_nil, or_false] at hd
          rcases hd with rfl | rfl | rfl <;> exact ⟨by simp, rfl⟩
        have z : ∀ d ∈ zeroWeights, d.fn ≠ .void ∧ waveOf d.node = none := by
          intro d hd
          simp only [zeroWeights, List.mem_append, List.mem_map] at hd
          rcases hd with ⟨k, _, rfl⟩ | ⟨k, _, rfl⟩ <;> exact ⟨by simp, rfl⟩
        refine ⟨?_, ?_, rfl, ?_⟩
        · have hz : sent zeroWeights = uhZeros := by
            rw [zeroWeights, sent_append, sent_map_vec, sent_map_vec]; rfl
          simp only [sent_append, waves_sent, w1, a1, hz, List.append_nil, List.append_assoc]
          rfl
        · intro d hd
          simp only [List.mem_append] at hd
          have plain : d.fn ≠ .void ∧ waveOf d.node = none →
              (d.fn = .void ↔ (true = true ∧ (waveOf d.node).isSome = true)) := by
            rintro ⟨p1, p2⟩; simp [p1, p2]
          rcases hd with (((((((((hd | hd) | hd) | hd) | hd) | hd) | hd) | hd) | hd) | hd)
          · simp only [setNum, awgNode, List.mem_cons, List.not_mem_nil, or_false] at hd
            apply plain
            rcases hd with rfl | rfl | rfl <;> exact ⟨by simp, rfl⟩
          · simp only [withSigouts, setNum, onNode, List.mem_cons, List.not_mem_nil, or_false] at hd
            apply plain
            rcases hd with rfl | rfl <;> exact ⟨by simp, rfl⟩
          · simp only [setNum, awgNode, List.mem_cons, List.not_mem_nil, or_false] at hd
            apply plain
            rcases hd with rfl; exact ⟨by simp, rfl⟩
          · exact plain (z d hd)
          · simp only [setNum, offsetNode, List.mem_cons, List.not_mem_nil, or_false] at hd
            apply plain
            rcases hd with rfl | rfl <;> exact ⟨by simp, rfl⟩
          · obtain ⟨w, _, rfl⟩ := List.mem_map.1 hd
            simp [waveNode, waveOf]
          · exact plain (mon d hd)
          · exact plain (w2 d hd)
          · exact plain (a2 d hd)
          · simp only [setNum, result, qaNode, List.mem_cons, List.not_mem_nil, or_false] at hd
            apply plain
            rcases hd with rfl | rfl | rfl | rfl <;> exact ⟨by simp, rfl⟩
        · have no : ∀ l : List Daq, (∀ d ∈ l, d.fn ≠ .void ∧ waveOf d.node = none) →
              l.filter (fun d => (waveOf d.node).isSome) = [] := by
            intro l hl
            rw [List.filter_eq_nil_iff]
            intro d hd
            rw [(hl d hd).2]; simp
          have e1 : ∀ l : List (Nat × List (Int × Int)),
              (l.map (fun w => (⟨waveNode 0 w.1, .wave w.2, .void⟩ : Daq))).filter (fun d => (waveOf d.node).isSome) =
              l.map (fun w => (⟨waveNode 0 w.1, .wave w.2, .void⟩ : Daq)) := by
            intro l
            rw [List.filter_eq_self]
            intro d hd
            obtain ⟨w, _, rfl⟩ := List.mem_map.1 hd
            rfl
          simp only [List.filter_append]
          rw [no _ z, no _ mon, no _ w2, no _ a2, e1]
          have i1 : ∀ x : Daq, waveOf x.node = none → ∀ l : List Daq,
              (x :: l).filter (fun d => (waveOf d.node).isSome) = l.filter (fun d => (waveOf d.node).isSome) := by
            intro x hx l
            rw [List.filter_cons, hx]; rfl
          rw [i1 _ rfl, i1 _ rfl, i1 _ rfl, withSigouts, i1 _ rfl, i1 _ rfl, i1 _ rfl, i1 _ rfl, i1 _ rfl, i1 _ rfl, i1 _ rfl,
            i1 _ rfl, i1 _ rfl]
          simp only [List.append_nil, List.filter_nil, List.nil_append]

end Verif.ZiPrepare
