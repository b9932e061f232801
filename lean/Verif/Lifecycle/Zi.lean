/-
C59: repeated acquisitions of `ZIInstrumentCoordinator`
(instrument_coordinator/instrument_coordinator.py:393-475).

Simplifications: `max_num_reacquisitions` is an integer; the calls of the base class in `retrieve_acquisition`
do not fail; `data i` is what the `i`th of them returns (counted from 0, over the life of the instrument);
`differs` is whether the norm of the difference of the first channels is positive.
-/
import Verif.Lifecycle.Model

set_option linter.unusedVariables false

namespace Verif.Lifecycle.Zi

/-- `_last_acquisition`, and how often data were retrieved. -/
structure State (D : Type) where
  last : Option D
  count : Nat

/-- `_compare_reacquire` (426-438): are the data to be acquired again? -/
def compare {D : Type} (differs : D → D → Bool) (last : Option D) (new : D) : Bool :=
  match last with
  | none => true
  | some old => !differs new old

/-- The loop of `retrieve_acquisition` (456-473), after `num` acquisitions were repeated. -/
def loop {D : Type} (differs : D → D → Bool) (data : Nat → D) (max : Nat) (num : Nat) (st : State D) :
    State D × Except Err D :=
  if max ≤ num + 1 then (st, .error .runtimeError)
  else
    let new := data st.count
    let st' : State D := ⟨some new, st.count + 1⟩
    if compare differs st.last new then loop differs data max (num + 1) st' else (st', .ok new)
termination_by max - num

/-- `retrieve_acquisition` (440-475). -/
def retrieve {D : Type} (differs : D → D → Bool) (data : Nat → D) (reacquire : Bool) (max : Nat) (st : State D) :
    State D × Except Err D :=
  let new := data st.count
  if reacquire then
    let st' : State D := ⟨some new, st.count + 1⟩
    if compare differs st.last new then loop differs data max 0 st' else (st', .ok new)
  else (⟨st.last, st.count + 1⟩, .ok new)

section
variable {D : Type} {differs : D → D → Bool} {data : Nat → D} {max : Nat}

/-- What the loop returns. -/
theorem loop_spec : ∀ (num : Nat) (c : Nat),
    let r := loop differs data max num ⟨some (data c), c + 1⟩
    (∀ d, r.2 = .ok d → ∃ i, c + 1 ≤ i ∧ i + num + 1 < max + (c + 1) ∧ d = data i ∧ differs (data i) (data (i - 1)) = true ∧
      (∀ j, c + 1 ≤ j → j < i → differs (data j) (data (j - 1)) = false) ∧ r.1 = ⟨some (data i), i + 1⟩) ∧
    (∀ e, r.2 = .error e → e = .runtimeError ∧
      ∀ j, c + 1 ≤ j → j + num + 1 < max + (c + 1) → differs (data j) (data (j - 1)) = false) ∧
    r.1.count + num ≤ c + 1 + Nat.max (max - 1) num := by
  intro num c
  by_cases hm : max ≤ num + 1
  · unfold loop
    simp only [if_pos hm, reduceCtorEq, false_implies, implies_true, true_and, Except.error.injEq]
    refine ⟨?_, ?_⟩
    · rintro e rfl
      refine ⟨rfl, fun j h1 h2 => ?_⟩
      omega
    · have : num ≤ Nat.max (max - 1) num := Nat.le_max_right _ _
      omega
  · have hle : num + 1 ≤ max - 1 := by omega
    unfold loop
    simp only [if_neg hm, compare]
    by_cases hd : differs (data (c + 1)) (data c) = true
    · simp only [hd, Bool.not_true, Bool.false_eq_true, if_false, Except.ok.injEq, reduceCtorEq, false_implies,
        implies_true, true_and]
      refine ⟨?_, ?_⟩
      · rintro d rfl
        exact ⟨c + 1, by omega, by omega, rfl, by simpa using hd, fun j h1 h2 => by omega, rfl⟩
      · have : max - 1 ≤ Nat.max (max - 1) num := Nat.le_max_left _ _
        omega
    · simp only [Bool.not_eq_true] at hd
      simp only [hd, Bool.not_false, if_true]
      obtain ⟨h1, h2, h3⟩ := loop_spec (num + 1) (c + 1)
      refine ⟨?_, ?_, ?_⟩
      · intro d hr
        obtain ⟨i, a1, a2, a3, a4, a5, a6⟩ := h1 d hr
        refine ⟨i, by omega, by omega, a3, a4, ?_, a6⟩
        intro j b1 b2
        by_cases e : j = c + 1
        · subst e; simpa using hd
        · exact a5 j (by omega) b2
      · intro e hr
        obtain ⟨a1, a2⟩ := h2 e hr
        refine ⟨a1, ?_⟩
        intro j b1 b2
        by_cases e : j = c + 1
        · subst e; simpa using hd
        · exact a2 j (by omega) (by omega)
      · have e1 : Nat.max (max - 1) (num + 1) = max - 1 := Nat.max_eq_left (by omega)
        have e2 : Nat.max (max - 1) num = max - 1 := Nat.max_eq_left (by omega)
        rw [e1] at h3
        rw [e2]
        omega
termination_by num => max - num

end

/-- **C59, repeated acquisitions.** With reacquisition, the data returned are those of the first of the
acquisitions that differ from the previous one (of an earlier call, for the first); if fewer than
`max_num_reacquisitions` repetitions do not suffice, an exception is raised.  The number of acquisitions is
bounded. -/
theorem retrieve_reacquire {D : Type} (differs : D → D → Bool) (data : Nat → D) (max c : Nat) (last : Option D) :
    let r := retrieve differs data true max ⟨last, c⟩
    (∀ d, r.2 = .ok d → ∃ i, c ≤ i ∧ i < c + Nat.max max 1 ∧ d = data i ∧ r.1 = ⟨some (data i), i + 1⟩ ∧
      (i = c → ∃ old, last = some old ∧ differs (data i) old = true) ∧
      (i ≠ c → differs (data i) (data (i - 1)) = true) ∧
      (∀ j, c < j → j < i → differs (data j) (data (j - 1)) = false)) ∧
    (∀ e, r.2 = .error e → e = .runtimeError ∧ (∀ old, last = some old → differs (data c) old = false) ∧
      ∀ j, c < j → j < c + max - 1 → differs (data j) (data (j - 1)) = false) := by
  simp only [retrieve, if_true]
  have hmax1 : 1 ≤ Nat.max max 1 := Nat.le_max_right _ _
  have hmax : max ≤ Nat.max max 1 := Nat.le_max_left _ _
  by_cases hc : compare differs last (data c) = true
  · rw [if_pos hc]
    obtain ⟨h1, h2, _⟩ := loop_spec (differs := differs) (data := data) (max := max) 0 c
    refine ⟨?_, ?_⟩
    · intro d hr
      obtain ⟨i, a1, a2, a3, a4, a5, a6⟩ := h1 d hr
      exact ⟨i, by omega, by omega, a3, a6, fun e => by omega, fun _ => a4, fun j b1 b2 => a5 j (by omega) b2⟩
    · intro e hr
      obtain ⟨a1, a2⟩ := h2 e hr
      refine ⟨a1, ?_, fun j b1 b2 => a2 j (by omega) (by omega)⟩
      intro old ho
      subst ho
      simpa [compare] using hc
  · rw [if_neg hc]
    simp only [Except.ok.injEq, reduceCtorEq, false_implies, implies_true, and_true]
    rintro d rfl
    refine ⟨c, by omega, by omega, rfl, rfl, fun _ => ?_, fun h => absurd rfl h, fun j b1 b2 => by omega⟩
    cases last with
    | none => simp [compare] at hc
    | some old => exact ⟨old, rfl, by simpa [compare] using hc⟩

/-- Without it, the data are those of one acquisition. -/
theorem retrieve_plain {D : Type} (differs : D → D → Bool) (data : Nat → D) (max : Nat) (st : State D) :
    retrieve differs data false max st = (⟨st.last, st.count + 1⟩, .ok (data st.count)) := rfl

/-- **C59, finding.** The first acquisition of an instrument is always repeated, and with
`max_num_reacquisitions` at most 1, which is allowed, always fails. -/
theorem first_repeated {D : Type} (differs : D → D → Bool) (data : Nat → D) (max : Nat) :
    (∀ d, (retrieve differs data true max ⟨none, 0⟩).2 = .ok d → ∃ i, 1 ≤ i ∧ d = data i) ∧
    (max ≤ 1 → (retrieve differs data true max ⟨none, 0⟩).2 = .error .runtimeError) := by
  refine ⟨?_, ?_⟩
  · intro d h
    obtain ⟨i, _, _, h1, _, h2, _⟩ := (retrieve_reacquire differs data max 0 none).1 d h
    refine ⟨i, ?_, h1⟩
    by_contra hi
    obtain ⟨old, h3, _⟩ := h2 (by omega)
    simp at h3
  · intro hm
    simp only [retrieve, compare, if_true]
    unfold loop
    rw [if_pos (by omega)]

/-- **C59, finding.** Measurements that give the same result twice raise an exception, for example trigger
counts without noise. -/
theorem same_result_fails {D : Type} (differs : D → D → Bool) (hrefl : ∀ d, differs d d = false) (d : D) (max : Nat)
    (st : State D) (hl : ∀ old, st.last = some old → old = d) :
    (retrieve differs (fun _ => d) true max st).2 = .error .runtimeError := by
  obtain ⟨last, c⟩ := st
  cases hr : (retrieve differs (fun _ => d) true max ⟨last, c⟩).2 with
  | error e => rw [((retrieve_reacquire differs (fun _ => d) max c last).2 e hr).1]
  | ok x =>
    obtain ⟨i, _, _, _, _, h2, h3, _⟩ := (retrieve_reacquire differs (fun _ => d) max c last).1 x hr
    by_cases hi : i = c
    · obtain ⟨old, h4, h5⟩ := h2 hi
      rw [hl old h4, hrefl] at h5
      simp at h5
    · have := h3 hi
      rw [hrefl] at this
      simp at this

/-- Results that differ are returned, after one repetition at first. -/
theorem example_zi : (retrieve (fun a b => decide (a ≠ b)) (fun i => i) true 5 ⟨none, 0⟩).2 = Except.ok 1 ∧
    (retrieve (fun a b => decide (a ≠ b)) (fun i => i) true 5 ⟨some 1, 2⟩).2 = Except.ok 2 := by
  have h1 := retrieve_reacquire (fun (a b : Nat) => decide (a ≠ b)) (fun i => i) 5 0 none
  refine ⟨?_, ?_⟩
  · simp [retrieve, compare, loop]
  · simp [retrieve, compare, loop]

end Verif.Lifecycle.Zi
