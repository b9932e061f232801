/-
Lemmas for C82: what each class stores, and when it is refused.
-/
import Verif.Ops.Lemmas

set_option linter.unusedSimpArgs false
set_option linter.unusedVariables false
set_option linter.unusedTactic false
set_option linter.unreachableTactic false

namespace Verif.Ops

/-- What `NumericalSeparatedWeightedIntegration` stores. -/
theorem numeric_ok {a : String → Val} {i : Info} : numeric a = .ok i ↔ ∃ xs ys r,
    Sequence (a "weights_a") xs ∧ Sequence (a "weights_b") ys ∧ a "weights_sampling_rate" = .num r ∧
    r ≠ 0 ∧ Zero (a "phase") ∧
    i = [("waveforms", .list [
        .dict [("wf_func", .str "quantify_scheduler.waveforms.interpolated_complex_waveform"),
          ("samples", .array xs),
          ("t_samples", .array ((List.range xs.length).map fun i : Nat => .num ((i : Rat) / r))),
          ("interpolation", a "interpolation")],
        .dict [("wf_func", .str "quantify_scheduler.waveforms.interpolated_complex_waveform"),
          ("samples", .array ys),
          ("t_samples", .array ((List.range xs.length).map fun i : Nat => .num ((i : Rat) / r))),
          ("interpolation", a "interpolation")]]),
      ("t0", a "t0"), ("clock", a "clock"), ("port", a "port"),
      ("duration", .num ((xs.length : Rat) / r)), ("phase", a "phase"),
      ("acq_channel", a "acq_channel"), ("coords", a "coords"), ("acq_index", a "acq_index"),
      ("bin_mode", a "bin_mode"), ("protocol", .str "NumericalSeparatedWeightedIntegration"),
      ("acq_return_type", .type "complex")] := by
  unfold numeric
  simp only [bind_ok, asList_ok, asNum_ok]
  constructor
  · rintro ⟨xs, hx, ys, hy, r, hr, h⟩
    refine ⟨xs, ys, r, hx, hy, hr, ?_⟩
    by_cases h0 : r = 0
    · simp [h0] at h
    · rw [if_neg h0] at h
      refine ⟨h0, ?_⟩
      obtain ⟨d, hd, h⟩ := bind_ok.mp h
      unfold separated at hd
      cases hz : neZero (a "phase") with
      | true => simp [hz] at hd
      | false =>
        refine ⟨neZero_iff.mp hz, ?_⟩
        simp only [hz, Bool.false_eq_true, if_false, Except.ok.injEq] at hd
        subst hd
        simp only [Except.ok.injEq] at h
        rw [← h]
        simp [Dict.set]
  · rintro ⟨xs, ys, r, hx, hy, hr, h0, hz, rfl⟩
    refine ⟨xs, hx, ys, hy, r, hr, ?_⟩
    rw [if_neg h0, separated, neZero_iff.mpr hz]
    simp [Dict.set, Bind.bind, Except.bind]

/-- What `NumericalPulse` stores. -/
theorem numericalPulse_ok {a : String → Val} {i : Info} : numericalPulse a = .ok i ↔
    ∃ x xs ys p q, Sequence (a "t_samples") (x :: xs) ∧ Sequence (a "samples") ys ∧ x = .num p ∧
    (x :: xs).getLast (by simp) = .num q ∧
    i = [("wf_func", .str "quantify_scheduler.waveforms.interpolated_complex_waveform"),
      ("samples", .list ys), ("t_samples", .list (x :: xs)),
      ("reference_magnitude", a "reference_magnitude"), ("duration", .num (q - p)),
      ("interpolation", a "interpolation"), ("clock", a "clock"), ("port", a "port"),
      ("t0", a "t0")] := by
  unfold numericalPulse
  simp only [bind_ok, asList_ok]
  constructor
  · rintro ⟨ts, ht, d, hd, ys, hy, h⟩
    cases ts with
    | nil => simp [span] at hd
    | cons x xs =>
      simp only [span, List.head?_cons, List.getLast?_eq_some_getLast (List.cons_ne_nil x xs)] at hd
      obtain ⟨q, hq, hd⟩ := bind_ok.mp hd
      obtain ⟨p, hp, hd⟩ := bind_ok.mp hd
      rw [asNum_ok] at hp hq
      simp only [Except.ok.injEq] at hd h
      exact ⟨x, xs, ys, p, q, ht, hy, hp, hq, by rw [← h, ← hd]⟩
  · rintro ⟨x, xs, ys, p, q, ht, hy, hp, hq, rfl⟩
    refine ⟨x :: xs, ht, q - p, ?_, ys, hy, rfl⟩
    simp only [span, List.head?_cons, List.getLast?_eq_some_getLast (List.cons_ne_nil x xs)]
    refine bind_ok.mpr ⟨q, asNum_ok.mpr hq, bind_ok.mpr ⟨p, asNum_ok.mpr hp, rfl⟩⟩

theorem sequence_unique {v : Val} {l m : List Val} (h : Sequence v l) (g : Sequence v m) : l = m := by
  rcases h with rfl | rfl <;> rcases g with h | h <;> simp_all

/-- The times of the samples of a simple numerical pulse. -/
def nanoseconds (n : Nat) : List Val := (List.range n).map fun i : Nat => Val.num ((i : Rat) / 1000000000)

theorem nanoseconds_succ (n : Nat) : ∃ x xs, nanoseconds (n + 1) = x :: xs ∧ x = .num 0 ∧
    ∀ h, (nanoseconds (n + 1)).getLast h = .num ((n : Rat) / 1000000000) := by
  refine ⟨.num 0, (List.range n).map fun i => Val.num (((i + 1 : Nat) : Rat) / 1000000000), ?_, rfl, ?_⟩
  · simp [nanoseconds, List.range_succ_eq_map, Function.comp_def]
  · intro h
    simp [nanoseconds, List.range_succ]

/-- What `SimpleNumericalPulse` stores. -/
theorem simple_ok {a : String → Val} {i : Info} : entry .SimpleNumericalPulse a = .ok i ↔
    ∃ ys, Sequence (a "samples") ys ∧
    i = [("wf_func", .str "quantify_scheduler.waveforms.interpolated_complex_waveform"),
      ("samples", .list (ys ++ [.num 0])), ("t_samples", .list (nanoseconds (ys.length + 1))),
      ("reference_magnitude", a "reference_magnitude"),
      ("duration", .num ((ys.length : Rat) / 1000000000)),
      ("interpolation", .str "linear"), ("clock", a "clock"), ("port", a "port"), ("t0", a "t0")] := by
  simp only [entry, bind_ok, asList_ok]
  constructor
  · rintro ⟨ys, hy, h⟩
    refine ⟨ys, hy, ?_⟩
    obtain ⟨x, xs, zs, p, q, ht, hz, hp, hq, rfl⟩ := numericalPulse_ok.mp h
    simp only [String.reduceEq, if_true, if_false] at ht hz
    have e1 := sequence_unique hz (.inr rfl)
    have e2 := sequence_unique ht (.inr rfl)
    simp only [List.length_append, List.length_singleton] at e2
    obtain ⟨y, ys', e3, e4, e5⟩ := nanoseconds_succ ys.length
    have e6 : x :: xs = nanoseconds (ys.length + 1) := e2
    have e7 := e5 (by rw [e3]; simp)
    have e8 : (x :: xs).getLast (by simp) = .num ((ys.length : Rat) / 1000000000) := by
      rw [← e7]; congr 1
    rw [hq] at e8
    have e9 : x = .num 0 := by
      rw [e3, e4] at e6
      exact (List.cons.inj e6).1
    rw [hp] at e9
    simp only [Val.num.injEq] at e8 e9
    rw [e1, e6, e8, e9]
    simp
  · rintro ⟨ys, hy, rfl⟩
    refine ⟨ys, hy, numericalPulse_ok.mpr ?_⟩
    obtain ⟨y, ys', e3, e4, e5⟩ := nanoseconds_succ ys.length
    refine ⟨y, ys', ys ++ [.num 0], 0, (ys.length : Rat) / 1000000000, ?_, ?_, e4, ?_, ?_⟩
    · right
      simp only [String.reduceEq, if_true, if_false, Val.array.injEq]
      rw [← e3]
      simp [nanoseconds]
    · right
      simp
    · rw [← e5 (by rw [e3]; simp)]
      congr 1
      exact e3.symm
    · rw [e3]
      simp

end Verif.Ops
