/-
C82: pulses and acquisitions hold what they were given and are refused exactly when documented.
-/
import Verif.Ops.Holds

set_option linter.unusedSimpArgs false
set_option linter.unusedVariables false
set_option linter.unusedTactic false
set_option linter.unreachableTactic false

namespace Verif.Ops

theorem latest_single (i : Info) : latest [i] = endOf i := by
  unfold latest
  cases h : endOf i <;> simp [h, Bind.bind, Except.bind, pure, Except.pure]

theorem endOf_ok {i : Info} {d : Rat} : endOf i = .ok d ↔ ∃ s t,
    Dict.get? i "t0" = some (.num s) ∧ Dict.get? i "duration" = some (.num t) ∧ d = s + t := by
  unfold endOf
  simp only [bind_ok, asNum_ok, Except.ok.injEq]
  have key : ∀ k q, ((Dict.get? i k).getD .none = .num q) ↔ Dict.get? i k = some (.num q) := by
    intro k q
    cases Dict.get? i k <;> simp
  simp only [key]
  constructor
  · rintro ⟨s, h1, t, h2, rfl⟩; exact ⟨s, t, h1, h2, rfl⟩
  · rintro ⟨s, t, h1, h2, rfl⟩; exact ⟨s, h1, t, h2, rfl⟩

/-- The operation with one entry. -/
def single (c : Cls) (i : Info) (d : Rat) : Op where
  cls := c
  name := c.pyName
  pulses := if c.isAcq then [] else [i]
  acqs := if c.isAcq then [i] else []
  duration := d

theorem create_iff {c : Cls} {kw : List (String × Val)} {o : Op} : create c kw = .ok o ↔
    (∀ k ∈ Dict.keys kw, k ∈ required c ∨ k ∈ optional c) ∧ (∀ p ∈ required c, p ∈ Dict.keys kw) ∧
    ∃ i d, entry c (argOf c kw) = .ok i ∧ endOf i = .ok d ∧ o = single c i d := by
  unfold create
  have hl : ∀ i : Info, latest ((if c.isAcq then [] else [i]) ++ (if c.isAcq then [i] else [])) =
      endOf i := by
    intro i
    cases c.isAcq <;> simp [latest_single]
  simp only [bind_ok, bind_iff, Except.ok.injEq]
  constructor
  · rintro ⟨a, ⟨h1, h2, rfl⟩, i, hi, d, hd, rfl⟩
    exact ⟨h1, h2, i, d, hi, by rw [← hl i]; exact hd, rfl⟩
  · rintro ⟨h1, h2, i, d, hi, hd, rfl⟩
    exact ⟨_, ⟨h1, h2, rfl⟩, i, hi, d, by rw [← hl i] at hd; exact hd, rfl⟩

theorem isAcq_iff (c : Cls) : c.isAcq = true ↔ Acquires c := by
  unfold Acquires; cases c <;> decide

theorem pyName_mem (c : Cls) : (c, c.pyName) ∈ classNames := by
  cases c <;> decide +kernel

/-- An operation has the name of its class and one entry: an acquisition if it acquires data, otherwise a
pulse. The entry holds every argument under its name, and what the class adds, and nothing else. The
operation lasts until its start plus its duration. -/
theorem stored {c : Cls} {kw : List (String × Val)} {o : Op} (h : create c kw = .ok o) :
    o.cls = c ∧ (c, o.name) ∈ classNames ∧ ∃ i, Holds c kw i ∧
      (Acquires c → o.acqs = [i] ∧ o.pulses = []) ∧ (¬ Acquires c → o.acqs = [] ∧ o.pulses = [i]) ∧
      ∃ s t, Dict.get? i "t0" = some (.num s) ∧ Dict.get? i "duration" = some (.num t) ∧
        o.duration = s + t := by
  obtain ⟨_, _, i, d, hi, hd, rfl⟩ := create_iff.mp h
  refine ⟨rfl, pyName_mem c, i, holds_of_good (entry_good hi), ?_, ?_, ?_⟩
  · intro hc
    simp [single, (isAcq_iff c).mpr hc]
  · intro hc
    have : c.isAcq = false := by
      cases hh : c.isAcq
      · rfl
      · exact absurd ((isAcq_iff c).mp hh) hc
    simp [single, this]
  · exact endOf_ok.mp hd

/-- A keyword that the class does not have, or a missing argument, is a TypeError. -/
theorem wrong_arguments {c : Cls} {kw : List (String × Val)}
    (h : (∃ k ∈ Dict.keys kw, k ∉ required c ∧ k ∉ optional c) ∨ ∃ p ∈ required c, p ∉ Dict.keys kw) :
    create c kw = .error .typeError := by
  have : bind c kw = .error .typeError := by
    cases hb : bind c kw with
    | ok a =>
      obtain ⟨h1, h2, _⟩ := (bind_iff c kw a).mp hb
      rcases h with ⟨k, hk, h3, h4⟩ | ⟨p, hp, h3⟩
      · exact absurd (h1 k hk) (by simp [h3, h4])
      · exact absurd (h2 p hp) h3
    | error e =>
      unfold bind at hb
      split at hb
      · split at hb
        · cases hb
        · cases hb; rfl
      · cases hb; rfl
  unfold create
  rw [this]
  rfl

end Verif.Ops
