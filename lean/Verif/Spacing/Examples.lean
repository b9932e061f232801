/-
C62: concrete cases, and what is not checked.
-/
import Verif.Spacing.Props

namespace Verif.Spacing

open Spec

/-- Two pulses: 0-20 ns with a fine delay of 0.25 ns at the end, and 30-50 ns with 0.5 ns at the start; an
acquisition in between. -/
def good : List FOp :=
  [⟨.pulse, 0, 20 / 1000000000, 0, 1 / 4000000000⟩, ⟨.acq, 21 / 1000000000, 4 / 1000000000, 0, 0⟩,
   ⟨.pulse, 30 / 1000000000, 20 / 1000000000, 1 / 2000000000, 0⟩]

theorem good_edges : edgesOf .pulse good = [0, 20250, 30500, 50000] ∧ edgesOf .acq good = [21000, 25000] := by
  decide +kernel

example : fineCheck good = .ok () := by decide +kernel

/-- The hypotheses of `fine_iff` and `fine_pairs` hold of it. -/
example : (∀ o ∈ good, ∀ e ∈ edges o, 0 ≤ e) ∧ (edgesOf .pulse good).Pairwise (fun a b => a ≤ b) := by
  decide +kernel

/-- 3.25 ns between the end of a pulse and the start of the next. -/
example : fineCheck [⟨.pulse, 0, 20 / 1000000000, 0, 1 / 4000000000⟩,
    ⟨.pulse, 23 / 1000000000, 20 / 1000000000, 1 / 2000000000, 0⟩] = .error .fineDelayBetween := by decide +kernel

/-- A pulse of 4.5 ns. -/
example : fineCheck [⟨.pulse, 0, 4 / 1000000000, 0, 1 / 2000000000⟩] = .error .fineDelayWithin := by decide +kernel

/-- Delays of 3.6 ps and of 4.4 ps. -/
def close : FOp := ⟨.pulse, 0, 4 / 1000000000, 36 / 10000000000000, 44 / 10000000000000⟩

/-- **Finding**: the check rounds to 1 ps, but the hardware has steps of 1/128 ns: this pulse is accepted as 4 ns
long, and is 4 + 1/128 ns long on the hardware, which is not executable. -/
theorem rounding_accepts : fineCheck [close] = .ok () ∧ Hw 0 close.fineStart 0 ∧ Hw 4 close.fineEnd 513 ∧
    ¬HwExecutable 0 513 := by
  refine ⟨by decide +kernel, ⟨0, by decide +kernel, by decide⟩, ⟨1, by decide +kernel, by decide⟩, ?_⟩
  rintro (⟨k, h⟩ | h)
  · omega
  · omega

/-- **Finding**: the operations are checked in the order of their list, which is that of the start of the operations
and not of the pulses: 2.5 ns between a pulse and the next are accepted, and 89.5 ns are refused. -/
theorem unordered : fineCheck [⟨.pulse, 12 / 1000000000, 20 / 1000000000, 1 / 2000000000, 0⟩,
      ⟨.pulse, 0, 10 / 1000000000, 0, 0⟩] = .ok () ∧
    fineCheck [⟨.pulse, 100 / 1000000000, 10 / 1000000000, 1 / 2000000000, 1 / 2000000000⟩,
      ⟨.pulse, 0, 11 / 1000000000, 0, 0⟩] = .error .fineDelayBetween := by decide +kernel

/-- **Finding**: loops are not taken into account: a pulse from 0.5 to 10.25 ns is accepted, although in a loop of
12 ns the next one starts 2.25 ns after its end. -/
theorem loop_unchecked : fineCheck [⟨.pulse, 0, 10 / 1000000000, 1 / 2000000000, 1 / 4000000000⟩] = .ok () ∧
    ¬Executable 10250 (12000 + 500) := by
  refine ⟨by decide +kernel, ?_⟩
  rintro (⟨k, h⟩ | h)
  · omega
  · omega

/-- Three phase updates and two frequency updates, added in any order. -/
example : ncoCheck [⟨100, .phaseShift⟩, ⟨0, .frequency⟩, ⟨4, .resetPhase⟩, ⟨4, .frequency⟩, ⟨0, .phaseShift⟩,
    ⟨1, .other⟩] = .ok () := by
  rw [nco_iff]
  simp [Same]

/-- A shift 2 ns after a reset. -/
example : ncoCheck [⟨6, .phaseShift⟩, ⟨4, .resetPhase⟩] ≠ .ok () := by
  rw [Ne, nco_iff]
  simp [Same]

end Verif.Spacing
