/-
C61: concrete cases, and what the hypotheses exclude.
-/
import Verif.Digital.Props

set_option linter.unusedSimpArgs false
set_option linter.unusedVariables false

namespace Verif.Digital

open Verif.Flatten (Forest leaves)
open Verif.Redundant (Op Kind Params Trace exec appliedAt ordered removeRedundant)
open Verif.Connect (Chan ModType)

/-! ### A loop of two pulses, the second in a conditional, and one pulse after the loop -/

def ops1 : List (DOp Int) :=
  [⟨0, .rest (.param (fun _ => 3))⟩, ⟨0, .rest (.loop 2 1000)⟩, ⟨100, .pulse 200⟩, ⟨150, .rest (.io 1 id)⟩,
   ⟨300, .rest .cond⟩, ⟨340, .pulse 60⟩, ⟨500, .rest .ret⟩, ⟨1000, .rest .ret⟩, ⟨2100, .pulse 40⟩,
   ⟨2050, .rest (.io 2 id)⟩]

def tree1 : Forest (DOp Int) :=
  .node ⟨0, .rest (.loop 2 1000)⟩ (.leaf ⟨100, .pulse 200⟩ (.node ⟨300, .rest .cond⟩ (.leaf ⟨340, .pulse 60⟩ .nil)
    ⟨500, .rest .ret⟩ .nil)) ⟨1000, .rest .ret⟩ (.leaf ⟨2100, .pulse 40⟩ .nil)

theorem outline1 : Spec.outline ops1 = tree1.flatten := by
  simp [Spec.outline, ops1, tree1, Forest.flatten, Spec.pulse, Spec.control]

theorem inOrder1 : Spec.InOrder ops1 := by
  refine ⟨?_, ?_⟩
  · intro o ho d hd
    simp [ops1] at ho
    rcases ho with rfl | rfl | rfl | rfl | rfl | rfl | rfl | rfl | rfl | rfl <;> simp at hd <;> omega
  · rw [outline1]
    simp [tree1, Forest.flatten, Spec.stop]

theorem bracketed1 : Spec.Bracketed tree1 := by simp [tree1, Spec.Bracketed, Spec.control]

/-- The conditional is taken in the second repetition only. -/
def env1 : List Nat → Bool := fun path => path == [0, 1, 0]

theorem pulses1 : Spec.pulses env1 tree1 0 [] 0 = [(100, 300), (1100, 1300), (1340, 1400), (2100, 2140)] := by
  decide +kernel

/-- The hypotheses of `high_during_pulses` hold of it. -/
theorem example1 : ∃ g, ordered (removeRedundant (replace ⟨8, 0⟩ ops1)) = g.flatten ∧
    ∀ now, (appliedAt now (exec env1 g 0 [] 0) ⟨(0, 0), (0, 0)⟩).1 =
      if (100 ≤ now ∧ now < 300) ∨ (1100 ≤ now ∧ now < 1300) ∨ (1340 ≤ now ∧ now < 1400) ∨ (2100 ≤ now ∧ now < 2140)
      then 8 else 0 := by
  obtain ⟨g, hg, hb⟩ := digital_structured ⟨8, 0⟩ ops1 tree1 inOrder1 outline1 bracketed1
  refine ⟨g, hg, fun now => ?_⟩
  rw [high_during_pulses ⟨8, 0⟩ ops1 tree1 inOrder1 outline1 bracketed1 g hg hb env1
    (by rw [pulses1]; simp [Spec.Sequential]) _ rfl rfl now, pulses1]
  simp [Spec.On]

/-! ### Pulses that are not listed in order -/

/-- `MarkerPulse(duration=100e-9, t0=100e-9)` and then, at the same time, `MarkerPulse(duration=100e-9)`: the list
of a sequencer is in order of the start of the *operations* (helpers.py:907-), so the later pulse comes first. -/
def ops2 : List (DOp Int) := [⟨100, .pulse 100⟩, ⟨0, .pulse 100⟩]

/-- **Finding**: the second pulse is lost: the output goes low at 100 ns, and is low at 150 ns. -/
theorem pulse_lost : ∃ g, ordered (removeRedundant (replace ⟨1, 0⟩ ops2)) = g.flatten ∧ Redundant.Bracketed g ∧
    (appliedAt 50 (exec (fun _ => true) g 0 [] 0) ⟨(0, 0), (0, 0)⟩).1 = 1 ∧
    (appliedAt 150 (exec (fun _ => true) g 0 [] 0) ⟨(0, 0), (0, 0)⟩).1 = 0 := by
  have ho : ordered (replace ⟨1, 0⟩ ops2) = [⟨0, setLevel 1⟩, ⟨0, .upd⟩, ⟨100, setLevel 1⟩, ⟨100, .upd⟩,
      ⟨100, setLevel 0⟩, ⟨100, .upd⟩, ⟨200, setLevel 0⟩, ⟨200, .upd⟩] := by
    unfold ordered
    rw [StableSort.sortBy_eq_insSort]
    simp [ops2, replace, StableSort.insSort, StableSort.insertBy]
  refine ⟨.leaf ⟨0, setLevel 1⟩ (.leaf ⟨0, .upd⟩ (.leaf ⟨100, setLevel 1⟩ (.leaf ⟨100, setLevel 0⟩
    (.leaf ⟨100, .upd⟩ (.leaf ⟨200, setLevel 0⟩ (.leaf ⟨200, .upd⟩ .nil)))))), ?_, ?_, ?_, ?_⟩
  · rw [Redundant.ordered_removeRedundant, ho]
    simp [Forest.flatten, Redundant.keep, Redundant.keepR, Redundant.drops, Redundant.next, Op.updates, Op.isUpd,
      Op.resets, setLevel]
  · simp [Redundant.Bracketed, Op.isControl, setLevel]
  · simp [exec, appliedAt, Params.after, Params.step, setLevel]
  · simp [exec, appliedAt, Params.after, Params.step, setLevel]

/-- Listed in order, it is not. -/
example : Spec.InOrder ([⟨0, .pulse 100⟩, ⟨100, .pulse 100⟩] : List (DOp Int)) := by
  refine ⟨?_, ?_⟩
  · intro o ho d hd
    simp at ho
    rcases ho with rfl | rfl <;> simp at hd <;> omega
  · simp [Spec.outline, Spec.pulse, Spec.stop]

/-- **Finding**: pulses that overlap are accepted, and the end of the first ends the second: low at 150 ns, although
the second pulse is from 50 to 200 ns. -/
theorem overlap_cut : ∃ g, ordered (removeRedundant (replace ⟨1, 0⟩
      ([⟨0, .pulse 100⟩, ⟨50, .pulse 150⟩] : List (DOp Int)))) = g.flatten ∧ Redundant.Bracketed g ∧
    (appliedAt 150 (exec (fun _ => true) g 0 [] 0) ⟨(0, 0), (0, 0)⟩).1 = 0 := by
  have ho : ordered (replace ⟨1, 0⟩ ([⟨0, .pulse 100⟩, ⟨50, .pulse 150⟩] : List (DOp Int))) =
      [⟨0, setLevel 1⟩, ⟨0, .upd⟩, ⟨50, setLevel 1⟩, ⟨50, .upd⟩,
      ⟨100, setLevel 0⟩, ⟨100, .upd⟩, ⟨200, setLevel 0⟩, ⟨200, .upd⟩] := by
    unfold ordered
    rw [StableSort.sortBy_eq_insSort]
    simp [replace, StableSort.insSort, StableSort.insertBy]
  refine ⟨.leaf ⟨0, setLevel 1⟩ (.leaf ⟨0, .upd⟩ (.leaf ⟨50, setLevel 1⟩ (.leaf ⟨50, .upd⟩
    (.leaf ⟨100, setLevel 0⟩ (.leaf ⟨100, .upd⟩ (.leaf ⟨200, setLevel 0⟩ (.leaf ⟨200, .upd⟩ .nil))))))), ?_, ?_, ?_⟩
  · rw [Redundant.ordered_removeRedundant, ho]
    simp [Forest.flatten, Redundant.keep, Redundant.keepR, Redundant.drops, Redundant.next, Op.updates, Op.isUpd,
      Op.resets, setLevel]
  · simp [Redundant.Bracketed, Op.isControl, setLevel]
  · simp [exec, appliedAt, Params.after, Params.step, setLevel]

/-- **Finding**: a pulse that ends when the schedule ends is refused: the update that ends it is never redundant. -/
theorem pulse_at_end_refused : Redundant.validateAlignment 100 (removeRedundant (replace ⟨1, 0⟩
      ([⟨0, .pulse 100⟩] : List (DOp Int)))) = .error .runtimeError := by
  have ho : ordered (replace ⟨1, 0⟩ ([⟨0, .pulse 100⟩] : List (DOp Int))) =
      [⟨0, setLevel 1⟩, ⟨0, .upd⟩, ⟨100, setLevel 0⟩, ⟨100, .upd⟩] := by
    unfold ordered
    rw [StableSort.sortBy_eq_insSort]
    simp [replace, StableSort.insSort, StableSort.insertBy]
  unfold Redundant.validateAlignment
  rw [Redundant.ordered_removeRedundant, ho]
  simp [Redundant.keep, Redundant.keepR, Redundant.drops, Redundant.next, Op.updates, Op.isUpd,
      Op.resets, setLevel, Redundant.alignLoop]

/-! ### Levels -/

example : Spec.bit .qcmRf (dig 0) = some 3 ∧ markerLevels .qcmRf true (dig 0) = .ok ⟨11, 3⟩ ∧
    markerLevels .qcmRf false (dig 0) = .ok ⟨8, 0⟩ := by decide

example : Spec.switch .qrmRf (co 0) = some 1 ∧ markerLevels .qrmRf true (co 0) = .error .runtimeError ∧
    markerLevels .qrmRf false (co 0) = .ok ⟨2, 0⟩ := by decide

example : Spec.bit .qcm (dig 4) = none ∧ Spec.switch .qcm (dig 4) = none := by decide

/-- **Finding**: in marker debug mode the level after every pulse is the default one even if `rf_output_on` is
false, so the first pulse leaves the RF output switched on. -/
theorem debug_switches_on : initLevel .qcmRf false (co 0) = 0 ∧ debugLevel .qcmRf (co 0) = some 1 ∧
    Spec.switch .qcmRf (co 0) = some 0 := by decide

end Verif.Digital
