/-
C56: concrete cases, and cases where the code does not do what one expects.
-/
import Verif.Settings.OptionsWrites
import Verif.Settings.FreqExamples

set_option linter.unusedSimpArgs false
set_option linter.unusedVariables false

namespace Verif.Settings

open Verif.Connect (PC Chan Mode Dir ModType)
open Verif.Settings.Spec

namespace OptEx

def rin0 : Chan := ⟨.real, .input, 0⟩
def rout (i : Nat) : Chan := ⟨.real, .output, i⟩
def cout (i : Nat) : Chan := ⟨.complex, .output, i⟩
def cin (i : Nat) : Chan := ⟨.complex, .input, i⟩
def r0 : PC := ("q0:res", "q0.ro")
def r1 : PC := ("q1:res", "q1.ro")
def m0 : PC := ("q0:mw", "q0.01")
def m1 : PC := ("q1:mw", "q1.01")

def only {α : Type} (pc : PC) (a : α) : PC → Option α := fun x => if x = pc then some a else none
def both {α : Type} (a b : α) : PC → Option α :=
  fun x => if x = r0 then some a else if x = r1 then some b else none

end OptEx

open OptEx

/-! ### Hypotheses are met -/

/-- A complex gain and a real gain that agree. -/
theorem gains_example : inputGains [(r0, cout 0), (r1, rout 1)] (both (.complex 3 5) (.real 5)) =
    .ok (some 3, some 5) := by decide +kernel

example : Sets (writes .qrm ⟨none, none, (some 3, some 5), ⟨none, none, none⟩, []⟩) "in1_gain" (.int 5) :=
  (gain_written (pcs := [(r0, cout 0), (r1, rout 1)]) (gains := both (.complex 3 5) (.real 5))
    gains_example 1 (by omega)).1 (r1, rout 1) (by simp) 5
    (Or.inr (Or.inr ⟨by decide +kernel, rfl, by omega⟩))

/-- An RF readout module: the input attenuation is given for the output. -/
theorem attenuation_example :
    attenuation [(r0, cout 0)] (only r0 12) (only r0 30) = .ok ⟨some 12, some 30, none⟩ := by decide +kernel

example : ∃ n : Int, (n : Rat) = 30 ∧
    Sets (writes .qcmRf ⟨none, none, (none, none), ⟨some 12, some 30, none⟩, []⟩) "out0_att" (.int n) ∧
    Sets (writes .qrmRf ⟨none, none, (none, none), ⟨some 12, some 30, none⟩, []⟩) "out0_att" (.int n) :=
  (attenuation_written (pcs := [(r0, cout 0)]) (inAtt := only r0 12) (outAtt := only r0 30)
    attenuation_example).1 30 ⟨⟨(r0, cout 0), by simp, rfl⟩, fun e he hc => by
      simp at he; subst he; decide +kernel⟩

/-- Offsets in volts, set in millivolts; 51 mV are too much. -/
theorem offsets_example :
    mixerOffsets .qcmRf [(m0, cout 0), (m1, cout 1)] (only m1 (1/100, -3/100)) =
      .ok (none, some (10, -30)) := by decide +kernel

theorem offsets_refused :
    mixerOffsets .qcmRf [(m1, cout 1)] (only m1 (1/100, 51/1000)) = .error .valueError := by
  decide +kernel

example : ∃ a' b', Sets (writes .qcmRf ⟨none, some (10, -30), (none, none), ⟨none, none, none⟩, []⟩)
      "out1_offset_path0" (.num a') ∧
    Sets (writes .qcmRf ⟨none, some (10, -30), (none, none), ⟨none, none, none⟩, []⟩)
      "out1_offset_path1" (.num b') ∧ volts .qcmRf a' = 1/100 ∧ volts .qcmRf b' = -3/100 ∧
    |(1/100 : Rat)| ≤ maxOffset .qcmRf ∧ |(-3/100 : Rat)| ≤ maxOffset .qcmRf :=
  (offsets_written (k := 1) offsets_example rfl).1 _ _
    ⟨⟨(m1, cout 1), by simp, rfl, by decide +kernel⟩, fun e he hc w hw => by
      simp only [List.mem_cons, List.not_mem_nil, or_false] at he
      rcases he with rfl | rfl
      · exact absurd hc (by decide)
      · rw [show only m1 ((1/100 : Rat), (-3/100 : Rat)) m1 = some (1/100, -3/100) from if_pos rfl] at hw
        exact (Option.some.inj hw).symm⟩

/-- Coefficients of a single filter. -/
def OptEx.exp0 (v : List Rat) : Coeffs := fun s => if s = .exp0 then some v else none

/-- A real output with an exponential filter; another output delays like the first exponential filter. -/
theorem filters_example :
    (filters .qcm [(m0, rout 0), (m1, rout 1)] [(rout 1, ⟨2, false⟩)]
      [(m0, .hardware (exp0 [10, 1/2]))] (fun _ => false)).map
      (fun f => [f 0 .exp0, f 0 .fir, f 1 .exp0, f 1 .exp1]) =
    .ok [⟨some [10, 1/2], .enabled, false⟩, .init, ⟨none, .delayComp, false⟩, .init] := by
  decide +kernel

/-! ### Findings -/

/-- A real gain goes to the input that has the number of the channel of the port-clock, which may be an
output: a measurement whose pulse goes out at output 1 and comes in at input 0 has its gain set on
input 1. -/
theorem gain_on_wrong_input :
    inputGains [(r0, rout 1)] (only r0 (.real 7)) = .ok (none, some 7) := by decide +kernel

/-- A second clock on an output without an attenuation of its own clears the attenuation of the first;
in the other order it is kept. -/
theorem attenuation_cleared :
    attenuation [(r0, cout 0), (m0, cout 0)] (fun _ => none) (only r0 30) = .ok ⟨none, none, none⟩ ∧
    attenuation [(m0, cout 0), (r0, cout 0)] (fun _ => none) (only r0 30) = .ok ⟨none, some 30, none⟩ := by
  decide +kernel

/-- Two clocks on an output with the same attenuation of different values: the last one wins without an
error. -/
theorem attenuation_conflict :
    attenuation [(r0, cout 0), (r1, cout 0)] (fun _ => none) (both 30 40) = .ok ⟨none, some 40, none⟩ := by
  decide +kernel

/-- Two clocks on the output of a readout module that ask for the same attenuation of the input are
refused. -/
theorem input_attenuation_refused :
    attenuation [(r0, cout 0), (r1, cout 0)] (both 12 12) (fun _ => none) = .error .valueError := by
  decide +kernel

/-- The outputs 2 to 5 and the second input of a QRC have no attenuation. -/
theorem qrc_attenuation_ignored :
    attenuation [(r0, cout 2), (r1, cin 1)] (both 12 12) (both 30 30) = .ok ⟨none, none, none⟩ := by
  decide +kernel

/-- The attenuation that is written to a QRC is `True`, whatever was asked for. -/
theorem qrc_attenuation_true (s : ModSettings) (n : Int) (h : s.att.out0 = some n) :
    Sets (writes .qrc s) "out0_att" (.bool true) := by
  intro w; simp [writes, mem_wr, h, eq_comm]

/-- Two corrections of an output that differ: the last one wins without an error. -/
theorem offsets_conflict :
    mixerOffsets .qcm [(r0, cout 0), (r1, cout 0)] (both (1/10, 1/10) (1/5, 1/5)) =
      .ok (some (1/5, 1/5), none) := by decide +kernel

/-- Mixer offsets of outputs 2 to 5 of a QRC are ignored, and those of the others are not written. -/
theorem qrc_offsets_ignored :
    mixerOffsets .qrc [(r0, cout 2)] (both (1/100, 1/100) (0, 0)) = .ok (none, none) ∧
    ∀ (s : ModSettings) (w : Val), ("out0_offset_path0", w) ∉ writes .qrc s := by
  refine ⟨by decide +kernel, fun s w => ?_⟩
  simp [writes, mem_wr]

/-- The coefficients of the FIR filter may be outside of the range of the hardware. -/
theorem fir_range_unchecked : coeffsOk .fir (List.replicate 32 1000) = true := by decide +kernel

/-- A single correction on a complex output goes to the output with the number of the channel: the
correction of `complex_output_1`, which drives outputs 2 and 3, is applied to output 1. -/
theorem single_on_complex :
    (filters .qcm [(m0, cout 1)] [] [(m0, .hardware (exp0 [10, 1/2]))] (fun _ => false)).map
      (fun f => [f 1 .exp0, f 2 .exp0, f 3 .exp0]) =
    .ok [⟨some [10, 1/2], .enabled, false⟩, .init, .init] := by decide +kernel

/-- Corrections of both complex outputs of a QCM are refused in one order and accepted in the other. -/
theorem pairs_refused :
    (filters .qcm [(m0, cout 0), (m1, cout 1)] []
      [(m0, .pair (exp0 [10, 1/2]) (exp0 [10, 1/2])), (m1, .pair (exp0 [20, 1/2]) (exp0 [20, 1/2]))]
      (fun _ => false)).map (fun f => f 0 .exp0) = .error .valueError ∧
    (filters .qcm [(m0, cout 0), (m1, cout 1)] []
      [(m1, .pair (exp0 [20, 1/2]) (exp0 [20, 1/2])), (m0, .pair (exp0 [10, 1/2]) (exp0 [10, 1/2]))]
      (fun _ => false)).map (fun f => [f 0 .exp0, f 2 .exp0]) =
      .ok [⟨some [10, 1/2], .enabled, false⟩, ⟨some [20, 1/2], .enabled, false⟩] := by
  constructor <;> decide +kernel

/-- Two corrections for the second complex output: the last one wins without an error. -/
theorem pairs_overwritten :
    (filters .qcm [(m0, cout 1), (m1, cout 1)] []
      [(m0, .pair (exp0 [10, 1/2]) (exp0 [10, 1/2])), (m1, .pair (exp0 [20, 1/2]) (exp0 [20, 1/2]))]
      (fun _ => false)).map (fun f => f 2 .exp0) = .ok ⟨some [20, 1/2], .enabled, false⟩ := by
  decide +kernel

/-- A description of the third output of a QRC fails if the output is used. -/
theorem qrc_description_fails :
    (filters .qrc [(m0, cout 2)] [(cout 2, ⟨0, false⟩)] [] (fun _ => false)).map (fun f => f 0 .exp0) =
      .error .indexError := by decide +kernel

/-- The latency that a description of an RF module asks for is never written. -/
theorem rf_latency_not_written (f : Filters) :
    filterWrites .qcmRf f = [] ∧ filterWrites .qrmRf f = [] := ⟨rfl, rfl⟩

/-- The descriptions of a complex and a real channel of the same output: the last one wins. -/
theorem descriptions_conflict :
    (filters .qcm [(m0, cout 0), (m1, rout 0)] [(cout 0, ⟨2, false⟩), (rout 0, ⟨0, false⟩)] []
      (fun _ => false)).map (fun f => (f 0 .exp0).config) = .ok .bypassed ∧
    (filters .qcm [(m0, cout 0), (m1, rout 0)] [(rout 0, ⟨0, false⟩), (cout 0, ⟨2, false⟩)] []
      (fun _ => false)).map (fun f => (f 0 .exp0).config) = .ok .delayComp := by
  constructor <;> decide +kernel

end Verif.Settings
