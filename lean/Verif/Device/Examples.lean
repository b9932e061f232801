/-
C74: sessions that meet the hypotheses, and what the code does not do.
-/
import Verif.Device.Props3

namespace Verif.Device.Examples

open Verif Verif.Device Verif.Device.Spec

set_option linter.unusedSimpArgs false

/-- Two transmons with an edge; a value is refused, another is set, one reference replaces another. -/
def before : List Cmd :=
  [.newElem .transmon "q0" [(("rxy", "amp180"), .num (1/5)), (("clock_freqs", "f01"), .num 5000000000)],
   .newElem .transmon "q1" [],
   .newElem .transmon "q0" [],
   .newEdge .square "q0" "q1" [(("cz", "square_amp"), .num (3/10))],
   .addElement (.elem .transmon "q0" []), .addElement (.elem .transmon "q1" []),
   .addEdge (.edge .square "q0" "q1" []),
   .setPar "q0" "measure" "pulse_amp" (.num 2),
   .setPar "q0" "rxy" "reference_magnitude_V" (.num 1)]

/-- After the amplitude is set. -/
def later : List Cmd :=
  [.setPar "q1" "measure" "pulse_amp" (.num (1/3)), .setPar "q0" "rxy" "reference_magnitude_dBm" (.num (-10)),
   .setStrategy "alap", .newElem .transmon "q2" [], .close "q2"]

def session : List Cmd := before ++ .setPar "q0" "measure" "pulse_amp" (.num (1/2)) :: later

/-- The configuration of a session. -/
def config (cs : List Cmd) : Option Config := (generate (run (fresh "dev") cs)).toOption

example : ((step (run (fresh "dev") before) (.setPar "q0" "measure" "pulse_amp" (.num (1/2)))).isOk) = true := by
  decide +kernel

example : ∀ c ∈ later, ¬ Touches "q0" "measure" "pulse_amp" c := by
  simp [later, Touches, units]

example : "q0" ∈ (run (fresh "dev") session).dev.elements ∧ "q0_q1" ∈ (run (fresh "dev") session).dev.edges := by
  decide +kernel

example : ((config session).bind fun c => argument c "q0" "measure" "pulse_amp") = some (.val (.num (1/2))) := by
  decide +kernel

example : ((config session).bind fun c => argument c "q0" "Rxy" "amp180") = some (.val (.num (1/5))) := by
  decide +kernel

example : ((config session).bind fun c => argument c "q0" "Rxy" "reference_magnitude") =
    some (.ref (some (.num (-10), "dBm"))) := by decide +kernel

example : ((config session).bind fun c => edgeArgument c "q0_q1" "CZ" "square_amp") = some (.val (.num (3/10))) := by
  decide +kernel

example : ((config session).bind fun c => Dict.get? c.clocks "q0.01") = some (.num 5000000000) := by decide +kernel

example : ((config session).map fun c => c.strategy) = some "alap" := by decide +kernel

/-- An NV centre. -/
def nv : List Cmd :=
  [.newElem .nv "qe0" [(("clock_freqs", "spec"), .num 2000000000), (("clock_freqs", "f01"), .num 1)],
   .addElement (.elem .nv "qe0" [])]

/-- The pulse compensation of an NV centre is on a clock that has no frequency (nv_element.py:673, 748-754). -/
theorem nv_compensation :
    ((config nv).bind fun c => argument c "qe0" "pulse_compensation" "clock") = some (.val (.str "qe0.f_larmor")) ∧
    ((config nv).bind fun c => Dict.get? c.clocks "qe0.f_larmor") = none ∧ (config nv).isSome = true := by
  decide +kernel

/-- An element that is removed from the device leaves its edges, on a clock without a frequency
(quantum_device.py:467-481). -/
theorem dangling_edge :
    ((config (session ++ [.removeElement "q1"])).bind fun c =>
      edgeArgument c "q0_q1" "CZ" "virt_z_child_qubit_clock") = some (.val (.str "q1.01")) ∧
    ((config (session ++ [.removeElement "q1"])).bind fun c => Dict.get? c.clocks "q1.01") = none ∧
    (config (session ++ [.removeElement "q1"])).isSome = true := by
  decide +kernel

/-- The device knows its elements by name: another element with the name of a closed one takes its place. -/
theorem replaced :
    ((config (session ++ [.close "q0", .newElem .transmon "q0" [(("rxy", "amp180"), .num (7/10))]])).bind fun c =>
      argument c "q0" "Rxy" "amp180") = some (.val (.num (7/10))) := by
  decide +kernel

/-- A closed element. -/
theorem closed : config (session ++ [.close "q0"]) = none := by decide +kernel

/-- The type of the acquisition weights has no effect on the configuration (transmon_element.py:376-381, 653): a
measurement with numerical weights must be asked for by its protocol. -/
theorem weight_type_ignored :
    config (session ++ [.setPar "q0" "measure" "acq_weight_type" (.str "Numerical")]) = config session ∧
    (config session).isSome = true := by
  decide +kernel

end Verif.Device.Examples
