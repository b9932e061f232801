/-
Concrete cases of the pulse-level experiments.
-/
import Verif.Experiments.Pulse2

namespace Verif.Experiments

/-- A tone for the examples. -/
def exTone : Tone := ⟨1 / 4, 100 / 1000000000, "q0:res", "q0.ro"⟩

/-- Seven digits in the code; here only the integer part, as a stand-in. -/
def exFmt (f : Rat) : String := toString f.floor

example : (heterodyneNcoSched exDev exFmt exTone none [7000000000, 7000001000] (20 / 1000000000)
    (300 / 1000000000) (1000 / 1000000000)).play = .ok
    [(0, .idle (1000 / 1000000000)), (1000 / 1000000000, .setFreq "q0.ro" 7000000000),
     (1000 / 1000000000, .square (1 / 4) (100 / 1000000000) "q0:res" "q0.ro"),
     (1020 / 1000000000, .ssb (300 / 1000000000) "q0:res" "q0.ro" 0 (some 0)),
     (1320 / 1000000000, .idle (1000 / 1000000000)), (2320 / 1000000000, .setFreq "q0.ro" 7000001000),
     (2320 / 1000000000, .square (1 / 4) (100 / 1000000000) "q0:res" "q0.ro"),
     (2340 / 1000000000, .ssb (300 / 1000000000) "q0:res" "q0.ro" 0 (some 1))] := by
  rw [heterodyne_nco_plays exDev exFmt exTone none _ _ _ _ (by decide +kernel) (by decide +kernel)
    (by decide +kernel) (by simp)]
  decide +kernel

/-- A staircase with pulses that outlast acquisition and waiting time: the second pulse starts at
220 ns, before the first one is over at 350 ns. -/
example : (staircaseSched exDev [1 / 4, 1 / 2] (300 / 1000000000) "o" "c" "i" "c" 0 (20 / 1000000000)
    (100 / 1000000000) (50 / 1000000000)).play = .ok
    [(0, .idle (50 / 1000000000)), (50 / 1000000000, .square (1 / 4) (300 / 1000000000) "o" "c"),
     (70 / 1000000000, .ssb (100 / 1000000000) "i" "c" 0 none),
     (170 / 1000000000, .idle (50 / 1000000000)),
     (220 / 1000000000, .square (1 / 2) (300 / 1000000000) "o" "c"),
     (240 / 1000000000, .ssb (100 / 1000000000) "i" "c" 0 none)] := by
  rw [staircase_plays exDev _ _ _ _ _ _ _ _ _ _ (by decide +kernel) (by decide +kernel)
    (by decide +kernel) (by simp)]
  decide +kernel

example : (multiplexingSched exDev [1 / 4, 1 / 2] (300 / 1000000000) "o" "c0" "c1" (20 / 1000000000)
    (100 / 1000000000) (50 / 1000000000)).play = .ok
    [(0, .idle (50 / 1000000000)), (50 / 1000000000, .square (1 / 4) (300 / 1000000000) "o" "c0"),
     (70 / 1000000000, .ssb (100 / 1000000000) "o" "c0" 0 none),
     (50 / 1000000000, .square (1 / 2) (300 / 1000000000) "o" "c1"),
     (70 / 1000000000, .ssb (100 / 1000000000) "o" "c1" 1 none),
     (350 / 1000000000, .square (1 / 2) (300 / 1000000000) "o" "c0"),
     (370 / 1000000000, .ssb (100 / 1000000000) "o" "c0" 0 none),
     (350 / 1000000000, .square (1 / 4) (300 / 1000000000) "o" "c1"),
     (370 / 1000000000, .ssb (100 / 1000000000) "o" "c1" 1 none)] := by
  rw [multiplexing_plays exDev _ _ _ _ _ _ _ _ (by decide +kernel) (by decide +kernel)
    (by decide +kernel)]
  decide +kernel

/-- The chevron experiment: the flux pulse starts after the second pi pulse. -/
example : (chevronSched exDev "q0" "q1" [1 / 4] (40 / 1000000000) none).play = .ok
    [(0, .reset ["q0", "q1"]), (200000 / 1000000000, .rxy 180 0 "q0"),
     (200000 / 1000000000, .rxy 180 0 "q1"),
     (200020 / 1000000000, .square (1 / 4) (40 / 1000000000) "q1:fl" "cl0.baseband"),
     (200060 / 1000000000, .measure ["q0", "q1"] none false)] := by
  rw [chevron_plays exDev "q0" "q1" _ _ _ exDev_nonneg (by decide +kernel) (by decide) (by simp)]
  decide +kernel

/-- If the first qubit has a longer pi pulse than the second one, the flux pulse starts while the
first one is still being driven: the code refers to the operation that was added last. -/
theorem chevron_flux_too_early : ∃ dev : Dev, (∀ a, 0 ≤ dev a) ∧
    dev (.rxy 180 0 "q0") = 40 / 1000000000 ∧
    (chevronSched dev "q0" "q1" [1 / 4] (40 / 1000000000) none).play = .ok
    [(0, .reset ["q0", "q1"]), (0, .rxy 180 0 "q0"), (0, .rxy 180 0 "q1"),
     (20 / 1000000000, .square (1 / 4) (40 / 1000000000) "q1:fl" "cl0.baseband"),
     (60 / 1000000000, .measure ["q0", "q1"] none false)] := by
  have hnn : ∀ a, 0 ≤ (fun a : Act => (if a = .rxy 180 0 "q0" then 40 / 1000000000 else
      if a = .rxy 180 0 "q1" then 20 / 1000000000 else 0 : Rat)) a := by
    intro a; simp only; split
    · norm_num
    · split <;> norm_num
  refine ⟨_, hnn, by simp, ?_⟩
  rw [chevron_plays _ "q0" "q1" _ _ _ hnn (by decide +kernel) (by decide) (by simp)]
  decide +kernel

/-- Dark ESR: frequencies that are printed differently. -/
example : (nvDarkEsrNcoSched exDev exFmt "qe0" "qe0.spec" [2870000000, 2871000000]).play = .ok
    [(0, .chargeReset "qe0"), (0, .crCount "qe0"), (0, .setFreq "qe0.spec" 2870000000),
     (0, .reset ["qe0"]), (200000 / 1000000000, .spectroscopy "qe0"),
     (200000 / 1000000000, .measure ["qe0"] none false), (201000 / 1000000000, .crCount "qe0"),
     (201000 / 1000000000, .setFreq "qe0.spec" 2871000000),
     (201000 / 1000000000, .reset ["qe0"]), (401000 / 1000000000, .spectroscopy "qe0"),
     (401000 / 1000000000, .measure ["qe0"] none false), (402000 / 1000000000, .crCount "qe0")] := by
  rw [nv_dark_esr_nco_plays exDev exFmt _ _ _ exDev_nonneg (by decide +kernel)]
  decide +kernel

end Verif.Experiments
