/-
C75: sessions that meet the hypotheses, and what is lost.
-/
import Verif.Device.Props5
import Verif.Device.Props6
import Verif.Device.Examples

namespace Verif.Device.Examples

open Verif Verif.Device Verif.Device.Spec

set_option linter.unusedSimpArgs false

/-- The device after it is written and read in a new session. -/
def again (cs : List Cmd) : Option St := do
  let doc ← (save (run (fresh "dev") cs)).toOption
  (load [] doc).toOption

/-- A device without amplitude references. -/
def plain : List Cmd :=
  [.newElem .transmon "q0" [(("rxy", "amp180"), .num (1/5)), (("measure", "acq_weights_a"), .arr [1, 1/2])],
   .newElem .spin "q1" [(("ports", "gate"), .str "plunger"), (("measure", "acq_channel"), .str "left")],
   .newElem .transmon "q2" [], .newEdge .square "q0" "q2" [(("cz", "q2_phase_correction"), .num 90)],
   .addElement (.elem .transmon "q0" []), .addElement (.elem .spin "q1" []), .addElement (.elem .transmon "q2" []),
   .addEdge (.edge .square "q0" "q2" []), .setPar "q0" "clock_freqs" "f01" (.num 6000000000), .setReps 7]

/-- The values of all instruments of the device are writable and no reference is defined. -/
def checked (s : St) : Bool :=
  (s.dev.elements ++ s.dev.edges).all fun n => match Dict.get? s.reg n with
    | some i => i.params.all fun e => (match e.2 with | .tuple _ => false | _ => true) &&
        (e.1.1 != "ports" || e.2 != .str "") &&
        (!(["reference_magnitude_dBm", "reference_magnitude_V", "reference_magnitude_A"].contains e.1.2) || e.2 == .nan)
    | none => true

theorem checked_writable {s : St} (h : checked s = true) {n : String} (hn : n ∈ s.dev.elements ∨ n ∈ s.dev.edges) :
    Writable s n ∧ ∀ sub par v, IsReference par → Value s n sub par v → v = .nan := by
  simp only [checked, List.all_eq_true] at h
  have := h n (List.mem_append.mpr hn)
  have key : ∀ sub par v, Value s n sub par v → ((match v with | .tuple _ => false | _ => true) &&
        (sub != "ports" || v != .str "") &&
        (!(["reference_magnitude_dBm", "reference_magnitude_V", "reference_magnitude_A"].contains par) || v == .nan)) = true := by
    rintro sub par v ⟨i, hi, hv⟩
    rw [show Dict.get? s.reg n = some i from hi] at this
    simp only [List.all_eq_true] at this
    exact this _ (Dict.mem_of_get? hv)
  constructor
  · intro sub par v hv
    have := key sub par v hv
    simp only [Bool.and_eq_true] at this
    refine ⟨?_, ?_⟩
    · rintro xs rfl; simp at this
    · rintro rfl; simpa using this.1.2
  · rintro sub par v ⟨u, hu, rfl⟩ hv
    have := key sub _ v hv
    simp only [Bool.and_eq_true] at this
    have h2 := this.2
    simp only [units, List.mem_cons, List.not_mem_nil, or_false] at hu
    rcases hu with rfl | rfl | rfl <;> simpa using h2

example : ((save (run (fresh "dev") plain)).isOk) = true := by decide +kernel

example : ∀ n, n ∈ (run (fresh "dev") plain).dev.elements ∨ n ∈ (run (fresh "dev") plain).dev.edges →
    Writable (run (fresh "dev") plain) n :=
  fun _ hn => (checked_writable (by decide +kernel) hn).1

example : ∀ n ∈ (run (fresh "dev") plain).dev.elements, ∀ sub par v, IsReference par →
    Value (run (fresh "dev") plain) n sub par v → v = .nan :=
  fun _ hn => (checked_writable (by decide +kernel) (.inl hn)).2

example : (run (fresh "dev") plain).dev.strategy = "asap" := by decide +kernel

example : ∀ n ∈ (run (fresh "dev") plain).dev.edges, ∀ k p c ps, Open (run (fresh "dev") plain) n (.edge k p c ps) →
    p ∈ (run (fresh "dev") plain).dev.elements ∧ c ∈ (run (fresh "dev") plain).dev.elements := by
  intro n hn k p c ps ho
  have e : (run (fresh "dev") plain).dev.edges = ["q0_q2"] := by decide +kernel
  rw [e] at hn
  simp only [List.mem_cons, List.not_mem_nil, or_false] at hn
  subst hn
  have : ((Dict.get? (run (fresh "dev") plain).reg "q0_q2").map fun i => match i with
      | .edge _ p c _ => (p, c) | _ => ("", "")) = some ("q0", "q2") := by decide +kernel
  rw [show Dict.get? (run (fresh "dev") plain).reg "q0_q2" = _ from ho] at this
  simp only [Option.map_some, Option.some.injEq, Prod.mk.injEq] at this
  obtain ⟨rfl, rfl⟩ := this
  decide +kernel

example : ((again plain).bind fun s => (generate s).toOption) = config plain ∧ (config plain).isSome = true := by
  decide +kernel

/-- An amplitude reference is not written (device_element.py:36-57 writes the parameters of the submodules, and the references
are in a submodule of a submodule): the device that is read plays pulses without it. -/
theorem reference_lost :
    ((config session).bind fun c => argument c "q0" "Rxy" "reference_magnitude") =
      some (.ref (some (.num (-10), "dBm"))) ∧
    ((again session).bind fun s => (generate s).toOption.bind fun c => argument c "q0" "Rxy" "reference_magnitude") =
      some (.ref none) := by
  decide +kernel

/-- The strategy, the hardware configuration and the choice to keep the original schedule are not written
(quantum_device.py:140-163). -/
theorem settings_lost :
    ((again (session ++ [.setKeep false, .setHardware (some "hw")])).map fun s => (s.dev.strategy, s.dev.keep, s.dev.hardware)) =
      some ("asap", true, none) ∧
    (run (fresh "dev") (session ++ [.setKeep false, .setHardware (some "hw")])).dev.strategy = "alap" := by
  decide +kernel

/-- A tuple as the acquisition channel can be set but not read: it comes back as a list, which is not hashable. -/
theorem tuple_unreadable :
    ((save (run (fresh "dev") (plain ++ [.setPar "q0" "measure" "acq_channel" (.tuple ["a", "b"])]))).isOk) = true ∧
    (again (plain ++ [.setPar "q0" "measure" "acq_channel" (.tuple ["a", "b"])])).isNone = true := by
  decide +kernel

/-- A port with an empty name has its default name after reading. -/
theorem port_renamed :
    ((again (plain ++ [.setPar "q0" "ports" "microwave" (.str "")])).bind fun s => (Dict.get? s.reg "q0").bind fun i =>
      Dict.get? i.params ("ports", "microwave")) = some (.str "q0:mw") := by
  decide +kernel

/-- A new NV centre: given values and defaults. -/
example : ((step (run (fresh "dev") plain) (.newElem .nv "qe0" [(("reset", "amplitude"), .num (1/10))])).toOption.bind fun s =>
    (Dict.get? s.reg "qe0").map fun i => (Dict.get? i.params ("reset", "amplitude"), Dict.get? i.params ("ports", "microwave"),
      Dict.get? i.params ("charge_reset", "duration"))) =
    some (some (.num (1/10)), some (.str "qe0:mw"), some (.num (1/50000))) := by
  decide +kernel

/-- A value outside of its limits is refused. -/
example : ((step (run (fresh "dev") plain) (.setPar "q0" "measure" "pulse_amp" (.num 2))).isOk) = false := by
  decide +kernel

/-- A device cannot be read next to the original. -/
theorem name_in_use : ((save (run (fresh "dev") plain)).toOption.map fun doc =>
    ((load (run (fresh "dev") plain).reg doc).isOk)) = some false := by
  decide +kernel

end Verif.Device.Examples
