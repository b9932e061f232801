/-
Concrete cases of C43 and C44, and findings.
-/
import Verif.Circuit.ClockProps

set_option linter.unusedSimpArgs false
set_option linter.unusedVariables false

namespace Verif.Circuit

open Verif

/-- Operations whose pulse entries are a clock with an amplitude. -/
abbrev XOp := Op (String × Rat) Nat Nat

/-- The number in an argument, 0 if missing. -/
def argNum (args : String → Option V) (k : String) : Rat :=
  match args k with
  | some (.num x) => x
  | _ => 0

/-- A factory like `rxy_drag_pulse`: here with an entry for the amplitude of a rotation by 180°, and one for the angle. -/
def drive (clock : String) : (String → Option V) → Except Err XOp :=
  fun a => .ok (.leaf none [(clock, argNum a "amp180"), (clock, argNum a "theta")] [])

/-- A factory like `dispersive_measurement_transmon`: a pulse and an acquisition with their own schedule. -/
def readout (clock : String) : (String → Option V) → Except Err XOp :=
  fun a => .ok (.sched { delay := if argNum a "next_operation_delay" = 0 then none else some (argNum a "next_operation_delay") }
    [(.leaf none [(clock, argNum a "pulse_amp")] [], .next), (.leaf none [] [(clock, argNum a "acq_delay")], .withStart 0)])

/-- Two qubits and an edge. -/
def xcfg : Cfg (String × Rat) Nat Nat where
  elements := [
    ("q0", [("Rxy", ⟨some (drive "q0.01"), [("amp180", .num (1/2))], some ["theta"]⟩),
            ("measure", ⟨some (readout "q0.ro"), [("pulse_amp", .num (1/4)), ("acq_delay", .num 2)], some []⟩)]),
    ("q1", [("measure", ⟨some (readout "q1.ro"), [("pulse_amp", .num (1/3)), ("acq_delay", .num 3)], some []⟩)])]
  edges := [(("q0", "q1"), [("CZ", ⟨some (fun _ => .ok (.leaf none [("cl0.baseband", 1)] [])), [], none⟩)])]
  clocks := [("q0.01", some 5), ("q0.ro", some 7), ("q1.ro", some 8)]

def noPort : PortOf := fun _ => .error .keyError

/-- X90 on q0, CZ on q1 and q0 (symmetric) in a loop, a measurement of both without acquisition delay, with an
overridden amplitude. -/
def xsched : XOp :=
  .sched { overrides := [("amp180", .num 1)], resources := [("cl0.baseband", some (some 0))] } [
    (.leaf (some { elements := ["q0"], type := "Rxy", info := [("theta", .num 90)] }) [] [], .user 0),
    (.ctrl 7 (.leaf (some { elements := ["q1", "q0"], type := "CZ", symmetric := true }) [] []), .user 1),
    (.leaf (some { elements := ["q0", "q1"], type := "measure", measure := true, applyDelay := false }) [] [], .user 2)]

/-- It compiles: X90 has the overridden amplitude and its angle, CZ is found in the other direction, both measurements start
together, and the next operation starts earlier by the larger of the delays. -/
theorem xsched_compiles : compile xcfg noPort 5 [] xsched = .ok (.sched { overrides := [("amp180", .num 1)], resources := [("cl0.baseband", some (some 0))] } [
    (.leaf (some { elements := ["q0"], type := "Rxy", info := [("theta", .num 90)] }) [("q0.01", 1), ("q0.01", 90)] [], .user 0),
    (.ctrl 7 (.leaf (some { elements := ["q1", "q0"], type := "CZ", symmetric := true }) [("cl0.baseband", 1)] []), .user 1),
    (.sched { delay := some (-3) } [
      (.sched {} [(.leaf none [("q0.ro", 1/4)] [], .next), (.leaf none [] [("q0.ro", 2)], .withStart 0)], .next),
      (.sched {} [(.leaf none [("q1.ro", 1/3)] [], .next), (.leaf none [] [("q1.ro", 3)], .withStart 0)], .withStart 0)],
      .user 2)]) := by rfl

/-- Then every schedule gets the clocks it uses. -/
theorem xsched_clocks : (do
    let dev ← compile xcfg noPort 5 [] xsched
    setPulseAndAcquisitionClock Prod.fst xcfg dev) = .ok (.sched { overrides := [("amp180", .num 1)], resources := [("cl0.baseband", some (some 0)), ("q0.01", some (some 5))] } [
    (.leaf (some { elements := ["q0"], type := "Rxy", info := [("theta", .num 90)] }) [("q0.01", 1), ("q0.01", 90)] [], .user 0),
    (.ctrl 7 (.leaf (some { elements := ["q1", "q0"], type := "CZ", symmetric := true }) [("cl0.baseband", 1)] []), .user 1),
    (.sched { delay := some (-3) } [
      (.sched { resources := [("q0.ro", some (some 7))] }
        [(.leaf none [("q0.ro", 1/4)] [], .next), (.leaf none [] [("q0.ro", 2)], .withStart 0)], .next),
      (.sched { resources := [("q1.ro", some (some 8))] }
        [(.leaf none [("q1.ro", 1/3)] [], .next), (.leaf none [] [("q1.ro", 3)], .withStart 0)], .withStart 0)],
      .user 2)]) := by rfl

theorem get?_some_mem {K W : Type} [DecidableEq K] (d : List (K × W)) (k : K) (w : W) (h : Dict.get? d k = some w) :
    (k, w) ∈ d := by
  induction d with
  | nil => cases h
  | cons e d ih =>
    rw [Dict.get?_cons] at h
    by_cases he : e.1 = k
    · rw [if_pos he] at h; cases h; subst he; simp
    · rw [if_neg he] at h; exact List.mem_cons_of_mem _ (ih h)

/-- The factories of the example. -/
theorem xcfg_ops (o : OpCfg (String × Rat) Nat Nat)
    (h : (∃ el ty, OnElement xcfg el ty o) ∨ ∃ g a b, OnEdge xcfg g a b o) :
    (∃ c, o.factory = some (drive c)) ∨ (∃ c, o.factory = some (readout c)) ∨
    o.factory = some (fun _ => .ok (.leaf none [("cl0.baseband", 1)] [])) := by
  have hedge : ∀ e ops ty, Dict.get? xcfg.edges e = some ops → Dict.get? ops ty = some o →
      o.factory = some (fun _ => .ok (.leaf none [("cl0.baseband", 1)] [])) := by
    intro e ops ty h1 h2
    have h1 := get?_some_mem _ _ _ h1
    have h2 := get?_some_mem _ _ _ h2
    simp only [xcfg, List.mem_singleton, Prod.mk.injEq] at h1
    obtain ⟨rfl, rfl⟩ := h1
    simp only [List.mem_singleton, Prod.mk.injEq] at h2
    rw [h2.2]
  rcases h with ⟨el, ty, ops, h1, h2⟩ | ⟨g, a, b, ⟨ops, h1, h2⟩ | ⟨-, -, ops, h1, h2⟩⟩
  · have h1 := get?_some_mem _ _ _ h1
    have h2 := get?_some_mem _ _ _ h2
    simp only [xcfg, List.mem_cons, Prod.mk.injEq, List.not_mem_nil, or_false] at h1
    rcases h1 with ⟨rfl, rfl⟩ | ⟨rfl, rfl⟩
    · simp only [List.mem_cons, Prod.mk.injEq, List.not_mem_nil, or_false] at h2
      rcases h2 with ⟨rfl, rfl⟩ | ⟨rfl, rfl⟩
      · exact Or.inl ⟨_, rfl⟩
      · exact Or.inr (Or.inl ⟨_, rfl⟩)
    · simp only [List.mem_cons, Prod.mk.injEq, List.not_mem_nil, or_false] at h2
      obtain ⟨rfl, rfl⟩ := h2
      exact Or.inr (Or.inl ⟨_, rfl⟩)
  · exact Or.inr (Or.inr (hedge _ _ _ h1 h2))
  · exact Or.inr (Or.inr (hedge _ _ _ h1 h2))

/-- The hypotheses of `compiled_device_level` and `clocks_after_compile` hold. -/
theorem xcfg_productive : Productive xcfg ∧ TargetedCfg xcfg ∧ Targeted xsched := by
  refine ⟨?_, ?_, ?_⟩
  · intro o ho f args d hf hd
    rcases xcfg_ops o ho with ⟨c, h⟩ | ⟨c, h⟩ | h <;> rw [h] at hf <;> cases hf <;> cases hd
    · exact Or.inr ⟨_, _, _, rfl, by simp⟩
    · exact Or.inl trivial
    · exact Or.inr ⟨_, _, _, rfl, by simp⟩
  · intro o ho f args d hf hd
    rcases xcfg_ops o ho with ⟨c, h⟩ | ⟨c, h⟩ | h <;> rw [h] at hf <;> cases hf <;> cases hd
    · exact .leaf (by simp)
    · refine .sched ?_
      intro i hi
      simp only [List.mem_cons, List.not_mem_nil, or_false] at hi
      rcases hi with rfl | rfl <;> exact .leaf (by simp)
    · exact .leaf (by simp)
  · refine .sched ?_
    intro i hi
    simp only [List.mem_cons, List.not_mem_nil, or_false] at hi
    rcases hi with rfl | rfl | rfl
    · exact .leaf (by rintro _ _ _ ⟨⟩; simp)
    · exact .ctrl (.leaf (by rintro _ _ _ ⟨⟩; simp))
    · exact .leaf (by rintro _ _ _ ⟨⟩; simp)

/-- So the example ends at device level. -/
theorem xsched_device_level : ∃ out, compile xcfg noPort 5 [] xsched = .ok out ∧ DeviceLevel out :=
  ⟨_, xsched_compiles, compiled_device_level xcfg noPort xcfg_productive.1 xcfg_productive.2.1 5 xsched _
    xcfg_productive.2.2 xsched_compiles⟩

/-- The edge's other direction is not used for a gate that is not symmetric. -/
theorem asymmetric_gate_error : compile xcfg noPort 5 []
    (.leaf (some { elements := ["q0", "q1"], type := "CNOT" }) [] [] : XOp) = .error .configKeyError ∧
    compile xcfg noPort 5 [] (.leaf (some { elements := ["q9"], type := "Rxy" }) [] [] : XOp) = .error .configKeyError := by
  constructor <;> rfl

/-- An override of the gate is used only if the enclosing schedule has none. -/
theorem override_example :
    compile xcfg noPort 5 [] (.sched {} [(.leaf (some { elements := ["q0"], type := "Rxy", info := [("theta", .num 180)], overrides := [("amp180", .num 2), ("unknown", .num 3)] }) [] [], .user 0)] : XOp) =
      .ok (.sched {} [(.leaf (some { elements := ["q0"], type := "Rxy", info := [("theta", .num 180)], overrides := [("amp180", .num 2), ("unknown", .num 3)] }) [("q0.01", 2), ("q0.01", 180)] [], .user 0)]) := by rfl

/-- C43 (finding): the measurement of q0 without acquisition delay, with `acq_delay` overridden to 5: the acquisition
starts at 5, but the next operation is moved by −2, not −5. -/
theorem overridden_delay_wrong :
    compile xcfg noPort 5 [] (.leaf (some { elements := ["q0"], type := "measure", measure := true, applyDelay := false, overrides := [("acq_delay", .num 5)] }) [] [] : XOp) =
    .ok (.sched { delay := some (-2) }
      [(.leaf none [("q0.ro", 1/4)] [], .next), (.leaf none [] [("q0.ro", 5)], .withStart 0)]) := by rfl

/-- C44 (finding): a frequency defined in a schedule inside a pulse compensation is not seen: the same clock has two
frequencies, and this is accepted. -/
theorem compensation_hides_frequency :
    setPulseAndAcquisitionClock Prod.fst xcfg (.sched { resources := [("q0.ro", some (some 6))] } [
      (.leaf none [("q0.ro", 1)] [], .user 0),
      (.comp (.device [] none none) (.sched { resources := [("q0.ro", some (some 9))] }
        [(.leaf none [("q0.ro", 1)] [], .user 0)]), .user 1)] : XOp) =
    .ok (.sched { resources := [("q0.ro", some (some 6))] } [
      (.leaf none [("q0.ro", 1)] [], .user 0),
      (.comp (.device [] none none) (.sched { resources := [("q0.ro", some (some 9))] }
        [(.leaf none [("q0.ro", 1)] [], .user 0)]), .user 1)]) := by rfl

/-- Without the compensation it is an error. -/
theorem inconsistent_frequency_error :
    setPulseAndAcquisitionClock Prod.fst xcfg (.sched { resources := [("q0.ro", some (some 6))] } [
      (.leaf none [("q0.ro", 1)] [], .user 0),
      (.sched { resources := [("q0.ro", some (some 9))] } [(.leaf none [("q0.ro", 1)] [], .user 0)], .user 1)] : XOp) =
    .error .valueError := by rfl

/-- C44 (finding): a clock defined only in a schedule inside a pulse compensation is unknown outside, even for the same
compensation: another schedule in it that uses the clock is an error. -/
theorem compensation_clock_unknown :
    setPulseAndAcquisitionClock Prod.fst xcfg (.sched {} [(.comp (.device [] none none)
      (.sched { resources := [("mine", some (some 9))] } [
        (.sched {} [(.leaf none [("mine", 1)] [], .user 0)], .user 0)]), .user 1)] : XOp) = .error .valueError ∧
    (setPulseAndAcquisitionClock Prod.fst xcfg (.sched {} [(.ctrl 0
      (.sched { resources := [("mine", some (some 9))] } [
        (.sched {} [(.leaf none [("mine", 1)] [], .user 0)], .user 0)]), .user 1)] : XOp)).isOk = true := by
  constructor <;> rfl

/-- C43 (finding): a pulse compensation on elements without settings becomes one without grid and without ports. -/
theorem compensation_without_settings (body : XOp) (n : Nat) (b : XOp) (ov : Kw)
    (h : compile xcfg noPort n ov body = .ok b) :
    compile xcfg noPort (n + 1) ov (.comp (.gate ["q0", "q1"]) body) = .ok (.comp (.device [] none none) b) := by
  have hm : merge (ownOverrides (.comp (.gate ["q0", "q1"]) body : XOp)) ov = merge [] ov := rfl
  simp only [compile]
  refine bind_ok.mpr ⟨.device [] none none, rfl, bind_ok.mpr ⟨b, ?_, rfl⟩⟩
  rw [← h]
  apply compile_congr
  rw [ov_merge, own_comp, over_none]

end Verif.Circuit
