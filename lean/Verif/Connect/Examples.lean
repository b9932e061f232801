/-
Concrete cases: the hypotheses of the theorems of C52 to C54 hold, and what goes wrong outside of
them.
-/
import Verif.Connect.Pipeline
import Verif.Connect.Mixer

set_option linter.unusedSimpArgs false
set_option linter.unusedVariables false

namespace Verif.Connect

open Verif.Connect.Spec Verif.StableSort

variable {α : Type}

/-! ### Evaluation with insertion sort -/

/-- `sequencerToPortclock` with insertion sort, to evaluate examples. -/
def sequencerToPortclockE (al : List (Nat × Allowed)) (pcs : List (PC × Path)) :
    Except Err (List (Nat × PC)) :=
  let s := insSort (fun e => pcKey e.1) pcs
  reserve al (s.filter (fun e => e.2.measure.isSome) ++ s.filter (fun e => !e.2.measure.isSome)) []

theorem sequencerToPortclock_evalE : sequencerToPortclock = sequencerToPortclockE := by
  funext al pcs
  unfold sequencerToPortclock sequencerToPortclockE
  rw [sortBy_eq_insSort]

/-- `prepareModule`, to evaluate examples. -/
def prepareModuleE (k : Kind α) (log : Log α) (m : Module) : Except Err (List (Nat × Seq α)) :=
  if distributeOk k log m then
    match sequencerToPortclockE (allowed m.type) m.pcs with
    | .error e => .error e
    | .ok res => .ok (construct k log m res)
  else .error .runtimeError

/-- `prepareAll`, to evaluate examples. -/
def prepareAllE (k : Kind α) (log : Log α) :
    List Module → Except Err (List (Module × List (Nat × Seq α)))
  | [] => .ok []
  | m :: rest =>
    match prepareModuleE k log m with
    | .error e => .error e
    | .ok s =>
      match prepareAllE k log rest with
      | .error e => .error e
      | .ok ss => .ok ((m, s) :: ss)

theorem prepareAll_evalE (k : Kind α) (log : Log α) : ∀ ms, prepareAll k log ms = prepareAllE k log ms
  | [] => rfl
  | m :: ms => by
    have : prepareModule k log m = prepareModuleE k log m := by
      unfold prepareModule prepareModuleE; rw [sequencerToPortclock_evalE]; rfl
    rw [prepareAll, prepareAllE, this, prepareAll_evalE k log ms]; rfl

/-- `compile`, to evaluate examples. -/
def compileE (k : Kind α) (v01 : Bool) (env : Env) (cs : List Cluster) (used : List PC)
    (log : Log α) : Except Err (List (Module × List (Nat × Seq α))) :=
  match extract v01 env cs used with
  | .error e => .error e
  | .ok ms => prepareAllE k log ms

theorem compile_evalE (k : Kind α) (v01 : Bool) (env : Env) (cs : List Cluster) (used : List PC)
    (log : Log α) : compile k v01 env cs used log = compileE k v01 env cs used log := by
  unfold compile compileE
  split
  · rename_i h; rw [h]
  · rename_i h; rw [h]; exact prepareAll_evalE ..

/-! ### A setup with a QCM, a QRM and a mixer -/

/-- Operations are numbers; 100 and more are acquisitions, 0 is a latch reset. -/
def exKind : Kind Nat := ⟨fun n => decide (100 ≤ n), fun n => n == 0⟩

/-- Cluster `c0`: QCM, QRM, QRC and QTM. -/
def exClusters : List Cluster := [⟨"c0", [(1, .qcm), (2, .qrm), (3, .qrc), (4, .qtm)]⟩]

/-- No optical modulators, local oscillator `lo0`. -/
def exEnv (g : Edges) : Env := ⟨["c0"], ["lo0", "lo1"], g, fun _ _ => false, fun _ _ => false⟩

/-- Two ports on the QCM, one of them behind a mixer, and a readout port on the QRM. -/
def exGraph : Edges :=
  [(.chan "c0" 1 (co 0), .plain "q0:mw"), (.chan "c0" 2 (co 0), .plain "q0:res"),
   (.chan "c0" 2 (ci 0), .plain "q0:res"), (.chan "c0" 1 (co 1), .sub "mix" "if"),
   (.sub "mix" "rf", .plain "q1:mw"), (.sub "lo0" "output", .sub "mix" "lo"),
   (.plain "q0:mw", .plain "q0")]

/-- The port-clocks used. -/
def exUsed : List PC :=
  [("q0:mw", "q0.01"), ("q0:res", "q0.ro"), ("q0:res", "q0.ro2"), ("q1:mw", "q1.01"),
   ("q0:mw", "q0.12")]

/-- Operations of the port-clocks. -/
def exLog : Log Nat :=
  [("c0", ("q0:mw", "q0.01"), 1), ("c0", ("q0:res", "q0.ro"), 2), ("c0", ("q0:mw", "q0.01"), 3),
   ("c0", ("q1:mw", "q1.01"), 0), ("c0", ("q0:res", "q0.ro"), 100), ("c0", ("q0:mw", "q0.12"), 4)]

theorem example_compiles : compile exKind false (exEnv exGraph) exClusters exUsed exLog = .ok
    [(⟨"c0", 1, .qcm, [(("q0:mw", "q0.01"), ⟨"c0", 1, co 0, none⟩),
        (("q0:mw", "q0.12"), ⟨"c0", 1, co 0, none⟩), (("q1:mw", "q1.01"), ⟨"c0", 1, co 1, none⟩)]⟩,
      [(0, ⟨("q0:mw", "q0.01"), ⟨"c0", 1, co 0, none⟩, [1, 3]⟩),
       (1, ⟨("q0:mw", "q0.12"), ⟨"c0", 1, co 0, none⟩, [4]⟩)]),
     (⟨"c0", 2, .qrm, [(("q0:res", "q0.ro"), ⟨"c0", 2, co 0, some [ci 0]⟩),
        (("q0:res", "q0.ro2"), ⟨"c0", 2, co 0, some [ci 0]⟩)]⟩,
      [(0, ⟨("q0:res", "q0.ro"), ⟨"c0", 2, co 0, some [ci 0]⟩, [2, 100]⟩)])] := by
  rw [compile_evalE]
  decide +kernel

theorem exGraph_linked (p : String) (n : Node) : Linked exGraph p n ↔
    (p = "q0:mw" ∧ (n = .chan "c0" 1 (co 0) ∨ n = .plain "q0")) ∨ (p = "q0" ∧ n = .plain "q0:mw") ∨
    (p = "q0:res" ∧ (n = .chan "c0" 2 (co 0) ∨ n = .chan "c0" 2 (ci 0))) ∨
    (p = "q1:mw" ∧ n = .sub "mix" "rf") := by
  simp only [Linked, exGraph, List.mem_cons, Prod.mk.injEq, List.not_mem_nil, or_false,
    Node.plain.injEq, reduceCtorEq, and_false, false_and, false_or]
  tauto

/-- The hypotheses of `wiring_sound` for the readout port. -/
example : (exClusters.map Cluster.name).Nodup ∧ (∀ c ∈ exClusters, (c.modules.map Prod.fst).Nodup) ∧
    exUsed.Nodup ∧ ("q0:res", "q0.ro") ∈ exUsed ∧
    Direct exGraph (exClusters.map Cluster.name) "q0:res" ∧ Wired exGraph "q0:res" "c0" 2 (ci 0) := by
  refine ⟨by decide, by decide, by decide, by decide, ?_, ?_⟩
  · intro n hn
    rw [exGraph_linked] at hn
    simp at hn
    rcases hn with rfl | rfl
    · exact Or.inl ⟨_, _, _, rfl, by decide⟩
    · exact Or.inl ⟨_, _, _, rfl, by decide⟩
  · unfold Wired
    rw [exGraph_linked]; simp

/-- The hypotheses of `mixer_sound`. -/
example : ∀ n, Linked exGraph "q1:mw" n ↔ n = .sub "mix" "rf" := by
  intro n
  rw [exGraph_linked]
  simp

/-- The hypotheses of `compile_accepts` without the port behind the mixer. -/
example : ∃ out, compile exKind false (exEnv exGraph) exClusters
    [("q0:mw", "q0.01"), ("q0:res", "q0.ro"), ("q0:res", "q0.ro2"), ("q0:mw", "q0.12")]
    (exLog.filter (fun c => decide (c.2.1.1 ≠ "q1:mw"))) = .ok out := by
  have hmw : Direct exGraph ["c0"] "q0:mw" := by
    intro n hn
    rw [exGraph_linked] at hn
    simp at hn
    rcases hn with rfl | rfl
    · exact Or.inl ⟨_, _, _, rfl, by decide⟩
    · exact Or.inr ⟨_, rfl, by decide⟩
  have hres : Direct exGraph ["c0"] "q0:res" := by
    intro n hn
    rw [exGraph_linked] at hn
    simp at hn
    rcases hn with rfl | rfl
    · exact Or.inl ⟨_, _, _, rfl, by decide⟩
    · exact Or.inl ⟨_, _, _, rfl, by decide⟩
  have hsingle : Single exGraph "q0:mw" "c0" 1 (co 0) := by
    refine ⟨by unfold Wired; rw [exGraph_linked]; simp, ?_⟩
    intro c' m' ch' h
    rw [exGraph_linked] at h
    simpa using h
  have hread : Readout exGraph "q0:res" "c0" 2 (co 0) := by
    refine ⟨rfl, by decide, ⟨[(.chan "c0" 1 (co 0), .plain "q0:mw")], _, _, rfl, Or.inr rfl, ?_⟩,
      .complex, ?_⟩
    · intro c m ch; simp
    · intro c' m' ch' h
      rw [exGraph_linked] at h
      simp at h
      rcases h with ⟨rfl, rfl, rfl⟩ | ⟨rfl, rfl, rfl⟩
      · simp
      · simp [ci]
  apply compile_accepts (by decide) (by decide) (by decide)
  · intro pc hpc
    simp at hpc
    rcases hpc with rfl | rfl | rfl | rfl
    · exact hmw
    · exact hres
    · exact hres
    · exact hmw
  · have h1 : ∃ d ∈ exClusters, ∃ i t, (i, t) ∈ d.modules ∧
        ((∃ ch, Single (exEnv exGraph).graph "q0:mw" d.name i ch ∧ ∃ j, CanDrive t j ch ∨ CanRead t j ch) ∨
         (∃ o, Readout (exEnv exGraph).graph "q0:mw" d.name i o ∧ (t = .qrc → o.idx < 2) ∧
          ∃ j, CanDrive t j o ∧ ∀ x, Wired (exEnv exGraph).graph "q0:mw" d.name i x → x ≠ o → CanRead t j x)) :=
      ⟨_, List.mem_singleton.mpr rfl, 1, .qcm, by decide,
        Or.inl ⟨co 0, hsingle, 0, Or.inl ⟨rfl, by simp [co]⟩⟩⟩
    have h2 : ∃ d ∈ exClusters, ∃ i t, (i, t) ∈ d.modules ∧
        ((∃ ch, Single (exEnv exGraph).graph "q0:res" d.name i ch ∧ ∃ j, CanDrive t j ch ∨ CanRead t j ch) ∨
         (∃ o, Readout (exEnv exGraph).graph "q0:res" d.name i o ∧ (t = .qrc → o.idx < 2) ∧
          ∃ j, CanDrive t j o ∧ ∀ x, Wired (exEnv exGraph).graph "q0:res" d.name i x → x ≠ o → CanRead t j x)) := by
      refine ⟨_, List.mem_singleton.mpr rfl, 2, .qrm, by decide,
        Or.inr ⟨co 0, hread, by simp, 0, ⟨rfl, by simp [co]⟩, ?_⟩⟩
      intro x hx hne
      unfold Wired exEnv at hx
      simp only at hx
      rw [exGraph_linked] at hx
      simp at hx
      rcases hx with rfl | rfl
      · exact absurd rfl hne
      · exact ⟨rfl, by simp [ci]⟩
    intro pc hpc
    simp at hpc
    rcases hpc with rfl | rfl | rfl | rfl
    · exact h1
    · exact h2
    · exact h2
    · exact h1
  · intro d hd i t hit l hl hall
    have : l ⊆ [("q0:mw", "q0.01"), ("q0:res", "q0.ro"), ("q0:res", "q0.ro2"), ("q0:mw", "q0.12")] :=
      fun pc hpc => (hall pc hpc).1
    have := (List.subperm_of_subset hl this).length_le
    simp only [List.length_cons, List.length_nil] at this
    split <;> omega
  · intro c hc ha d hd hn i t hit ⟨ch, hw⟩
    simp only [exClusters, List.mem_singleton] at hd
    subst hd
    simp [exLog] at hc
    rcases hc with rfl | rfl | rfl | rfl | rfl <;> simp [exKind] at ha
    unfold Wired exEnv at hw
    simp only at hw
    rw [exGraph_linked] at hw
    simp at hw hit
    rcases hw with ⟨rfl, _⟩ | ⟨rfl, _⟩ <;> simp at hit <;> subst hit <;> simp

/-! ### From a schedule -/

/-- The ports of `Flatten.exRoot`: microwave on the QCM, flux on another output. -/
def schedGraph : Edges :=
  [(.chan "c0" 3 (co 0), .plain "q0:mw"), (.chan "c0" 3 (ci 0), .plain "q0:mw"),
   (.chan "c0" 1 (ro 2), .plain "q0:fl")]

/-- Acquisitions by their kind; no latch resets. -/
def schedKind : Kind (Flatten.Info Nat) :=
  ⟨fun i => match i.data with | .acq _ _ => true | _ => false, fun i => i.name == "LatchReset"⟩

set_option synthInstance.maxHeartbeats 400000 in
set_option synthInstance.maxSize 1000 in
/-- The schedule with nested loops of C31 on two modules. -/
theorem schedule_example : ((compileSchedule schedKind false (exEnv schedGraph) exClusters
      [("q0:mw", "q0.01"), ("q0:fl", "cl0.baseband")] Flatten.exIdx Flatten.exRoot).map
      (fun out => out.map (fun e => (e.1.idx, e.2.map (fun s => (s.1, s.2.pc, s.2.ops.map
        (fun i => (i.name, i.start)))))))).toOption =
    some [(1, [(0, ("q0:fl", "cl0.baseband"), [("LoopBegin", 100), ("Pulse", 110),
        ("ControlFlowReturn", 300)])]),
      (3, [(0, ("q0:mw", "q0.01"), [("Pulse", 0), ("LoopBegin", 100), ("Measure", 100),
        ("Measure", 100), ("LoopBegin", 140), ("Pulse", 140), ("ControlFlowReturn", 160),
        ("ControlFlowReturn", 300), ("Pulse", 700)])])] := by
  unfold compileSchedule Flatten.assign
  simp only [sortBy_eq_insSort, prepareAll_evalE]
  decide +kernel

/-! ### Findings -/

/-- A readout port whose input is listed before its output compiles with one clock but is refused with
two: the second clock adds the output to the inputs. -/
theorem input_first_one_clock : (compile exKind false (exEnv
      [(.chan "c0" 2 (ci 0), .plain "q0:res"), (.chan "c0" 2 (co 0), .plain "q0:res")])
      exClusters [("q0:res", "q0.ro")] []).isOk = true ∧
    compile exKind false (exEnv
      [(.chan "c0" 2 (ci 0), .plain "q0:res"), (.chan "c0" 2 (co 0), .plain "q0:res")])
      exClusters [("q0:res", "q0.ro"), ("q0:res", "q0.ro2")] [] = .error .valueError := by
  rw [compile_evalE, compile_evalE]
  decide +kernel

/-- With two real inputs listed before the output, it is refused with one clock too. -/
theorem inputs_first_refused : compile exKind false (exEnv
      [(.chan "c0" 2 (ri 0), .plain "q0:res"), (.chan "c0" 2 (ri 1), .plain "q0:res"),
       (.chan "c0" 2 (ro 0), .plain "q0:res")])
      exClusters [("q0:res", "q0.ro")] [] = .error .valueError ∧
    (compile exKind false (exEnv
      [(.chan "c0" 2 (ro 0), .plain "q0:res"), (.chan "c0" 2 (ri 0), .plain "q0:res"),
       (.chan "c0" 2 (ri 1), .plain "q0:res")])
      exClusters [("q0:res", "q0.ro")] []).isOk = true := by
  rw [compile_evalE, compile_evalE]
  decide +kernel

/-- On a QTM two port-clocks on one channel get the same sequencer: the operation of the first is
lost without an error. -/
theorem qtm_same_channel_lost : compile exKind false (exEnv
      [(.chan "c0" 4 (dO 0), .plain "q0:switch")])
      exClusters [("q0:switch", "a"), ("q0:switch", "b")]
      [("c0", ("q0:switch", "a"), 1), ("c0", ("q0:switch", "b"), 2)] =
    .ok [(⟨"c0", 4, .qtm, [(("q0:switch", "a"), ⟨"c0", 4, dO 0, none⟩),
        (("q0:switch", "b"), ⟨"c0", 4, dO 0, none⟩)]⟩,
      [(0, ⟨("q0:switch", "b"), ⟨"c0", 4, dO 0, none⟩, [2]⟩)])] := by
  rw [compile_evalE]
  decide +kernel

/-- The names of ten port-clocks for a QRC, two on `complex_output_2` and eight on
`complex_output_0`. -/
def qrcPcs (first : String) : List (PC × Path) :=
  [((first, "0"), ⟨"c0", 3, co 2, none⟩), ((first, "1"), ⟨"c0", 3, co 2, none⟩)] ++
  ["0", "1", "2", "3", "4", "5", "6", "7"].map (fun c => (("m", c), ⟨"c0", 3, co 0, none⟩))

/-- On a QRC whether there are enough sequencers depends on the names of the ports: sequencers are
given out in the order of the names, and `complex_output_2` takes sequencers that
`complex_output_0` needs although others could serve it. -/
theorem qrc_names_matter :
    sequencerToPortclock (allowed .qrc) (qrcPcs "a") = .error .valueError ∧
    (sequencerToPortclock (allowed .qrc) (qrcPcs "z")).isOk = true := by
  rw [sequencerToPortclock_evalE]
  decide +kernel

/-- Version 0.1 of the configuration: a port wired to one real output gets both real inputs of the
QRM. -/
theorem v01_adds_inputs : compile exKind true (exEnv [(.chan "c0" 2 (ro 0), .plain "q0:fl")])
      exClusters [("q0:fl", "cl0.baseband")] [] =
    .ok [(⟨"c0", 2, .qrm, [(("q0:fl", "cl0.baseband"),
      ⟨"c0", 2, ro 0, some [ri 0, ri 1]⟩)]⟩, [])] := by
  rw [compile_evalE]
  decide +kernel

/-- Two mixers at one local oscillator: only the channel of the last one is kept for the local
oscillator. -/
theorem shared_lo_forgotten :
    (allPaths (exEnv [(.chan "c0" 1 (co 0), .sub "mixA" "if"), (.sub "mixA" "rf", .plain "q0:mw"),
        (.sub "lo0" "output", .sub "mixA" "lo"), (.chan "c0" 1 (co 1), .sub "mixB" "if"),
        (.sub "mixB" "rf", .plain "q1:mw"), (.sub "lo0" "output", .sub "mixB" "lo")])
      [("q0:mw", "q0.01"), ("q1:mw", "q1.01")]) =
    .ok ⟨[⟨"c0", 1, co 0, none⟩, ⟨"c0", 1, co 1, none⟩],
      [(("c0", ("q0:mw", "q0.01")), 0), (("c0", ("q1:mw", "q1.01")), 1)],
      [(("c0", .instr "lo0"), 1)]⟩ := by
  decide +kernel

end Verif.Connect
