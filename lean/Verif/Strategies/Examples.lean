/-
A case that meets the hypotheses of C71: a schedule with pulses, a phase shift, a loop with a measurement and a
conditional pulse.
-/
import Verif.Strategies.Played
import Verif.Connect.Examples

set_option linter.unusedSimpArgs false
set_option linter.unusedVariables false

namespace Verif.Strategies

open Verif.Connect (Env Cluster Module Seq Chan compileSchedule)
open Verif.Flatten (Info ns onGrid Forest Op Label PC content startAt entries nsec)
open Verif.StableSort (sortBy_eq_insSort)
open Verif.EndToEnd (removalPass removed update)
open Verif.EndToEnd.Spec
open Spec

/-- A pulse of four samples. -/
def exWave (a : Rat) : Lib := .wave [a, a, a / 2, 0] [0, 0, 0, 0] "q0:mw"

/-- An integration. -/
def exAcquire : Lib := .acquire ⟨"SSBIntegrationComplex", .append, "ch0", [], 0, 0⟩ "q0:mw" (nsec 100)

/-- An operation with one pulse. -/
def exPlain (port clock : String) (lib : Lib) : Op Data :=
  .plain ⟨"Pulse", false, none, [⟨some port, some clock, 0, lib.data⟩], []⟩

/-- The schedule. -/
def exRoot : Op Data := .sched
  (.cons "cond" (nsec 2000) (.ctl ⟨"ConditionalBegin", 0, condData 1⟩ (nsec 100)
    (exPlain "q0:mw" "q0.01" (exWave (1 / 2))))
  (.cons "p" 0 (exPlain "q0:mw" "q0.01" (exWave (1 / 2)))
  (.cons "shift" (nsec 40) (.plain ⟨"ShiftClockPhase", false, none,
    [⟨none, some "q0.01", 0, (Lib.shiftPhase 90).data⟩], []⟩)
  (.cons "loop" (nsec 100) (.ctl ⟨"LoopBegin", 0, loopData 3⟩ (nsec 400) (.sched
    (.cons "m" (nsec 20) (.plain ⟨"Measure", false, none, [⟨some "q0:mw", some "q0.01", 0, (exWave (1 / 4)).data⟩],
      [⟨some "q0:mw", some "q0.01", nsec 40, exAcquire.data⟩]⟩)
    (.cons "flux" (nsec 10) (exPlain "q0:fl" "cl0.baseband" (.wave [1, 1] [0, 0] "q0:fl")) .nil)))) .nil))))

/-- Acquisitions and latch resets. -/
def exKind : Connect.Kind (Info Data) :=
  ⟨fun i => match i.data with | .acq _ _ => true | _ => false, fun i => i.name == "LatchReset"⟩

/-- A QRM; samples are their own hash. -/
def exC : Config (List Int) := ⟨.analog, true, some 50000000, fun _ => 0, fun _ => .reg 63, id⟩

/-- The operations of the sequencer, as they arrive. -/
def exOps : List (Info Data) :=
  [⟨"Pulse", .pulse (exWave (1 / 2)).data, 0, 0⟩, ⟨"ShiftClockPhase", .pulse (Lib.shiftPhase 90).data, nsec 40, 40⟩,
   ⟨"LoopBegin", .loopStart (loopData 3), nsec 100, 100⟩, ⟨"Measure", .pulse (exWave (1 / 4)).data, nsec 120, 120⟩,
   ⟨"Measure", .acq exAcquire.data none, nsec 160, 120⟩, ⟨"ControlFlowReturn", .loopStop, nsec 500, 500⟩,
   ⟨"ConditionalBegin", .loopStart (condData 1), nsec 2000, 2000⟩,
   ⟨"Pulse", .pulse (exWave (1 / 2)).data, nsec 2000, 2000⟩,
   ⟨"ControlFlowReturn", .loopStop, nsec 2100, 2100⟩]

/-- The compilation of the schedule. -/
def exOut : Except (Connect.Err ⊕ Flatten.Err) (List (Module × List (Nat × Seq (Info Data)))) :=
  compileSchedule exKind false (Connect.exEnv Connect.schedGraph) Connect.exClusters
    [("q0:mw", "q0.01"), ("q0:fl", "cl0.baseband")] (fun _ => none) exRoot

set_option synthInstance.maxHeartbeats 400000 in
set_option synthInstance.maxSize 1000 in
theorem exOut_eval : ∃ out, exOut = .ok out ∧ out.any (fun e => decide (e.1.cluster = "c0" ∧ e.1.idx = 3) &&
    e.2.any (fun s => decide (s.2.pc = ("q0:mw", "q0.01") ∧ s.2.ops = exOps))) = true := by
  have h : (exOut.toOption.map (fun out => out.any (fun e => decide (e.1.cluster = "c0" ∧ e.1.idx = 3) &&
      e.2.any (fun s => decide (s.2.pc = ("q0:mw", "q0.01") ∧ s.2.ops = exOps))))) = some true := by
    unfold exOut compileSchedule Flatten.assign
    simp only [sortBy_eq_insSort, Connect.prepareAll_evalE]
    decide +kernel
  cases he : exOut with
  | error e => rw [he] at h; simp [Except.toOption] at h
  | ok out => rw [he] at h; exact ⟨out, rfl, by simpa [Except.toOption] using h⟩

/-- A pulse in the program: all play the same waveform, with different gains. -/
def pulseQ (t : Int) (g : Int) : Q1.Leaf := ⟨t, false, false, true, .pulse (some 0) none g 0, none⟩

/-- The program of the microwave sequencer. -/
def exProgram : Q1.Program where
  pre := [(.setMrk, [0], 0)]
  bins := [(63, 0)]
  ops := .leaf (pulseQ 0 16384) (.leaf ⟨40, false, true, false, .phaseShift (some 250000000), none⟩ (.leaf (update 40)
    (.loop 100 3 (.leaf (pulseQ 120 8192) (.leaf ⟨160, false, false, true, .square 0 (.reg 63), none⟩ .nil)) 500
    (.cond 2000 Q1.cond1 [pulseQ 2000 16384] 2100 .nil))))
  total := 2200
  reps := 1000
  latency := 0
  analog := true

/-- The memory: one waveform. -/
def exMem : Mem (List Int) :=
  ⟨[⟨[1000000000000, 1000000000000, 500000000000, 0], [1, 1, 1 / 2, 0], 0⟩], []⟩

instance : DecidableEq (Waves.Entry (List Int)) := fun a b =>
  decidable_of_iff (a.key = b.key ∧ a.data = b.data ∧ a.index = b.index) (by cases a; cases b; simp)

theorem exProgram_ops : programOf exC exOps = .ok (exMem, exProgram.ops.flatten) := by
  have h : strategies exC exOps = .ok (exMem, exOps.map (factoryOf exC exMem).strategy) := by
    have h2 : (strategies exC exOps).toOption.map (fun r => (r.1.awg, r.1.weights, r.2)) =
      some (exMem.awg, exMem.weights, exOps.map (factoryOf exC exMem).strategy) := by decide +kernel
    cases hs : strategies exC exOps with
    | error e => rw [hs] at h2; simp [Except.toOption] at h2
    | ok r =>
      rw [hs] at h2
      simp only [Except.toOption, Option.map_some, Option.some.injEq, Prod.mk.injEq] at h2
      obtain ⟨⟨a, b⟩, o⟩ := r
      simp only at h2
      obtain ⟨rfl, rfl, rfl⟩ := h2
      rfl
  unfold programOf
  rw [h]
  simp only [Except.bind]
  have hv : Waves.validate exMem.awg = .ok () := by rfl
  rw [hv]
  simp only
  rw [if_pos (by decide +kernel)]
  simp only [Except.ok.injEq, Prod.mk.injEq, true_and]
  unfold removalPass removed
  simp only [sortBy_eq_insSort]
  decide +kernel

theorem exApart : (content (fun _ => none) ("q0:mw", "q0.01") exRoot 0 [] .nil).Apart Info.key := by
  decide +kernel

theorem exSupported : Supported Data.repetitions ("q0:mw", "q0.01") exRoot := by
  simp [Supported, SupportedItems, exRoot, exPlain, NoControl, Flatten.Op.used, Flatten.Items.used,
    Flatten.Piece.pc?, loopData, condData]

theorem exFromLib : FromLib exRoot := by
  have hw : ∀ a, ∃ lib : Lib, (exWave a).data = lib.data ∧ Sampled lib :=
    fun a => ⟨exWave a, rfl, by simp [exWave, Sampled]⟩
  have hf : ∃ lib : Lib, (Lib.wave [1, 1] [0, 0] "q0:fl").data = lib.data ∧ Sampled lib :=
    ⟨_, rfl, by simp [Sampled]⟩
  have hs : ∃ lib : Lib, (Lib.shiftPhase 90).data = lib.data ∧ Sampled lib := ⟨_, rfl, trivial⟩
  have ha : ∃ lib : Lib, exAcquire.data = lib.data ∧ Sampled lib := ⟨_, rfl, trivial⟩
  simp only [exRoot, exPlain, FromLib, FromLibItems, List.mem_singleton, forall_eq, List.not_mem_nil,
    false_implies, implies_true, true_and, and_true]
  exact ⟨⟨.inr ⟨1, rfl⟩, hw _⟩, hw _, hs, .inl ⟨3, rfl⟩, ⟨hw _, ha⟩, hf⟩

theorem exProgram_ok : Q1.AvailOk (List.range 63) ∧ exProgram.Ok (List.range 63) ∧
    (∃ q, exProgram.compile (List.range 63) = .ok q) ∧ exProgram.Stable Q1.allOn := by
  have hp : ∀ t g, t < 5000 → (pulseQ t g).Ok (List.range 63) := by
    intro t n ht
    refine ⟨by simp [pulseQ], by simp [pulseQ, Q1.Strategy.binReg], ?_, ?_⟩
    · show t < Q1.horizon; unfold Q1.horizon; omega
    · show (4 : Int) < Q1.horizon; decide
  refine ⟨⟨List.nodup_range, fun r hr => ?_⟩, ⟨?_, by decide, by decide, by decide⟩, ?_, ?_⟩
  · have := List.mem_range.mp hr
    exact Nat.le_of_lt (Nat.lt_of_lt_of_le this (by decide))
  · refine ⟨hp 0 _ (by omega), ⟨by simp, by simp [Q1.Strategy.binReg], by decide, by decide⟩,
      ⟨by simp [update], by simp [update, Q1.Strategy.binReg], by decide, by decide⟩,
      ⟨by decide, by decide⟩, by decide, by decide, ⟨hp 120 _ (by omega),
      ⟨by simp, by simp [Q1.Strategy.binReg], by decide, by decide⟩, trivial⟩, rfl, by decide, by decide,
      by decide, ?_, ?_, trivial⟩
    · intro l hl
      simp only [List.mem_cons, List.not_mem_nil, or_false] at hl
      subst hl
      exact ⟨hp 2000 _ (by omega), rfl, rfl⟩
    · simp [Q1.gapsOk, pulseQ, Q1.Strategy.dur]
  · have h : (exProgram.compile (List.range 63)).toOption.isSome = true := by decide +kernel
    cases hc : exProgram.compile (List.range 63) with
    | error e => rw [hc] at h; simp [Except.toOption] at h
    | ok q => exact ⟨q, rfl⟩
  · intro i _
    exact ⟨fun _ _ => trivial, fun _ _ _ => rfl, trivial⟩

/-- All hypotheses of `library_executed` hold together. -/
theorem exExecuted : ∃ q i d, exProgram.compile (List.range 63) = .ok q ∧
    Q1.Steps q.instrs Q1.allOn (0, Q1.Data.init) (i, d) ∧ Q1.Stopped q.instrs (i, d) ∧
    ∃ F : EndToEnd.Factory Data, F.reps = Data.repetitions ∧
    (visible d.trace).Perm (expected F Q1.allOn (fun _ => none) ("q0:mw", "q0.01") exRoot exProgram) ∧
    ∃ es, Asks .analog exMem (some 50000000) (fun _ => 0) (exWave (1 / 4)) es ∧
      does F ⟨"Measure", .pulse (exWave (1 / 4)).data, nsec 120, 120⟩ = visible es := by
  obtain ⟨out, h, hany⟩ := exOut_eval
  rw [List.any_eq_true] at hany
  obtain ⟨⟨m, ss⟩, hm, hany⟩ := hany
  simp only [Bool.and_eq_true, List.any_eq_true] at hany
  obtain ⟨_, ⟨n, s⟩, hs, hany⟩ := hany
  simp only [decide_eq_true_eq] at hany
  obtain ⟨hpc, hops⟩ := hany
  obtain ⟨hA, hok, ⟨q, hq⟩, hst⟩ := exProgram_ok
  obtain ⟨_, i, d, h1, h2, F, hr, _, h3, h4⟩ := library_executed (c := exC) h hm hs
    (by rw [hpc]; exact exApart) exFromLib (by rw [hpc]; exact exSupported) (fun _ _ h => h) (p := exProgram)
    (by rw [hops]; exact exProgram_ops) hA hok hq Q1.allOn hst
  rw [hpc] at h3
  refine ⟨q, i, d, hq, h1, h2, F, hr, h3, ?_⟩
  exact h4 _ (by rw [hops]; simp [exOps]) _ rfl (by simp [exWave, Sampled])

/-- `wave_played`: the pulse of the measurement in the second iteration. -/
example : Delayed Data.repetitions exRoot [some "loop", none, some "m"] 400 ∧
    (exRoot.find [some "loop", none, some "m"]).map (fun r => (r.1, r.2.name)) = some (nsec 120, "Measure") := by
  refine ⟨?_, by decide +kernel⟩
  simp only [Delayed, DelayedItem, exRoot]
  refine ⟨3, 1, rfl, by norm_num, 0, ?_, rfl⟩
  decide +kernel

/-- A weighted integration, a change of frequency and an offset. -/
example : ((strategies exC [⟨"acq", .acq (Lib.acquire ⟨"NumericalWeightedIntegration", .append, "ch0",
      [[1, 1, 1 / 2], [0, 1, 1]], 0, 0⟩ "q0:res" (nsec 3)).data none, nsec 8, 8⟩,
      ⟨"SetClockFrequency", .pulse (Lib.setFrequency (some 7000000100) (some 7000000000)).data, nsec 16, 16⟩,
      ⟨"VoltageOffset", .pulse (Lib.offset (1 / 2) (-1) "q0:mw").data, nsec 20, 20⟩]).toOption.map
      (fun r => (r.1.weights.map (fun e => (e.index, e.data)), r.2))) =
    some ([(0, [1, 1, 1 / 2]), (1, [0, 1, 1])],
      [.leaf ⟨8, false, false, true, .weighed 0 (.reg 63) 0 1, none⟩,
       .leaf ⟨16, false, true, false, .setFreq 200000400, none⟩,
       .leaf ⟨20, false, true, false, .offset 16384 (-32768), none⟩]) := by decide +kernel

end Verif.Strategies
