/-
A case that meets the hypotheses of C70: a schedule with a pulse, a phase shift, a loop with a measurement and a
conditional pulse.
-/
import Verif.EndToEnd.Props
import Verif.EndToEnd.Updates
import Verif.Connect.Examples

set_option linter.unusedSimpArgs false
set_option linter.unusedVariables false

namespace Verif.EndToEnd

open Verif.Connect (Env Cluster Module Seq Kind Chan compileSchedule)
open Verif.Flatten (Info ns onGrid Forest Op Label PC content startAt entries nsec pulseOn)
open Verif.StableSort (sortBy_eq_insSort)
open Spec

/-- The schedule. -/
def exRoot : Op Nat := .sched
  (.cons "cond" (nsec 2000) (.ctl ⟨"ConditionalBegin", 0, 6⟩ (nsec 100) (pulseOn "q0:mw" "q0.01" 7))
  (.cons "p" 0 (pulseOn "q0:mw" "q0.01" 1)
  (.cons "shift" (nsec 40) (.plain ⟨"ShiftClockPhase", false, none, [⟨none, some "q0.01", 0, 2⟩], []⟩)
  (.cons "loop" (nsec 100) (.ctl ⟨"LoopBegin", 0, 3⟩ (nsec 400) (.sched
    (.cons "m" (nsec 20) (.plain ⟨"Measure", false, none, [⟨some "q0:mw", some "q0.01", 0, 4⟩],
      [⟨some "q0:mw", some "q0.01", nsec 40, 5⟩]⟩)
    (.cons "flux" (nsec 10) (pulseOn "q0:fl" "cl0.baseband" 8) .nil)))) .nil))))

/-- The strategies: the phase shift is a parameter instruction, acquisitions use bin register 63; `3` is a loop
of three iterations, `6` is a conditional. -/
def exF : Factory Nat where
  leaf i := match i.data with
    | .pulse 2 => ⟨0, false, true, false, .phaseShift (some 90), none⟩
    | .pulse n => ⟨0, false, false, true, .pulse (some n) (some n) 100 200, none⟩
    | .acq n _ => ⟨0, false, false, true, .square n (.reg 63), none⟩
    | _ => ⟨0, true, false, false, .idle, none⟩
  reps n := if n = 3 then some 3 else none
  cond _ := Q1.cond1
  nodebug i := by
    split <;> rfl

/-- A pulse in the program. -/
def pulseQ (t : Int) (n : Nat) : Q1.Leaf := ⟨t, false, false, true, .pulse (some n) (some n) 100 200, none⟩

/-- The program of the microwave sequencer. -/
def exProgram : Q1.Program where
  pre := [(.setMrk, [0], 0)]
  bins := [(63, 0)]
  ops := .leaf (pulseQ 0 1) (.leaf ⟨40, false, true, false, .phaseShift (some 90), none⟩ (.leaf (update 40)
    (.loop 100 3 (.leaf (pulseQ 120 4) (.leaf ⟨160, false, false, true, .square 5 (.reg 63), none⟩ .nil)) 500
    (.cond 2000 Q1.cond1 [pulseQ 2000 7] 2100 .nil))))
  total := 2200
  reps := 1000
  latency := 0
  analog := true

/-- The operations of the sequencer, as they arrive. -/
def exOps : List (Info Nat) :=
  [⟨"Pulse", .pulse 1, 0, 0⟩, ⟨"ShiftClockPhase", .pulse 2, nsec 40, 40⟩,
   ⟨"LoopBegin", .loopStart 3, nsec 100, 100⟩, ⟨"Measure", .pulse 4, nsec 120, 120⟩,
   ⟨"Measure", .acq 5 none, nsec 160, 120⟩, ⟨"ControlFlowReturn", .loopStop, nsec 500, 500⟩,
   ⟨"ConditionalBegin", .loopStart 6, nsec 2000, 2000⟩, ⟨"Pulse", .pulse 7, nsec 2000, 2000⟩,
   ⟨"ControlFlowReturn", .loopStop, nsec 2100, 2100⟩]

/-- The compilation of the schedule. -/
def exOut : Except (Connect.Err ⊕ Flatten.Err) (List (Module × List (Nat × Seq (Info Nat)))) :=
  compileSchedule Connect.schedKind false (Connect.exEnv Connect.schedGraph) Connect.exClusters
    [("q0:mw", "q0.01"), ("q0:fl", "cl0.baseband")] (fun _ => none) exRoot

set_option synthInstance.maxHeartbeats 400000 in
set_option synthInstance.maxSize 1000 in
theorem exOut_eval : ∃ out, exOut = .ok out ∧ out.any (fun e => decide (e.1.cluster = "c0" ∧ e.1.idx = 3) &&
    e.2.any (fun s => decide (s.2.pc = ("q0:mw", "q0.01") ∧ s.2.ops = exOps))) = true := by
  have h : (exOut.toOption.map (fun out => out.any (fun e => decide (e.1.cluster = "c0" ∧ e.1.idx = 3) &&
      e.2.any (fun s => decide (s.2.pc = ("q0:mw", "q0.01") ∧ s.2.ops = exOps))))) = some true := by
    unfold exOut compileSchedule Flatten.assign
    simp only [sortBy_eq_insSort, Connect.prepareAll_evalE]
    decide +kernel
  cases he : exOut with
  | error e => rw [he] at h; simp [Except.toOption] at h
  | ok out => rw [he] at h; exact ⟨out, rfl, by simpa [Except.toOption] using h⟩

theorem exProgram_ops : programOps exF exOps = .ok exProgram.ops.flatten := by
  unfold programOps removalPass removed
  simp only [sortBy_eq_insSort]
  decide +kernel

/-- The phase shift of the example is applied. -/
theorem exApplied : ∃ (b : List Q1.Leaf) (u : Q1.Leaf) (c : List Q1.Op),
    exProgram.ops.flatten.drop 2 = b.map Q1.Op.leaf ++ .leaf u :: c ∧ u.t = 40 ∧
      (∀ x ∈ b, x.t = 40) ∧
      (u = ⟨40, false, false, true, .updParam, none⟩ ∨ (u.isRT = true ∧ u.isParam = false)) :=
  parameter_applied (F := exF) (a := [.leaf (pulseQ 0 1)])
    (l := ⟨40, false, true, false, .phaseShift (some 90), none⟩)
    (by intro i; unfold exF; simp only; split <;> simp) exProgram_ops rfl rfl

theorem exApart : (content (fun _ => none) ("q0:mw", "q0.01") exRoot 0 [] .nil).Apart Info.key := by
  decide +kernel

theorem exSupported : Supported exF.reps ("q0:mw", "q0.01") exRoot := by
  simp [Supported, SupportedItems, exRoot, pulseOn, NoControl, Flatten.Op.used, Flatten.Items.used,
    Flatten.Piece.pc?, exF]

theorem exProgram_ok : Q1.AvailOk (List.range 63) ∧ exProgram.Ok (List.range 63) ∧
    (∃ q, exProgram.compile (List.range 63) = .ok q) ∧ exProgram.Stable Q1.allOn := by
  have hp : ∀ t n, t < 5000 → (pulseQ t n).Ok (List.range 63) := by
    intro t n ht
    refine ⟨by simp [pulseQ], by simp [pulseQ, Q1.Strategy.binReg], ?_, ?_⟩
    · show t < Q1.horizon; unfold Q1.horizon; omega
    · show (4 : Int) < Q1.horizon; decide
  refine ⟨⟨List.nodup_range, fun r hr => ?_⟩, ⟨?_, by decide, by decide, by decide⟩, ?_, ?_⟩
  · have := List.mem_range.mp hr
    exact Nat.le_of_lt (Nat.lt_of_lt_of_le this (by decide))
  · refine ⟨hp 0 1 (by omega), ⟨by simp, by simp [Q1.Strategy.binReg], by decide, by decide⟩,
      ⟨by simp [update], by simp [update, Q1.Strategy.binReg], by decide, by decide⟩,
      ⟨by decide, by decide⟩, by decide, by decide, ⟨hp 120 4 (by omega),
      ⟨by simp, by simp [Q1.Strategy.binReg], by decide, by decide⟩, trivial⟩, rfl, by decide, by decide,
      by decide, ?_, ?_, trivial⟩
    · intro l hl
      simp only [List.mem_cons, List.not_mem_nil, or_false] at hl
      subst hl
      exact ⟨hp 2000 7 (by omega), rfl, rfl⟩
    · simp [Q1.gapsOk, pulseQ, Q1.Strategy.dur]
  · have h : (exProgram.compile (List.range 63)).toOption.isSome = true := by decide +kernel
    cases hc : exProgram.compile (List.range 63) with
    | error e => rw [hc] at h; simp [Except.toOption] at h
    | ok q => exact ⟨q, rfl⟩
  · intro i _
    exact ⟨fun _ _ => trivial, fun _ _ _ => rfl, trivial⟩

/-- What the schedule does on the microwave port-clock, with all triggers on: seven things, the measurement three
times. -/
theorem exUnrolled : (unrolled exF.reps exF.cond Q1.allOn (fun _ => none) ("q0:mw", "q0.01") exRoot 0 []
    0).map (fun x => (x.1.data, ns x.1.timing + x.2)) =
    [(.pulse 7, 2000), (.pulse 1, 0), (.pulse 2, 40), (.pulse 4, 120), (.acq 5 none, 160), (.pulse 4, 520),
     (.acq 5 none, 560), (.pulse 4, 920), (.acq 5 none, 960)] := by decide +kernel

/-- All hypotheses of `executed` hold together. -/
theorem exExecuted : ∃ q i d, exProgram.compile (List.range 63) = .ok q ∧
    Q1.Steps q.instrs Q1.allOn (0, Q1.Data.init) (i, d) ∧ Q1.Stopped q.instrs (i, d) ∧
    (visible d.trace).Perm (expected exF Q1.allOn (fun _ => none) ("q0:mw", "q0.01") exRoot exProgram) := by
  obtain ⟨out, h, hany⟩ := exOut_eval
  rw [List.any_eq_true] at hany
  obtain ⟨⟨m, ss⟩, hm, hany⟩ := hany
  simp only [Bool.and_eq_true, List.any_eq_true] at hany
  obtain ⟨_, ⟨n, s⟩, hs, hany⟩ := hany
  simp only [decide_eq_true_eq] at hany
  obtain ⟨hpc, hops⟩ := hany
  obtain ⟨hA, hok, ⟨q, hq⟩, hst⟩ := exProgram_ok
  obtain ⟨i, d, h1, h2, h3⟩ := executed h hm hs (by rw [hpc]; exact exApart) exF
    (by rw [hpc]; exact exSupported) (p := exProgram) (by rw [hops]; exact exProgram_ops) hA hok hq Q1.allOn hst
  rw [hpc] at h3
  exact ⟨q, i, d, hq, h1, h2, h3⟩

/-- The pulse of the measurement in the second iteration: 520 ns after the start of the schedule. -/
example : Delayed exF.reps exRoot [some "loop", none, some "m"] 400 ∧
    exRoot.find [some "loop", none, some "m"] = some (nsec 120,
      ⟨"Measure", false, none, [⟨some "q0:mw", some "q0.01", 0, 4⟩], [⟨some "q0:mw", some "q0.01", nsec 40, 5⟩]⟩) ∧
    does exF ⟨"Measure", .pulse 4, nsec 120, 120⟩ = [⟨0, .setAwgGain, [100, 200]⟩, ⟨0, .play, [4, 4]⟩] := by
  refine ⟨?_, by decide +kernel, rfl⟩
  simp only [Delayed, DelayedItem, exRoot]
  refine ⟨3, 1, rfl, by norm_num, 0, ?_, rfl⟩
  decide +kernel

end Verif.EndToEnd
