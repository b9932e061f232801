/-
C59: a concrete setup, and findings.
-/
import Verif.Lifecycle.More
import Verif.Prepare.Examples

set_option linter.unusedSimpArgs false
set_option linter.unusedVariables false

namespace Verif.Lifecycle.Ex

open Verif.Connect (ModType)
open Verif.Prepare (Dev Val)
open Verif.Prepare.Spec (Coherent CalOk sequencers)
open Spec

/-- What the hardware returns: the number of runs, times the number of the program. -/
def returns (runs : List (Val Nat)) : Rat :=
  match runs with
  | [.program z] => z
  | _ => -1

def env : Env Nat where
  run := Prepare.Ex.run
  read := fun runs i => if i = 0 then
    some ⟨0, ⟨[some (1000 * returns runs)], [some 0], [], [], none, []⟩⟩ else none
  fail := fun p m => { m with prog := p.seqs }
  inTime := fun _ _ => true

theorem env_ok : EnvOk env := by
  refine ⟨Prepare.Ex.run_ok, ?_, ?_⟩
  · intro p m; exact ⟨rfl, rfl, rfl, rfl, rfl⟩
  · intro p m h; exact h

/-- A cluster with a QCM and a QRM. -/
def qcm : Module Nat := ⟨.qcm, 1, false, Prepare.Ex.fresh, [], none, fun _ => .stopped, fun _ => []⟩
def qrm : Module Nat := { qcm with type := .qrm, slot := 2 }
def cluster : Cluster Nat := ⟨false, [("m1", qcm), ("m2", qrm)], "internal", none, []⟩
def coord : Coord Nat := ⟨[("cl", .cluster cluster), ("gen", .generic (fun _ => none))], none⟩

theorem coord_ok : Ok coord := by
  refine ⟨by decide, ?_⟩
  intro e he
  rcases List.mem_cons.mp he with rfl | he
  · refine ⟨by decide, ?_⟩
    intro e he
    rcases List.mem_cons.mp he with rfl | he
    · exact Prepare.Ex.fresh_coherent
    · obtain rfl := List.mem_singleton.mp he
      exact Prepare.Ex.fresh_coherent
  · obtain rfl := List.mem_singleton.mp he
    trivial

def seq (z : Nat) : Prepare.Analog Nat := { Prepare.Ex.readout with sequence := z, autoSideband := false }

def body (k z : Nat) : Body Nat := .analog ⟨[(k, seq z)], none, fun _ => .off, none, []⟩

def drive (k z : Nat) : ModProg Nat := ⟨body k z, none⟩

/-- Acquisition channel 0, in bin 0. -/
def measure (k z : Nat) : ModProg Nat := ⟨body k z, some [(k, [(0, [(0, ⟨0, 0, 1, none⟩)])])]⟩

/-- A schedule on both modules. -/
def both : Compiled Nat where
  instrs := [("cl", .cluster ⟨"internal", none, [("m1", drive 0 7), ("m2", measure 1 42)]⟩),
             ("gen", .generic [("lo.frequency", 5000000000)])]
  chans := fun ch => if ch = 0 then some ⟨.ssbIntegrationComplex, .average⟩ else none
  reps := 10

/-- A schedule on the QRM only. -/
def one : Compiled Nat := { both with
  instrs := [("cl", .cluster ⟨"internal", none, [("m2", measure 1 43)]⟩)] }

theorem prog_ok (k z : Nat) (acq) : ProgOk (⟨body k z, acq⟩ : ModProg Nat) := by
  unfold ProgOk body
  simp [seq, Prepare.Ex.readout]

theorem both_ok : CompiledOk both := by
  refine ⟨by decide, ?_, ?_⟩
  · intro c cp h
    simp only [both, List.mem_cons, Prod.mk.injEq, Instr.cluster.injEq, reduceCtorEq, and_false, List.not_mem_nil,
      or_false] at h
    rw [h.2]; decide
  · rintro c n p ⟨cp, h, hp⟩
    simp only [both, List.mem_cons, Prod.mk.injEq, Instr.cluster.injEq, reduceCtorEq, and_false, List.not_mem_nil,
      or_false] at h
    rw [h.2] at hp
    simp only [List.mem_cons, Prod.mk.injEq, List.not_mem_nil, or_false] at hp
    rcases hp with ⟨_, rfl⟩ | ⟨_, rfl⟩ <;> exact prog_ok _ _ _

theorem one_ok : CompiledOk one := by
  refine ⟨by decide, ?_, ?_⟩
  · intro c cp h
    simp only [one, both, List.mem_cons, Prod.mk.injEq, Instr.cluster.injEq, List.not_mem_nil, or_false] at h
    rw [h.2]; decide
  · rintro c n p ⟨cp, h, hp⟩
    simp only [one, both, List.mem_cons, Prod.mk.injEq, Instr.cluster.injEq, List.not_mem_nil, or_false] at h
    rw [h.2] at hp
    simp only [List.mem_cons, Prod.mk.injEq, List.not_mem_nil, or_false] at hp
    obtain ⟨_, rfl⟩ := hp
    exact prog_ok _ _ _

/-- A gettable. -/
def always : Gettable := ⟨true, false, false⟩
def once : Gettable := ⟨false, false, false⟩

/-- The schedules are run and their data returned: the integration length is 1000, so that the value is the
number of the program. -/
theorem get_both : (always.get env 10 (.ok both) coord).2.2 = .ok [(0, ⟨none, [0], [[.cplx 42 0]]⟩)] := by
  decide +kernel

/-- What the theorems say about this run. -/
theorem get_both_runs : ∃ y : Coord Nat, (∀ c n k, Running y c n k ↔ ∃ b z, Plays both c n k b z) ∧ ¬Hangs y := by
  obtain ⟨s, h1, ⟨y, h2, h3, h4, _⟩, _⟩ := get_fresh env_ok (fun s h => by cases h; exact both_ok) coord_ok
    (g := always) (Or.inr rfl) get_both
  cases h1
  exact ⟨y, h2, h4⟩

/-- The state of a sequencer, and whether it is synchronised. -/
def look (x : Coord Nat) (n : String) (k : Nat) : Option (SeqState × Val Nat × Val Nat) :=
  match Dict.get? x.comps "cl" with
  | some (.cluster cl) => (Dict.get? cl.modules n).map (fun m =>
      (m.state k, m.dev.hw (.seq k .sync), m.dev.hw (.seq k .sequence)))
  | _ => none

theorem look_at {x : Coord Nat} {n : String} {k : Nat} {a : SeqState} {b c : Val Nat} (h : look x n k = some (a, b, c)) :
    ∃ m, At x "cl" n m ∧ m.state k = a ∧ m.dev.hw (.seq k .sync) = b ∧ m.dev.hw (.seq k .sequence) = c := by
  unfold look at h
  cases hc : Dict.get? x.comps "cl" with
  | none => simp [hc] at h
  | some comp =>
    cases comp with
    | cluster cl =>
      simp only [hc, Option.map_eq_some_iff, Prod.mk.injEq] at h
      obtain ⟨m, h1, h2, h3, h4⟩ := h
      exact ⟨m, ⟨cl, hc, h1⟩, h2, h3, h4⟩
    | generic f => simp [hc] at h
    | other r e => simp [hc] at h

/-- The coordinator after the first schedule was run, and the second was prepared and started without `stop`. -/
def second : Coord Nat := ((coord.prepare env both).1.start.1.prepare env one).1.start.1

/-- Both schedules are accepted, and the QRM runs the second one; but the QCM, which it does not use, still
takes part in the synchronisation, and does not run. -/
theorem second_state : (coord.prepare env both).2 = none ∧ (coord.prepare env both).1.start.2 = none ∧
    ((coord.prepare env both).1.start.1.prepare env one).2 = none ∧
    ((coord.prepare env both).1.start.1.prepare env one).1.start.2 = none ∧
    look second "m2" 1 = some (.running, .bool true, .program 43) ∧
    look second "m1" 0 = some (.stopped, .bool true, .program 7) := by
  refine ⟨?_, ?_, ?_, ?_, ?_, ?_⟩ <;> decide +kernel

theorem hw_type {n : String} {m : Module Nat} (h : At second "cl" n m) (hn : n = "m1" ∨ n = "m2") :
    sequencers m.type = 6 := by
  obtain ⟨cl, h1, h2⟩ := h
  have h3 : (match Dict.get? second.comps "cl" with
    | some (.cluster cl) => (Dict.get? cl.modules n).map (fun m => sequencers m.type)
    | _ => none) = some 6 := by
    rcases hn with rfl | rfl <;> decide +kernel
  rw [h1] at h3
  simp only [h2, Option.map_some, Option.some.injEq] at h3
  exact h3

/-- **C59, finding.** Without `stop` before it, a schedule that does not use a module of an earlier one waits
for this module forever. -/
theorem hangs_without_stop : Hangs second := by
  obtain ⟨_, _, _, _, h1, h2⟩ := second_state
  obtain ⟨m, a1, a2, a3, _⟩ := look_at h1
  obtain ⟨m', b1, b2, b3, _⟩ := look_at h2
  refine ⟨⟨"cl", "m2", 1, ⟨m, a1, a2⟩, ⟨m, a1, ?_, a3⟩⟩, "cl", "m1", 0, ⟨m', b1, ?_, b3⟩, ?_⟩
  · rw [hw_type a1 (Or.inr rfl)]; decide
  · rw [hw_type b1 (Or.inl rfl)]; decide
  · rintro ⟨m2, c1, c2⟩
    rw [at_unique c1 b1, b2] at c2
    simp at c2

/-- **C59, finding.** A second `get` of a gettable that initialises only once: data are returned, but the
sequencers ran without synchronisation, although the schedule synchronises them. -/
theorem again_unsynced :
    (once.get env 10 (.ok both) coord).2.2 = .ok [(0, ⟨none, [0], [[.cplx 42 0]]⟩)] ∧
    ((once.get env 10 (.ok both) coord).1.get env 10 (.ok both) (once.get env 10 (.ok both) coord).2.1).2.2 =
      .ok [(0, ⟨none, [0], [[.cplx 42 0]]⟩)] ∧
    Plays both "cl" "m2" 1 true 42 ∧
    look ((once.get env 10 (.ok both) coord).2.1.stop true).1.start.1 "m2" 1 =
      some (.running, .bool false, .program 42) := by
  refine ⟨by decide +kernel, by decide +kernel, ?_, by decide +kernel⟩
  exact ⟨measure 1 42, ⟨_, by simp [both]; rfl, by simp⟩, seq 42, by simp, rfl, rfl⟩

/-- **C59, finding.** Such a gettable returns the data of another one's schedule, if that one was used in
between. -/
theorem other_schedule :
    (once.get env 10 (.ok both) coord).2.2 = .ok [(0, ⟨none, [0], [[.cplx 42 0]]⟩)] ∧
    (let r1 := once.get env 10 (.ok both) coord
     let r2 := once.get env 10 (.ok one) r1.2.1
     (r1.1.get env 10 (.ok both) r2.2.1).2.2) = .ok [(0, ⟨none, [0], [[.cplx 43 0]]⟩)] := by
  refine ⟨?_, ?_⟩ <;> decide +kernel

/-- A schedule for a sequencer that does not exist. -/
def bad : Compiled Nat := { both with
  instrs := [("cl", .cluster ⟨"internal", none, [("m1", drive 1 8), ("m2", measure 9 44)]⟩)] }

/-- **C59, finding.** After a `prepare` that failed, `start` is not refused: it runs the modules that were
prepared before the exception. -/
theorem failed_prepare_starts : (coord.prepare env bad).2 = some .keyError ∨
    (coord.prepare env bad).2 = some .valueError := by
  decide +kernel

theorem failed_prepare_runs : (coord.prepare env bad).2 ≠ none ∧ (coord.prepare env bad).1.start.2 = none ∧
    look (coord.prepare env bad).1.start.1 "m1" 1 = some (.running, .bool true, .program 8) ∧
    look (coord.prepare env bad).1.start.1 "m2" 1 = some (.stopped, .none, .none) := by
  refine ⟨?_, ?_, ?_, ?_⟩ <;> decide +kernel

/-- An unknown component is refused. -/
theorem unknown_refused : ¬Preparable { coord with comps := [] } both := by
  intro h
  obtain ⟨comp, h1, _⟩ := h "cl" _ (List.mem_cons_self ..)
  simp [Dict.get?_nil] at h1

/-- A trigger at a module that is not a QTM, and one at the cluster. -/
theorem trigger_examples :
    (({ cluster with prog := some (["m1"], some ⟨1, 1, some 1⟩) } : Cluster Nat).start).2 = some .valueError ∧
    (({ cluster with prog := some (["m1"], some ⟨0, 1, none⟩) } : Cluster Nat).start).2 = none := by
  refine ⟨?_, ?_⟩ <;> decide +kernel

theorem slots_ok : SlotsOk cluster := by
  intro e he e' he' h
  simp only [cluster, List.mem_cons, List.not_mem_nil, or_false] at he he'
  rcases he with rfl | rfl <;> rcases he' with rfl | rfl <;> simp_all [qcm, qrm]

end Verif.Lifecycle.Ex
