/-
C73: examples.
-/
import Verif.Compile.Props

set_option linter.unusedVariables false

namespace Verif.Compile.Examples

open Verif.Compile
open Spec

/-- Two schedules with an operation (3) in common, and a configuration (5). -/
def heap : Heap String :=
  [[("class", .atom "Schedule"), ("data", .ref 1)],
    [("operations", .ref 2), ("compiled_instructions", .ref 4)],
    [("x", .ref 3)],
    [("clock", .atom "cl0.baseband")],
    [],
    [("clock", .atom "q0.01")],
    [("class", .atom "Schedule"), ("data", .ref 7)],
    [("operations", .ref 2)]]

/-- A pass that writes into the operation. -/
def setClock : Prog String :=
  .read 0 "data" (fun _ => .read 2 "operations" (fun _ => .read 3 "x" (fun _ => .read 1 "clock" (fun _ =>
    .write 4 "clock" 5 (.ret 0)))))

/-- A pass that writes into the instructions. -/
def instructions : Prog String :=
  .read 0 "data" (fun _ => .read 2 "compiled_instructions" (fun _ => .const "program" (.write 3 "q0" 4 (.ret 0))))

def config (keep : Bool) : Config String := ⟨keep, some [("set_clock", setClock)], none, .ref 5⟩

def config2 : Config String :=
  ⟨true, some [("set_clock", setClock)], some [("hardware_compile", instructions)], .ref 5⟩

def fresh : Compiler String := ⟨0, none, none, []⟩

def isCompiled (s : String) : Bool := s == "CompiledSchedule"

/-- Everything that 0 consists of. -/
theorem reach0 {a : Nat} (h : Reach heap (.ref 0) a) : a ∈ [0, 1, 2, 3, 4] := by
  have key : ∀ v a, v = Val.ref 0 → Reach heap v a → a ∈ [0, 1, 2, 3, 4] := by
    intro v a hv h
    induction h with
    | here a => cases hv; simp
    | @step v a b o k _ ho hb ih =>
      have ha := ih hv
      simp only [List.mem_cons, List.not_mem_nil, or_false] at ha
      rcases ha with rfl | rfl | rfl | rfl | rfl <;> cases ho <;> simp at hb <;> simp [hb]
      rcases hb with h | h <;> simp [h]
  exact key _ _ rfl h

theorem reach5 {a : Nat} (h : Reach heap (.ref 5) a) : a = 5 := by
  have key : ∀ v a, v = Val.ref 5 → Reach heap v a → a = 5 := by
    intro v a hv h
    induction h with
    | here a => cases hv; rfl
    | @step v a b o k _ ho hb ih =>
      have ha := ih hv
      subst ha
      cases ho
      simp at hb
  exact key _ _ rfl h

theorem complete0 : Complete heap (.ref 0) := by
  intro a ha
  have := reach0 ha
  simp only [List.mem_cons, List.not_mem_nil, or_false] at this
  simp only [heap, List.length_cons, List.length_nil]
  omega

theorem complete5 : Complete heap (.ref 5) := by
  intro a ha
  rw [reach5 ha]
  decide

theorem disjoint05 : Disjoint heap (.ref 0) (.ref 5) := by
  intro a ha hb
  rw [reach5 hb] at ha
  have := reach0 ha
  simp at this

/-- `untouched` applies: with two passes, one of which writes into an operation. -/
example (sp : PathFinder String) (c : Compiler String) :
    Untouched heap (compile sp isCompiled "CompiledSchedule" 100 c heap (.ref 0) config2).2.1 (.ref 0) :=
  (untouched sp isCompiled "CompiledSchedule" 100 c heap (.ref 0) config2 rfl complete0 complete5 disjoint05).1

/-- So does `same_result`. -/
example (sp : PathFinder String) (c : Compiler String) :
    SameOutcome (compile sp isCompiled "CompiledSchedule" 100 c heap (.ref 0) (config false)).2
      (compile sp isCompiled "CompiledSchedule" 100 c heap (.ref 0) (config true)).2 :=
  same_result sp isCompiled "CompiledSchedule" 100 c heap (.ref 0) (config true) complete0 complete5 disjoint05
    (by decide)

/-- The compiled schedule: the operation has the new clock, the original does not; the compiled schedule is a new
object. -/
theorem compiled (sp : PathFinder String) :
    (compile sp isCompiled "CompiledSchedule" 100 fresh heap (.ref 0) (config true)).2.2 = .ok (.ref 14) ∧
    (compile sp isCompiled "CompiledSchedule" 100 fresh heap (.ref 0) (config true)).2.1 = heap ++
      [[("class", .atom "Schedule"), ("data", .ref 9)],
        [("operations", .ref 10), ("compiled_instructions", .ref 13)],
        [("x", .ref 11)],
        [("clock", .atom "q0.01")],
        [], [],
        [("class", .atom "CompiledSchedule"), ("data", .ref 15)],
        [("compiled_instructions", .ref 13), ("operations", .ref 10)],
        []] := ⟨rfl, rfl⟩

/-- Finding: compiling in place (`keep_original_schedule=False`) changes other schedules that have operations in
common with the one that is compiled, not only this one. -/
theorem others_changed (sp : PathFinder String) :
    Reach heap (.ref 6) 3 ∧ heap[3]? = some [("clock", .atom "cl0.baseband")] ∧
    (compile sp isCompiled "CompiledSchedule" 100 fresh heap (.ref 0) (config false)).2.1[3]? =
      some [("clock", .atom "q0.01")] := by
  refine ⟨?_, rfl, rfl⟩
  have h6 : Reach heap (.ref 6) 6 := .here 6
  have h7 : Reach heap (.ref 6) 7 := h6.step (o := [("class", .atom "Schedule"), ("data", .ref 7)]) (k := "data") rfl (by simp)
  have h2 : Reach heap (.ref 6) 2 := h7.step (o := [("operations", .ref 2)]) (k := "operations") rfl (by simp)
  exact h2.step (o := [("x", .ref 3)]) (k := "x") rfl (by simp)

/-- A history: the schedule is compiled twice. -/
example (sp : PathFinder String) (c : Compiler String) : ∃ h', History sp isCompiled "CompiledSchedule" (.ref 0) heap h' :=
  ⟨_, .call _ _ 100 c (.ref 0) (config true) rfl complete0 complete5 disjoint05 (.nil _)⟩

/-- The passes of `config2` run in their order. -/
example : ∃ sp : PathFinder String, Finds sp ∧ ∀ c : Compiler String,
    pathOf sp (construct c config2.passes) =
      .ok [⟨c.made, "set_clock", setClock⟩, ⟨c.made + 1, "hardware_compile", instructions⟩] := by
  obtain ⟨sp, hsp⟩ := exists_finder (A := String)
  exact ⟨sp, hsp, fun c => pathOf_construct hsp c (by simp [config2, Config.passes])⟩

end Verif.Compile.Examples
