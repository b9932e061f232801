/-
Examples for C81, and configurations that the code treats differently from what one expects.
-/
import Verif.Instruments.Claims

set_option synthInstance.maxHeartbeats 400000
set_option synthInstance.maxSize 1000

namespace Verif.Instruments.Examples

open Verif.Connect (Path ModType Chan)
open Spec

/-- A path of a channel of cluster `c`. -/
def path (slot : Nat) (ch : Chan) : Path := ⟨"c", slot, ch, none⟩

/-- A cluster with a QCM, a QRM and a QTM; the QRM is not used. -/
def cluster : Cluster where
  modules := [(1, .qcm), (2, .qrm), (3, .qtm)]
  sync := some ⟨3, 5, some (1 / 2)⟩
  config := "internal"
  paths := [("q0:mw-q0.01", path 1 ⟨.complex, .output, 0⟩), ("in-digital", path 3 ⟨.digital, .input, 4⟩)]
  los := [("lo0", path 1 ⟨.complex, .output, 0⟩)]

/-- Another cluster, not used. -/
def idle : Cluster := ⟨[(1, .qcm)], none, "external", [], []⟩

def clusters : List (String × Cluster) := [("c", cluster), ("d", idle)]

/-- Options: latencies, and the threshold of the input.  The port-clock `x-y` is not used. -/
def options : List (String × Option (List (String × Rat))) :=
  [("latency_corrections", some [("q0:mw-q0.01", 20), ("x-y", 4)]), ("digitization_thresholds", some [("in-digital", 1 / 2)])]

/-- Programs: the options of the module. -/
def program (_ : List (String × Rat)) (_ : String) (slot : Nat) (m : ModuleCfg Rat) :
    Except Err (Option (List (Nat × String × String × Rat))) :=
  .ok (some (m.options.flatMap fun o => o.2.map fun e => (slot, o.1, e.1, e.2)))

def compiled (opts : List (String × Option (List (String × Rat)))) (cs : List (String × Cluster)) (los : List Lo) :
    Except Err (List (String × Component (Nat × String × String × Rat) Nat)) :=
  hwCompile some program (.sched [("q0.01", 5000000000)] [.flow (.sched [("q0.12", 4000000000)] [.leaf])]) opts cs los 7 100

theorem tidy : Tidy options clusters := by
  refine ⟨by decide +kernel, ?_, by decide +kernel, by decide +kernel, by decide +kernel, by decide +kernel⟩
  intro o m h
  simp only [options, List.mem_cons, Prod.mk.injEq, Option.some.injEq, List.not_mem_nil, or_false] at h
  rcases h with ⟨-, rfl⟩ | ⟨-, rfl⟩ <;> decide +kernel

theorem dicts : Dicts (Op.sched [("q0.01", (5000000000 : Rat))] [.flow (.sched [("q0.12", 4000000000)] [.leaf])]) := by
  refine .sched (by simp [Dict.keys]) ?_
  intro o ho
  obtain rfl := List.mem_singleton.mp ho
  refine .flow (.sched (by simp [Dict.keys]) ?_)
  intro o ho
  obtain rfl := List.mem_singleton.mp ho
  exact .leaf

/-- The hypotheses of `accepted` hold, so the example compiles. -/
theorem compiles : ∃ out, compiled options clusters [⟨"lo0", some 4900000000, 13⟩, ⟨"lo1", none, 13⟩] = .ok out := by
  refine (accepted (fun _ _ _ _ => ⟨_, rfl⟩) tidy).mpr ⟨by decide +kernel, ?_⟩
  intro name c hc hp
  simp only [clusters, List.mem_cons, Prod.mk.injEq, List.not_mem_nil, or_false] at hc
  rcases hc with ⟨-, rfl⟩ | ⟨-, rfl⟩
  · refine ⟨?_, ?_, ?_⟩
    · intro e he
      simp only [cluster, List.mem_cons, List.not_mem_nil, or_false] at he
      rcases he with rfl | rfl
      · exact ⟨.qcm, by simp [cluster, path]⟩
      · exact ⟨.qtm, by simp [cluster, path]⟩
    · intro e he
      simp only [cluster, List.mem_cons, List.not_mem_nil, or_false] at he
      subst he
      exact ⟨⟨("q0:mw-q0.01", path 1 ⟨.complex, .output, 0⟩), by simp [cluster], rfl⟩, .qcm, by simp [cluster, path]⟩
    · intro s hs
      simp only [cluster, Option.some.injEq] at hs
      subst hs
      constructor
      · intro _ k hk
        simpa [cluster] using hk
      · intro pc p hpp hm hch
        simp only [cluster, List.mem_cons, Prod.mk.injEq, List.not_mem_nil, or_false] at hpp
        rcases hpp with ⟨rfl, rfl⟩ | ⟨rfl, rfl⟩
        · simp [path] at hm
        · refine ⟨rfl, rfl, fun _ => by simp, ?_⟩
          rintro v ⟨m, hm', hv⟩
          simp only [options, List.mem_cons, Prod.mk.injEq, Option.some.injEq, List.not_mem_nil, or_false] at hm'
          rcases hm' with ⟨h, -⟩ | ⟨-, rfl⟩
          · simp at h
          · simp only [List.mem_cons, Prod.mk.injEq, true_and, List.not_mem_nil, or_false] at hv
            subst hv
            rfl
  · exact absurd rfl hp

/-- What comes out: the modules with their options. -/
theorem programs : (compiled options clusters [⟨"lo0", some 4900000000, 13⟩, ⟨"lo1", none, 13⟩]).map
    (fun out => out.map fun e => (e.1, e.2.modules)) = .ok
    [("c", [(1, [(1, "latency_corrections", "q0:mw-q0.01", 20)]),
        (3, [(3, "digitization_thresholds", "in-digital", 1 / 2)])]), ("generic", [])] := by
  decide +kernel

/-- The rest of it. -/
theorem programs_rest : (compiled options clusters [⟨"lo0", some 4900000000, 13⟩, ⟨"lo1", none, 13⟩]).map
    (fun out => out.map fun e => (e.1, e.2.params, e.2.acquisitions, e.2.repetitions)) = .ok
    [("c", [], some 7, some 100),
      ("generic", [(("lo0", "frequency"), 4900000000), (("lo0", "power"), 13)], none, none)] := by
  decide +kernel

/-- A clock that an inner schedule defines differently has the inner frequency in the outer schedule as well. -/
theorem inner_clock_wins : allResources (Op.sched [("q0.01", (5 : Rat))] [.leaf, .sched [("q0.01", 6)] [.leaf]]) =
    [("q0.01", 6)] := by decide +kernel

/-- An option that is set to nothing cannot be compiled, although it is a valid configuration. -/
theorem option_none_fails : (compiled [("latency_corrections", none)] clusters []).map (fun _ => ()) =
    .error .attributeError := by decide +kernel

/-- A cluster whose name is `generic` gets the parameters of the local oscillators, and neither data of acquisitions nor
repetitions. -/
theorem cluster_generic : (compiled options [("generic", cluster)] [⟨"lo0", some 4900000000, 13⟩]).map
    (fun out => out.map fun e => (e.1, e.2.settings.isSome, e.2.params, e.2.acquisitions, e.2.repetitions)) = .ok
    [("generic", true, [(("lo0", "frequency"), 4900000000), (("lo0", "power"), 13)], none, none)] := by
  decide +kernel

/-- The trigger must have the threshold itself: a threshold in the options alone is refused, although the error message
recommends it. -/
theorem threshold_in_options_refused :
    (compiled options [("c", { cluster with sync := some ⟨3, 5, none⟩ })] []).map (fun _ => ()) = .error .valueError := by
  decide +kernel

/-- A trigger at a module that is no QTM is refused if the schedule uses that module, and accepted if not. -/
theorem trigger_wrong_module :
    (compiled options [("c", { cluster with sync := some ⟨1, 5, some 1⟩ })] []).map (fun _ => ()) = .error .valueError ∧
    (compiled options [("c", { cluster with sync := some ⟨2, 5, some 1⟩ })] []).map (fun _ => ()) = .ok () := by
  decide +kernel

end Verif.Instruments.Examples
