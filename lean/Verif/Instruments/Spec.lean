/-
What the instructions of the instruments should be.
-/
import Verif.Instruments.Model

namespace Verif.Instruments.Spec

open Verif.Connect (Path ModType)
open Verif.Instruments

variable {ν ρ π α : Type}

/-! ### Clocks -/

mutual

/-- All definitions of clocks in a schedule: first its own, then those of its operations in order. -/
def definitions : Op ρ → List (String × ρ)
  | .leaf => []
  | .flow b => definitions b
  | .sched r ops => r ++ allDefinitions ops

def allDefinitions : List (Op ρ) → List (String × ρ)
  | [] => []
  | o :: ops => definitions o ++ allDefinitions ops

end

/-- Clocks as the schedule defines them: each has one of its definitions, and if all definitions agree it is there. -/
def Clocks (schedule : Op ρ) (res : List (String × ρ)) : Prop :=
  (∀ clock v, Dict.get? res clock = some v → (clock, v) ∈ definitions schedule) ∧
  ∀ clock v, (clock, v) ∈ definitions schedule → (∀ v', (clock, v') ∈ definitions schedule → v' = v) →
    Dict.get? res clock = some v

/-! ### Settings -/

/-- The user has given the option this value for this port-clock. -/
def Given (opts : List (String × Option (List (String × ν)))) (option pc : String) (v : ν) : Prop :=
  ∃ m, (option, some m) ∈ opts ∧ (pc, v) ∈ m

/-- The slot is used by some port-clock. -/
def Used (c : Cluster) (slot : Nat) : Prop := ∃ e ∈ c.paths, e.2.module = slot

/-- What the settings of a module should be. -/
structure Right (opts : List (String × Option (List (String × ν)))) (c : Cluster) (slot : Nat) (m : ModuleCfg ν) :
    Prop where
  kind : (slot, m.kind) ∈ c.modules
  options : ∀ o pc v, (∃ d, Dict.get? m.options o = some d ∧ Dict.get? d pc = some v) ↔
    Given opts o pc v ∧ ∃ p, (pc, p) ∈ c.paths ∧ p.module = slot
  paths : ∀ pc p, Dict.get? m.paths pc = some p ↔ (pc, p) ∈ c.paths ∧ p.module = slot
  los : ∀ lo p, Dict.get? m.los lo = some p ↔ (lo, p) ∈ c.los ∧ p.module = slot

/-- A configuration without repeated keys. -/
structure Tidy (opts : List (String × Option (List (String × ν)))) (cs : List (String × Cluster)) : Prop where
  options : (Dict.keys opts).Nodup
  values : ∀ o m, (o, some m) ∈ opts → (Dict.keys m).Nodup
  clusters : (Dict.keys cs).Nodup
  modules : ∀ e ∈ cs, (Dict.keys e.2.modules).Nodup
  paths : ∀ e ∈ cs, (Dict.keys e.2.paths).Nodup
  los : ∀ e ∈ cs, (Dict.keys e.2.los).Nodup

/-- The external trigger of a cluster fits the rest of the configuration: if the slot is used it is a QTM; port-clocks at
the same channel are digital inputs, and have the same threshold; if they have none the trigger has one. -/
def TriggerFits (analog : ν → Option Rat) (opts : List (String × Option (List (String × ν)))) (c : Cluster) (s : Sync) : Prop :=
  (Used c s.slot → ∀ k, (s.slot, k) ∈ c.modules → k = .qtm) ∧
  ∀ pc p, (pc, p) ∈ c.paths → p.module = s.slot → s.channel = p.chan.idx + 1 →
    p.chan.mode = .digital ∧ p.chan.dir = .input ∧
      ((¬ ∃ v, Given opts "digitization_thresholds" pc v) → s.threshold ≠ none) ∧
      ∀ v, Given opts "digitization_thresholds" pc v → s.threshold = analog v

end Verif.Instruments.Spec
