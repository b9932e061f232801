/-
Specification for the mock readout module.
-/
import Verif.MockRom.Model

namespace Verif.MockRom

open Verif.AcqIndices (Info)

variable {Ch U K : Type}

/-- The schedulable is an averaged `SSBIntegrationComplex` without pulses, and this is its acquisition. -/
def Measures (i : Item Ch U K) (a : Info Ch U) : Prop :=
  ∃ o b rest, i.op = .plain o ∧ o.pulses = [] ∧ o.cls = .ssb ∧ o.acqs = b :: rest ∧ b.info = a ∧
    a.mode = .average

/-- The schedulable is a `Trace` without pulses, and this is its acquisition. -/
def Traces (i : Item Ch U K) (b : AcqInfo Ch U) : Prop :=
  ∃ o rest, i.op = .plain o ∧ o.pulses = [] ∧ o.cls = .trace ∧ o.acqs = b :: rest

/-- The schedulable plays a pulse; this is its first. -/
def Plays (i : Item Ch U K) (hash : String) (p : Pulse K) : Prop :=
  ∃ o rest, i.op = .plain o ∧ o.hash = hash ∧ o.pulses = p :: rest

/-- The port "q0:res" is connected to inputs whose names contain no underscore and not the text "TRACE". -/
def PlainPorts (cfg : Config K) : Prop :=
  ∃ ps, cfg.readout = some ps ∧ ps ≠ [] ∧ ∀ p ∈ ps, ∃ q : HwPort, p = some q ∧ q.second = none ∧ q.trace = false

/-- `prepare`, `start` and `retrieve_acquisition`. -/
def measure [DecidableEq Ch] [Mul K] (c : Comp Ch U K) (s : Settings Ch U K) (draws : Nat → K) :
    Except Err (DS Ch U K) :=
  match start (prepare c s) draws with
  | .error e => .error e
  | .ok c => retrieve c

end Verif.MockRom
