/-
Specification of a complete sequencer program: `Forest.run` (Spec.lean) repeated.
-/
import Verif.Q1.WellFormed

namespace Verif.Q1

/-- Everything the code generation of one sequencer is given. -/
structure Program where
  /-- set-up instructions before `wait_sync`: name, values, duration -/
  pre : List (Mnemonic × List Int × Nat)
  /-- append-mode bin registers with the first bin -/
  bins : List (Reg × Nat)
  /-- the operations -/
  ops : Forest
  /-- total duration of the schedule -/
  total : Int
  /-- repetitions of the schedule -/
  reps : Nat
  /-- latency correction of this sequencer -/
  latency : Int
  /-- analog module (phase reset at the start of each repetition) or timetag module -/
  analog : Bool

/-- Code generation for a program (compiler_abc.py:526-679). -/
def Program.compile (p : Program) (avail : List Reg) : Except Err Qasm :=
  genBody (genHeader avail p.pre p.bins) p.ops.flatten p.total p.reps p.latency p.analog

/-- When `wait_sync` is reached. -/
def Program.syncTime (p : Program) : Int := ((p.pre.map (fun i => i.2.2)).sum : Nat)

/-- When the first repetition starts: `wait_sync 4`, `upd_param 4`, then 4 ns plus the latency
correction. -/
def Program.start (p : Program) : Int := p.syncTime + 12 + p.latency

/-- Length of one repetition: 4 ns of overhead plus the schedule. -/
def Program.period (p : Program) : Int := 4 + p.total

/-- The initial bins. -/
def initBins (bins : List (Reg × Nat)) : RegFile :=
  bins.foldl (fun f b => f.set b.1 b.2) (fun _ => 0)

/-- The set-up events, from time `t`. -/
def preEvents : Int → List (Mnemonic × List Int × Nat) → List Event
  | _, [] => []
  | t, i :: is =>
    (if i.1 = .wait then [] else [⟨t, i.1, i.2.1⟩]) ++ preEvents (t + i.2.2) is

/-- Events at the start of a repetition. -/
def repEvents (analog : Bool) (t : Int) : List Event :=
  if analog then [⟨t, .resetPh, []⟩, ⟨t, .updParam, []⟩] else []

/-- One repetition starting at `B`: operations take place at their scheduled time, counted from
4 ns after the start. -/
def Program.repetition (env : Env) (p : Program) (B : Int) : Behaviour := fun b =>
  ((p.ops.run env (B + 4) b).1, repEvents p.analog B ++ (p.ops.run env (B + 4) b).2)

/-- **What the program must do**: the set-up, then `reps` repetitions, one every `period`. -/
def Program.trace (env : Env) (p : Program) : List Event :=
  preEvents 0 p.pre ++ [⟨p.syncTime, .waitSync, []⟩, ⟨p.syncTime + 4, .updParam, []⟩] ++
    (iterate (p.repetition env) p.period p.reps p.start (initBins p.bins)).2

/-- The trigger counters do not change during the conditionals of any repetition. -/
def Program.Stable (env : Env) (p : Program) : Prop :=
  ∀ i : Nat, i < p.reps → p.ops.Stable env (p.start + i * p.period + 4)

/-- Conditions on the program: see `Forest.Ok`. -/
structure Program.Ok (A : List Reg) (p : Program) : Prop where
  ops : p.ops.Ok A
  reps : 1 ≤ p.reps ∧ p.reps < 2 ^ 32
  total : p.total < horizon
  latency : 4 + p.latency < horizon

end Verif.Q1
