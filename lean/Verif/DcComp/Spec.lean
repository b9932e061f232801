/-
What a compensation pulse and a decomposed pulse are to be.
-/
import Verif.DcComp.Model

namespace Verif.DcComp.Spec

open Verif.DcComp

/-- What is played by the operations themselves on a port with the baseband clock. -/
def OnPort (port : String) (i : Info) : Prop := i.port = some port ∧ i.clock = "cl0.baseband"

instance (port : String) (i : Info) : Decidable (OnPort port i) := by unfold OnPort; infer_instance

/-- The area of a pulse: the amplitude of a square times its duration, otherwise the mean of the samples times the
duration. -/
def area (rate : Rat) (i : Info) : Rat :=
  match i.wf with
  | .square a => a * i.dur
  | .sampled f => (f rate).sum / (f rate).length * i.dur
  | .none => 0

/-- A pulse that has an area: there is a waveform, and at least one sample of it. -/
def HasArea (rate : Rat) (i : Info) : Prop :=
  match i.wf with
  | .square _ => True
  | .sampled f => f rate ≠ []
  | .none => False

/-- The total area on a port. -/
def total (rate : Rat) (port : String) (is : List Info) : Rat :=
  ((is.filter (fun i => decide (OnPort port i))).map (area rate)).sum

/-- All entries of `pulse_info` of a list of operations. -/
def played (ops : List Op) : List Info := ops.flatMap Op.infos

/-- A square pulse as it is played: with an amplitude and a duration that are numbers. -/
def asInfo (amp dur t0 : Rat) (port : String) : Info :=
  ⟨some port, "cl0.baseband", t0, dur, .square amp, none⟩

/-- The amplitude at time `t` of pulses of amplitude `amp` played one after the other from time 0 on; 0 outside. -/
def signal (amp : Rat) : List Rat → Rat → Rat
  | [], _ => 0
  | d :: ds, t => if t < 0 then 0 else if t < d then amp else signal amp ds (t - d)

end Verif.DcComp.Spec
