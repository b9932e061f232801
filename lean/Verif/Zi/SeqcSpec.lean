/-
Specification: what a sequencer of Zurich Instruments does.
-/
import Verif.Zi.Seqc
import Verif.Common.Dict
import Mathlib.Algebra.Order.Field.Rat

namespace Verif.Zi.Spec

open Verif.Zi

/-- Clock cycles of a command, as the comments in the code say: `wait` of an HDAWG takes three more than its
argument, `setTrigger` of a sum one more for every addition of the first two; `startQA` takes 7. -/
def clocks : Dev → Cmd → Nat
  | .hdawg, .wait n => n + 3
  | .uhfqa, .wait n => n
  | _, .setTrigger [] => 1
  | _, .setTrigger [_] => 1
  | _, .setTrigger [_, _] => 2
  | _, .setTrigger (_ :: _ :: _ :: _) => 3
  | _, .startQA => 7
  | .hdawg, .play _ => 3
  | .uhfqa, .play _ => 0
  | _, .table _ => 0
  | _, .waitTrigger _ => 0

/-- What happens: the samples that start to be played (none, if the sequencer has no such waveform), or the
start of an acquisition. -/
inductive Event (α : Type) where
  | samples (v : Option (List α))
  | acquire
deriving DecidableEq

/-- What a command starts. -/
def effect {α : Type} (p : Prog α) : Cmd → Option (Event α)
  | .table e => some (.samples ((Dict.get? p.table e).bind (Dict.get? p.waves)))
  | .play k => some (.samples (Dict.get? p.waves k))
  | .startQA => some .acquire
  | _ => none

/-- What happens when commands are executed from clock cycle `t` on. -/
def run {α : Type} (d : Dev) (p : Prog α) : Int → List Cmd → List (Int × Event α)
  | _, [] => []
  | t, c :: rest => ((effect p c).toList.map fun e => (t, e)) ++ run d p (t + clocks d c) rest

/-- Clock cycles that commands take. -/
def duration (d : Dev) (cmds : List Cmd) : Int := (cmds.map fun c => (clocks d c : Int)).sum

/-- Does a repetition wait for a trigger? -/
def Triggered {α : Type} (p : Prog α) : Prop := ∃ t rest, p.body = .waitTrigger t :: rest

/-- The clock cycle when the first instruction of an HDAWG can start: after the markers were set. -/
def afterStart (markers : List String) (trigger : Option Nat) : Int :=
  match markers, trigger with
  | [], some _ => 0
  | [], none => 2
  | [_], _ => 1
  | [_, _], _ => 2
  | _ :: _ :: _ :: _, _ => 3

/-- `Starts trig length r k`: repetition `r`, which takes `length` seconds, is started by trigger `k`, if triggers come
at the times `trig 0`, `trig 1`, …  The first one starts the first repetition; after it, those that come while it is
executed are missed. -/
inductive Starts (trig : Nat → Rat) (length : Rat) : Nat → Nat → Prop where
  | first : Starts trig length 0 0
  | next {r k k' : Nat} : Starts trig length r k → k < k' → trig k + length ≤ trig k' →
      (∀ j, k < j → j < k' → trig j < trig k + length) → Starts trig length (r + 1) k'

/-- What an instruction is meant to do, with this table of waveforms. -/
def meant {ι α : Type} (wf : ι → Option (List α)) (i : Ins ι) : Int × Event α :=
  (i.clock, if i.acq then .acquire else .samples (wf i.wave))

/-- Instructions are apart: the first starts at clock cycle `first` or later, and every other one `gap`
clock cycles after the one before, or later. -/
def Apart {ι : Type} (gap : Ins ι → Int) : Int → List (Ins ι) → Prop
  | _, [] => True
  | first, i :: rest => first ≤ i.clock ∧ Apart gap (i.clock + gap i) rest

end Verif.Zi.Spec
