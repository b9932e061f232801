/-
Programs of the devices of Zurich Instruments (quantify_scheduler/backends/zhinst_backend.py:93-109, 434-462,
621-649, 1659-1788, 1985-2020, 2274-2381; types/zhinst.py:192-270).

Simplifications:
* `wave` of a row is `waveform_op_id` after `acq_index` was taken out of it (444-449); `shape` of a row is the
  corrected waveform of its pulse or integration weights (2326-2380), `none` if there is none.
* Gains and offsets of an output are an arbitrary type `σ`.
* Of the channels of a UHFQA only the trigger of the first one is modelled.
-/
import Verif.Zi.Seqc

namespace Verif.Zi

open Verif.Numeric (pyRound)

/-- `waveform_id` of a row (434-462): the identifier of the waveform and the sample with one decimal, which is
`none` (`nan`) if the row has no channel. -/
def waveId {ω : Type} (e : Row ω × Option (Int × Rat)) : ω × Option Int :=
  (e.1.wave, e.2.map fun p => pyRound (|p.2| * 10))

/-- `construct_waveform_table` (2274-2381): the first row that has the identifier decides. -/
def waveOf {ω α : Type} [DecidableEq ω] (shape : Row ω → Option (List α)) (rows : List (Row ω × Option (Int × Rat)))
    (w : ω × Option Int) : Option (List α) :=
  match rows.find? fun e => decide (waveId e = w) with
  | none => none
  | some e => if e.1.chan.isSome then shape e.1 else none

/-- `_get_instruction_list` (621-649); a row without clock cycle has no channel, and is not in the table of an
output. -/
def instruction {ω : Type} (e : Row ω × Option (Int × Rat)) : Ins (ω × Option Int) :=
  ⟨waveId e, e.1.acq, (e.2.map Prod.fst).getD 0⟩

/-- The rows of an output: `timing_table["hardware_channel"] == f"{device.name}.awg{awg_index}"`. -/
def rowsOf {ω : Type} (device : String) (awg : Nat) (rows : List (Row ω × Option (Int × Rat))) :
    List (Row ω × Option (Int × Rat)) :=
  rows.filter fun e => decide (e.1.chan.map (fun c => (c.device, c.awg)) = some (device, awg))

/-- `zhinst.Output`. -/
structure Out (σ : Type) where
  settings : σ
  markers : List String
  trigger : Option Nat
deriving DecidableEq, Repr

/-- `zhinst.Device` of type `HDAWG4` (two AWGs) or `HDAWG8` (four). -/
structure Hdawg (σ : Type) where
  name : String
  awgs : Nat
  grouping : Nat
  channel0 : Out σ
  channel1 : Option (Out σ) := none
  channel2 : Option (Out σ) := none
  channel3 : Option (Out σ) := none
deriving Repr

/-- `generate_channel_list` (types/zhinst.py:252-270). -/
def Hdawg.channels {σ : Type} (d : Hdawg σ) : List (Out σ) :=
  [d.channel0] ++ d.channel1.toList ++ d.channel2.toList ++ d.channel3.toList

/-- `sequencer_step` (zhinst_backend.py:93-109, 1703-1707). -/
def Hdawg.step {σ : Type} (d : Hdawg σ) : Except Err Nat :=
  match d.awgs, d.grouping with
  | 4, 0 => .ok 1
  | 4, 1 => .ok 2
  | 4, 2 => .ok 4
  | 2, 0 => .ok 1
  | 2, 1 => .ok 2
  | _, _ => .error .keyError

/-- `range(0, sequencer_stop, sequencer_step)` (1711, 1719). -/
def Hdawg.sequencers {σ : Type} (d : Hdawg σ) (step : Nat) : List Nat :=
  (List.range (min d.channels.length (d.awgs / step))).filter fun k => k % step = 0

/-- `schedule_duration` (1681): the maximum of the ends; 0 for an empty table (which is not compiled). -/
def scheduleEnd {ω : Type} : List (Row ω) → Rat
  | [] => 0
  | [r] => r.time + r.duration
  | r :: rest => max (r.time + r.duration) (scheduleEnd rest)

/-- The loops over the outputs (1719-1786); `i` counts them. -/
def hdawgOutputs {ω α σ : Type} [DecidableEq ω] (shape : Row ω → Option (List α)) (reps : Nat)
    (rows : List (Row ω × Option (Int × Rat))) (d : Hdawg σ) : Nat → List Nat → Except Err (List (Nat × σ × Prog α))
  | _, [] => .ok []
  | i, a :: rest =>
    match d.channels[i]?, d.channels[a]? with
    | some o, some o' =>
      match hdawgProg (waveOf shape rows) reps (scheduleEnd (rows.map Prod.fst)) o'.markers o'.trigger
          ((rowsOf d.name a rows).map instruction) with
      | .error e => .error e
      | .ok p =>
        match hdawgOutputs shape reps rows d (i + 1) rest with
        | .error e => .error e
        | .ok l => .ok ((a, o.settings, p) :: l)
    | _, _ => .error .indexError

/-- `_compile_for_hdawg` (1659-1788): for every sequencer that is used its index, the settings of its outputs and
its program. -/
def compileHdawg {ω α σ : Type} [DecidableEq ω] (shape : Row ω → Option (List α)) (reps : Nat)
    (rows : List (Row ω × Option (Int × Rat))) (d : Hdawg σ) : Except Err (List (Nat × σ × Prog α)) :=
  match d.step with
  | .error e => .error e
  | .ok step => hdawgOutputs shape reps rows d 0 (d.sequencers step)

/-- The program of a UHFQA (1985-2020). -/
def compileUhfqa {ω α : Type} [DecidableEq ω] (shape : Row ω → Option (List α)) (reps : Nat)
    (rows : List (Row ω × Option (Int × Rat))) (name : String) (trigger : Option Nat) : Except Err (Prog α) :=
  uhfqaProg (waveOf shape rows) reps trigger ((rowsOf name 0 rows).map instruction)

/-- `ensure_no_operations_overlap` (123-160): are two successive acquisitions of an output too close?  `rows` are in
the order of time. -/
def overlaps {ω : Type} : List (Row ω) → Bool
  | [] => false
  | [_] => false
  | r :: r' :: rest => decide (r'.time < r.time + r.duration) || overlaps (r' :: rest)

/-- The same, for every output; an exception is raised if there are. -/
def ensureNoOverlap {ω : Type} (rows : List (Row ω)) : Except Err Unit :=
  if rows.any fun r => r.chan.isSome && overlaps (rows.filter fun r' => decide (r'.chan = r.chan) && r'.acq) then
    .error .valueError
  else .ok ()

end Verif.Zi
