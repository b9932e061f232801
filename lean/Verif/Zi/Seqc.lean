/-
Programs of Zurich Instruments sequencers (quantify_scheduler/backends/zhinst_backend.py:621-649, 1636-1656,
1739-1779, 1791-1915, 1960-2020, 2190-2271; zhinst/seqc_il_generator.py:28-43, 487-745).

Simplifications:
* A program is the list of its commands, not its text.
* Waveform identifiers are an arbitrary type `ι`; `wf` is `numerical_wf_dict`, of which samples are an
  arbitrary type `α`.
* Markers are names (an integer in the list raises a `TypeError`).
* The conversion of waveforms to 16-bit integers and `.csv` files is not modelled.
-/
import Verif.Zi.Time

namespace Verif.Zi

/-- Commands of the sequencer.  `setTrigger []` is `setTrigger(0)`. -/
inductive Cmd where
  | setTrigger (markers : List String)
  | waitTrigger (index : Nat)
  | wait (cycles : Nat)
  | table (entry : Nat)
  | play (wave : Nat)
  | startQA
deriving DecidableEq, Repr

/-- `zhinst.Wave` or `zhinst.Acquisition` (621-649). -/
structure Ins (ι : Type) where
  wave : ι
  acq : Bool
  clock : Int
deriving DecidableEq, Repr

/-- What is put on a sequencer: the waveforms uploaded (index and samples), the entries of the command table
(index and waveform), what comes before the loop, the repetitions, and the body of the loop. -/
structure Prog (α : Type) where
  waves : List (Nat × List α)
  table : List (Nat × Nat)
  before : List Cmd
  reps : Nat
  body : List Cmd
deriving DecidableEq, Repr

/-- `drop_duplicates`: the first of every value. -/
def firsts {ι : Type} [DecidableEq ι] : List ι → List ι → List ι
  | _, [] => []
  | seen, x :: rest => if x ∈ seen then firsts seen rest else x :: firsts (x :: seen) rest

/-- `wf_id_mapping` (1749-1754): the identifiers in the order of their first use; the index is the position. -/
def waveIds {ι : Type} [DecidableEq ι] (ins : List (Ins ι)) : List ι := firsts [] (ins.map Ins.wave)

/-- `wf_id_mapping[waveform_id]`. -/
def waveIndex {ι : Type} [DecidableEq ι] (ins : List (Ins ι)) (w : ι) : Option Nat := (waveIds ins).findIdx? (· = w)

/-- `_add_wave_nodes` (1636-1656): waveforms that were not computed are skipped. -/
def uploads {ι α : Type} (wf : ι → Option (List α)) : Nat → List ι → List (Nat × List α)
  | _, [] => []
  | k, w :: rest =>
    match wf w with
    | none => uploads wf (k + 1) rest
    | some v => (k, v) :: uploads wf (k + 1) rest

/-- `add_wait` (seqc_il_generator.py:487-541): the command, which takes `delay` clock cycles. -/
def addWait (d : Dev) (delay : Int) : Except Err Cmd :=
  if delay < 0 then .error .assertionError
  else
    match d with
    | .uhfqa => .ok (.wait delay.toNat)
    | .hdawg => if delay - 3 < 0 then .error .valueError else .ok (.wait (delay - 3).toNat)

/-- Clock cycles of `setTrigger` with a list (seqc_il_generator.py:699-706). -/
def triggerClocks (markers : List String) : Int := 1 + min (markers.length - 1 : Nat) 2

/-! ### HDAWG -/

/-- The start of a repetition and the clock cycles it takes (1847-1874). -/
def hdawgStart (markers : List String) (trigger : Option Nat) : Except Err (Cmd × Int) :=
  if markers ≠ [] then .ok (.setTrigger markers, triggerClocks markers)
  else
    match trigger with
    | some t => if t = 1 ∨ t = 2 then .ok (.waitTrigger t, 0) else .error .assertionError
    | none => .ok (.setTrigger ["AWG_MARKER1", "AWG_MARKER2"], triggerClocks ["AWG_MARKER1", "AWG_MARKER2"])

/-- The loop over the instructions (1877-1899), from clock cycle `cur`; the result is the commands and the
clock cycle after them. -/
def hdawgLoop {ι : Type} (index : ι → Option Nat) : Int → List (Ins ι) → Except Err (List Cmd × Int)
  | cur, [] => .ok ([], cur)
  | cur, i :: rest =>
    if i.acq then .error .assertionError
    else if i.clock - cur < 0 then .error .valueError
    else
      match addWait .hdawg (i.clock - cur) with
      | .error e => .error e
      | .ok w =>
        match index i.wave with
        | none => .error .keyError
        | some k =>
          match hdawgLoop index i.clock rest with
          | .error e => .error e
          | .ok (cmds, last) => .ok (w :: .table k :: cmds, last)

/-- `int(x)` of a float. -/
def pyInt (x : Rat) : Int := if 0 ≤ x then ⌊x⌋ else ⌈x⌉

/-- The end of a repetition (1901-1919), from clock cycle `cur`: without trigger, the sequencer waits until
the schedule is over. -/
def hdawgEnd (duration : Rat) (trigger : Option Nat) (cur : Int) : Except Err (List Cmd) :=
  match trigger with
  | some _ => .ok [.setTrigger []]
  | none =>
    match addWait .hdawg (pyInt (duration * clockRate .hdawg) - (cur + 1)) with
    | .error e => .error e
    | .ok w => .ok [.setTrigger [], w]

/-- `_assemble_hdawg_sequence` (1791-1925) and the upload of the waveforms. -/
def hdawgProg {ι α : Type} [DecidableEq ι] (wf : ι → Option (List α)) (reps : Nat) (duration : Rat)
    (markers : List String) (trigger : Option Nat) (ins : List (Ins ι)) : Except Err (Prog α) :=
  if (waveIds ins).any fun w => (wf w).isNone then .error .keyError
  else
    match hdawgStart markers trigger with
    | .error e => .error e
    | .ok (first, clocks) =>
      match hdawgLoop (waveIndex ins) clocks ins with
      | .error e => .error e
      | .ok (cmds, cur) =>
        match hdawgEnd duration trigger cur with
        | .error e => .error e
        | .ok last => .ok
            { waves := uploads wf 0 (waveIds ins)
              table := (List.range (waveIds ins).length).map fun k => (k, k)
              before := [.setTrigger []]
              reps := reps
              body := first :: cmds ++ last }

/-! ### UHFQA -/

/-- The loop over the instructions (2241-2266). -/
def uhfqaLoop {ι : Type} (index : ι → Option Nat) : Int → List (Ins ι) → Except Err (List Cmd)
  | _, [] => .ok []
  | cur, i :: rest =>
    if i.clock - cur < 0 then .error .valueError
    else
      match addWait .uhfqa (i.clock - cur) with
      | .error e => .error e
      | .ok w =>
        if i.acq then
          match uhfqaLoop index (i.clock + 7) rest with
          | .error e => .error e
          | .ok cmds => .ok (w :: .startQA :: cmds)
        else
          match index i.wave with
          | none => .error .keyError
          | some k =>
            match uhfqaLoop index i.clock rest with
            | .error e => .error e
            | .ok cmds => .ok (w :: .play k :: cmds)

/-- `_assemble_uhfqa_sequence` (2190-2271) and the upload of the waveforms. -/
def uhfqaProg {ι α : Type} [DecidableEq ι] (wf : ι → Option (List α)) (reps : Nat) (trigger : Option Nat)
    (ins : List (Ins ι)) : Except Err (Prog α) :=
  match trigger with
  | none => .error .typeError
  | some t =>
    if ¬(t < 5 ∧ 0 < t) then .error .assertionError
    else
      match uhfqaLoop (waveIndex ins) 0 ins with
      | .error e => .error e
      | .ok cmds => .ok
          { waves := uploads wf 0 (waveIds ins), table := [], before := [], reps := reps
            body := .waitTrigger t :: cmds }

end Verif.Zi
