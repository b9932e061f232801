/-
Warnings of the compiler: `_clocks_compatible`
(/repo/quantify_scheduler/backends/circuit_to_device.py, lines 387-445, with its call in lines 216-222)
and `_assert_correct_time_ref_used_with_timestamp`
(/repo/quantify_scheduler/backends/qblox/timetag.py, lines 116-156).

Simplifications: frequencies are NaN or rational; arrays have at most one dimension; numpy raises
a `ValueError` when it compares arrays that cannot be broadcast (numpy 1.25 and later); warnings
are values that are returned, without their texts.
-/
import Verif.AcqSet.Model

namespace Verif.Warnings

/-! ### Clocks -/

/-- A frequency; `none` is NaN. -/
abbrev Freq := Option Rat

/-- What `np.asarray` makes of a clock frequency: a number, or an array. -/
inductive Freqs where
  | scalar (f : Freq)
  | array (fs : List Freq)
deriving DecidableEq, Repr

/-- All entries. -/
def Freqs.entries : Freqs → List Freq
  | .scalar f => [f]
  | .array fs => fs

/-- `==` of floats: NaN is equal to nothing. -/
def eqF : Freq → Freq → Bool
  | some x, some y => decide (x = y)
  | _, _ => false

/-- Broadcasting of two operands in numpy: pairs of entries; `none` is a `ValueError`. -/
def broadcast : Freqs → Freqs → Option (List (Freq × Freq))
  | .scalar x, y => some (y.entries.map fun b => (x, b))
  | .array xs, .scalar y => some (xs.map fun a => (a, y))
  | .array xs, .array ys =>
    if xs.length = ys.length then some (xs.zip ys)
    else match xs, ys with
      | [x], ys => some (ys.map fun b => (x, b))
      | xs, [y] => some (xs.map fun a => (a, y))
      | _, _ => none

/-- `_clocks_compatible` (circuit_to_device.py:419-445): whether they are compatible, and whether
a warning is emitted. -/
def clocksCompatible (device sched : Freqs) : Bool × Bool :=
  if device.entries.all (·.isNone) then (true, false)
  else match broadcast device sched with
    | none => (false, false)
    | some ps => if ps.all (fun p => p.1.isNone || eqF p.1 p.2) then (true, false) else (false, true)

/-- The loop over the clocks of the device configuration (circuit_to_device.py:218-222): all
frequencies, and the clocks for which a warning is emitted. -/
def addDevice : List (String × Freqs) → List (String × Freqs) → List (String × Freqs) × List String
  | [], all => (all, [])
  | (c, f) :: r, all =>
    match Dict.get? all c with
    | none => addDevice r (Dict.set all c f)
    | some s =>
      let (all', ws) := addDevice r all
      (all', if (clocksCompatible f s).2 then c :: ws else ws)

/-! ### Time references -/

open AcqSet (Acq Proto TimeRef)

/-- The strategies of a sequencer of a QTM, as far as they matter: acquisitions,
`TimestampStrategy`, others. -/
inductive Strat where
  | acq (a : Acq)
  | timestamp
  | other
deriving DecidableEq, Repr

/-- The two warnings. -/
inductive Warning where
  /-- timetags relative to a timestamp, but there is none -/
  | missing
  /-- a timestamp, but timetags are not relative to it -/
  | unused
deriving DecidableEq, Repr

/-- The acquisitions of a sequencer (compiler_abc.py, `prepare`: those strategies that are
acquisitions). -/
def acqs : List Strat → List Acq
  | [] => []
  | .acq a :: l => a :: acqs l
  | _ :: l => acqs l

/-- `_assert_correct_time_ref_used_with_timestamp` (timetag.py:116-156). -/
def timeRefWarning (l : List Strat) : Except AcqSet.Err (Option Warning) :=
  match (acqs l).find? (fun a => decide (a.proto = .timetag)) with
  | none => .ok none
  | some a =>
    match a.timing with
    | none => .error .keyError
    | some t =>
      let present := l.any fun s => decide (s = .timestamp)
      if t.ref = .timestamp ∧ present = false then .ok (some .missing)
      else if t.ref ≠ .timestamp ∧ present = true then .ok (some .unused)
      else .ok none

end Verif.Warnings
