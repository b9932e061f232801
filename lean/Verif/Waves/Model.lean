/-
Waveforms in the sequencer's memory: normalisation, the waveform dictionary and the gains.

Samples are exact rationals.  Python's `hash` of the rounded bytes is an arbitrary function
`hash` on the rounded samples.
-/
import Verif.Numeric.Model

namespace Verif.Waves

open Verif.Numeric

/-- Exceptions. -/
inductive Err where
  | runtimeError | valueError
deriving DecidableEq, Repr

/-- An entry of the waveform dict: name (hash), samples, index (helpers.py:158-159). -/
structure Entry (K : Type) where
  key : K
  data : List Rat
  index : Nat

variable {K : Type} [DecidableEq K]

/-- `wf_data.round(decimals=12)` (helpers.py:131), as integers. -/
def round12 (w : List Rat) : List Int := w.map (fun x => pyRound (x * 1000000000000))

/-- `find_first_free_wf_index` (helpers.py:161-166): count up until an index is not in use.  The
loop is cut off after as many rounds as there are entries plus one; `firstFree_spec` shows that
it has always ended by then. -/
def firstFree (used : List Nat) : Nat :=
  ((List.range (used.length + 1)).find? (fun i => !used.contains i)).getD 0

/-- `add_to_wf_dict_if_unique` (helpers.py:135-177) for real arrays. -/
def addIfUnique (hash : List Int → K) (d : List (Entry K)) (w : List Rat) :
    List (Entry K) × Nat :=
  match d.find? (fun e => e.key == hash (round12 w)) with
  | some e => (d, e.index)
  | none =>
    let i := firstFree (d.map Entry.index)
    (d ++ [⟨hash (round12 w), w, i⟩], i)

/-- Position of the first maximum, `np.argmax(np.abs(..))`; with the value so far. -/
def argmaxFrom : Rat → List Rat → Rat
  | best, [] => best
  | best, x :: xs => if |best| < |x| then argmaxFrom x xs else argmaxFrom best xs

/-- The sample with the largest absolute value, the first of them (helpers/waveforms.py:472-476);
empty waveforms raise in numpy and are 0 here. -/
def peak : List Rat → Rat
  | [] => 0
  | x :: xs => argmaxFrom x xs

/-- One part (real or imaginary) of `normalize_waveform_data` (helpers/waveforms.py:449-487):
divided by the peak, or zeros.  `math.isclose(amp, 0.0)` holds only for zero, as its tolerance is
relative. -/
def normalise (w : List Rat) : List Rat :=
  if peak w = 0 then w.map (fun _ => 0) else w.map (fun x => x / peak w)

/-- `non_null` (operation_handling/pulses.py:171-172), `IMMEDIATE_SZ_GAIN = 65536`. -/
def nonNull (amp : Rat) : Bool := decide (2 / 65536 ≤ |amp|)

/-- One path of `GenericPulseStrategy.generate_data` (operation_handling/pulses.py:174-183). -/
def addPath (hash : List Int → K) (d : List (Entry K)) (w : List Rat) :
    List (Entry K) × Option Nat :=
  if nonNull (peak w) then ((addIfUnique hash d (normalise w)).1,
    some (addIfUnique hash d (normalise w)).2)
  else (d, none)

/-- `GenericPulseStrategy.generate_data` (operation_handling/pulses.py:155-186): dict, and the
indices for the two paths.  (The check for complex values on real outputs is left out.) -/
def generateData (hash : List Int → K) (d : List (Entry K)) (re im : List Rat) :
    List (Entry K) × Option Nat × Option Nat :=
  let r := addPath hash d re
  let i := addPath hash r.1 im
  (i.1, r.2, i.2)

/-- What `GenericPulseStrategy.insert_qasm` emits (operation_handling/pulses.py:208-237):
gains and waveform indices of the two paths, or `none` for `upd_param`. -/
def emitPulse (i0 i1 : Option Nat) (ampI ampQ : Rat) :
    Except Numeric.Err (Option (Int × Int × Nat × Nat)) :=
  match i0, i1 with
  | none, none => .ok none
  | _, _ =>
    (expandAwg ampI 65536).bind (fun gI =>
      (expandAwg ampQ 65536).bind (fun gQ =>
        .ok (some (gI, gQ, (i0.or i1).getD 0, (i1.or i0).getD 0))))

/-- `_validate_awg_dict` (compiler_abc.py:451-466). -/
def validate (d : List (Entry K)) : Except Err Unit :=
  if ¬ (d.map Entry.index).Nodup then .error .runtimeError
  else if (d.map (fun e => e.data.length)).sum > 16384 then .error .runtimeError
  else .ok ()

/-- The check of acquisition weights (operation_handling/acquisitions.py:242-252):
`abs(max(waveform_data)) > 1` (for samples; of none, `max` would raise). -/
def weightTooLarge (w : List Rat) : Bool :=
  match w with
  | [] => false
  | x :: xs => decide (1 < |xs.foldl max x|)

end Verif.Waves
