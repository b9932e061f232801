/-
Model of the software distortion corrections in `quantify_scheduler/backends/corrections.py`.

The list `operation.data["pulse_info"]` is changed in place, and a substituted operation gets the same
list.  Lists are therefore objects on a heap here; an operation has the number of its list.
-/
import Verif.Shapes.Model

namespace Verif.Distortion

open Verif.Shapes (Err Shape)

set_option autoLift false

/-- An entry of `pulse_info`: what `distortion_correct_pulse` and the test for voltage offsets read.
`other` is everything else (reference magnitude and so on). -/
structure Pulse (X : Type) where
  port : Option String
  clock : String
  t0 : ℝ
  duration : ℝ
  shape : Option Shape        -- `wf_func` and its parameters; `none`: no waveform
  hasOffset : Bool            -- "offset_path_I" or "offset_path_Q" is a key
  other : Option X

/-- A `SoftwareDistortionCorrection` (backends/types/common.py:76-123): `filter` is `filter_func` with its
keyword arguments.  Simplification: it returns real numbers. -/
structure Software where
  filter : List ℂ → Except Err (List ℝ)
  clipping : Option (ℝ × ℝ)
  samplingRate : ℝ

/-- A value of `distortion_corrections`: software, or hardware (also a list of those). -/
inductive Correction
  | software (s : Software)
  | hardware

/-- `f"{pulse_data['port']}-{pulse_data['clock']}"` (corrections.py:249). -/
def key {X : Type} (p : Pulse X) : String := p.port.getD "None" ++ "-" ++ p.clock

/-- `np.clip`. -/
noncomputable def clip (lo hi x : ℝ) : ℝ := min (max x lo) hi

/-- `np.linspace(start=0, stop=d, num=n)`. -/
noncomputable def linspace (d : ℝ) (n : Nat) : List ℝ :=
  (List.range n).map fun k : Nat => if n = 1 then 0 else 0 + (k : ℝ) * ((d - 0) / ((n : ℝ) - 1))

/-- `distortion_correct_pulse` (corrections.py:101-153), with the constructor of `NumericalPulse`
(operations/pulse_library.py:1072-1106). -/
noncomputable def correctPulse {X : Type} (p : Pulse X) (c : Software) : Except Err (Pulse X) := do
  let s ← match p.shape with
    | some s => pure s
    | none => .error .typeError
  let data ← Shapes.getWaveform s p.duration c.samplingRate
  let data ← c.filter data
  let data := match c.clipping with
    | some (lo, hi) => data.map (clip lo hi)
    | none => data
  let data := if data.length = 1 then data ++ data.getLast?.toList else data
  let ts := linspace p.duration data.length
  match ts.getLast?, ts.head? with
  | some l, some h =>
    return { port := p.port, clock := p.clock, t0 := p.t0, duration := l - h
             shape := some (.interpolated (data.map (fun x : ℝ => (x : ℂ))) ts)
             hasOffset := false, other := none }
  | _, _ => .error .indexError

/-- Operations: pulses and acquisitions, control flow with a body, schedules (`operations`, a dictionary).
`list` is the number of the `pulse_info` list, `kind` the class and everything else. -/
inductive Op (A K : Type)
  | leaf (list : Nat) (acqs : List A) (kind : K)
  | control (kind : K) (body : Op A K)
  | schedule (kind : K) (ops : List (Op A K))

/-- The `pulse_info` lists. -/
abbrev Heap (X : Type) := Nat → List (Pulse X)

/-- `_is_distortion_correctable` (corrections.py:156-158). -/
def correctable {X : Type} (ps : List (Pulse X)) : Bool :=
  !ps.isEmpty && !ps.any (·.hasOffset)

/-- One turn of the loop over `pulse_info` (corrections.py:248-290): the new entry, and whether it was
replaced. -/
noncomputable def correctEntry {X : Type} (cfg : String → Option Correction) (ps : List (Pulse X)) (p : Pulse X) :
    Except Err (Pulse X × Bool) :=
  match cfg (key p) with
  | none => .ok (p, false)
  | some .hardware => .ok (p, false)
  | some (.software c) => if correctable ps then (correctPulse p c).map (·, true) else .ok (p, false)

/-- The loop over `pulse_info` from position `i`, changing the list. -/
noncomputable def correctList {X : Type} (cfg : String → Option Correction) (ps : List (Pulse X)) (i : Nat) :
    (fuel : Nat) → Except Err (List (Pulse X) × Bool)
  | 0 => .ok (ps, false)
  | fuel + 1 =>
    match ps[i]? with
    | none => .ok (ps, false)
    | some p => do
      let r ← correctEntry cfg ps p
      let rest ← correctList cfg (ps.set i r.1) (i + 1) fuel
      return (rest.1, (i == 0 && r.2) || rest.2)

mutual
/-- `apply_software_distortion_corrections` (corrections.py:171-299): the heap afterwards, and the operation
that replaces this one in its container (or this one).  A substitute is a `NumericalPulse` (`num`) with the same
`pulse_info` and no acquisitions. -/
noncomputable def apply {A K X : Type} (num : K) (cfg : String → Option Correction) (h : Heap X) :
    Op A K → Except Err (Heap X × Op A K)
  | .leaf l acqs kind => do
    let r ← correctList cfg (h l) 0 (h l).length
    let h' : Heap X := fun k => if k = l then r.1 else h k
    return (h', if r.2 then .leaf l [] num else .leaf l acqs kind)
  | .control kind body => do
    let r ← apply num cfg h body
    return (r.1, .control kind r.2)
  | .schedule kind ops => do
    let r ← applyAll num cfg h ops
    return (r.1, .schedule kind r.2)
/-- The operations of a schedule one after the other (corrections.py:233-240). -/
noncomputable def applyAll {A K X : Type} (num : K) (cfg : String → Option Correction) (h : Heap X) :
    List (Op A K) → Except Err (Heap X × List (Op A K))
  | [] => .ok (h, [])
  | o :: os => do
    let r ← apply num cfg h o
    let rs ← applyAll num cfg r.1 os
    return (rs.1, r.2 :: rs.2)
end

end Verif.Distortion
