/-
Digital outputs: markers of analog modules and outputs of a QTM
(quantify_scheduler/backends/qblox/compiler_abc.py:1068-1141, operation_handling/pulses.py:246-375,
analog.py:140-145, 462-488, instrument_compilers.py:179-184, 289-294, 308-321, 335-346, 360-363).

Simplifications:
* Times are on the grid (ns): the start and the end of a pulse are integers.
* The parameters of a sequencer are the level of the digital output (the argument of `set_mrk` or
  `set_digital`) and the others, of an arbitrary type `R`; other operations change only the others.
* Inline assembly changes no parameters.  Fine delays are in `Spacing/`.
-/
import Verif.Redundant.Props
import Verif.Connect.Model


namespace Verif.Digital

open Verif.Redundant (Op Kind)
open Verif.Connect (Chan Mode Dir ModType)

/-- Kinds of operations, besides digital pulses. -/
inductive Rest (R : Type) where
  | param (set : R → R)
  | upd
  | io (id : Nat) (set : R → R)
  | loop (reps : Nat) (period : Int)
  | cond
  | ret
  | idle

/-- An operation of a sequencer before `prepare`: `pulse` is a `DigitalOutputStrategy` with its duration. -/
inductive Act (R : Type) where
  | pulse (duration : Int)
  | rest (k : Rest R)

structure DOp (R : Type) where
  time : Int
  act : Act R

/-- Levels of the output. -/
structure Levels where
  high : Nat
  low : Nat
deriving DecidableEq, Repr

/-- Operations that are not digital pulses, as `Redundant/` has them. -/
def Rest.kind {R : Type} : Rest R → Kind (Nat × R)
  | .param f => .param (fun s => (s.1, f s.2))
  | .upd => .upd
  | .io i f => .io i (fun s => (s.1, f s.2))
  | .loop n p => .loop n p
  | .cond => .cond
  | .ret => .ret
  | .idle => .idle

/-- What `insert_qasm` of a `MarkerPulseStrategy` or `DigitalPulseStrategy` sets (pulses.py:316-328, 362-375):
`set_mrk` or `set_digital`. -/
def setLevel {R : Type} (v : Nat) : Kind (Nat × R) := .param (fun s => (v, s.2))

/-- `_replace_digital_pulses` (compiler_abc.py:1068-1141). -/
def replace {R : Type} (l : Levels) (ops : List (DOp R)) : List (Op (Nat × R)) :=
  ops.flatMap fun o =>
    match o.act with
    | .pulse d => [⟨o.time, setLevel l.high⟩, ⟨o.time, .upd⟩, ⟨o.time + d, setLevel l.low⟩, ⟨o.time + d, .upd⟩]
    | .rest k => [⟨o.time, k.kind⟩]

/-! ### Levels of markers -/

/-- Exceptions. -/
inductive Err where
  | typeError | valueError | runtimeError | keyError
deriving DecidableEq, Repr

def dig (i : Nat) : Chan := ⟨.digital, .output, i⟩
def co (i : Nat) : Chan := ⟨.complex, .output, i⟩
def ci (i : Nat) : Chan := ⟨.complex, .input, i⟩

/-- `channel_name_to_digital_marker` (instrument_compilers.py:179-184, 289-294, 308-314, 335-340, 360-362). -/
def markers : ModType → List (Chan × Nat)
  | .qcm | .qrm => [(dig 0, 1), (dig 1, 2), (dig 2, 4), (dig 3, 8)]
  | .qcmRf => [(co 0, 1), (co 1, 2), (dig 1, 4), (dig 0, 8)]
  | .qrmRf => [(co 0, 2), (dig 0, 4), (dig 1, 8)]
  | .qrc => [(dig 0, 1)]
  | .qtm => []

/-- `default_markers` (instrument_compilers.py:315-321, 341-346). -/
def defaults : ModType → Option (List (Chan × Nat))
  | .qcmRf => some [(co 0, 1), (co 1, 2), (dig 1, 3), (dig 0, 3)]
  | .qrmRf => some [(ci 0, 2), (co 0, 2), (dig 0, 2), (dig 1, 2)]
  | _ => none

/-- Is the description of the module an `RFDescription`? (types/qblox.py: QCM-RF, QRM-RF and QRC) -/
def isRf : ModType → Bool
  | .qcmRf | .qrmRf | .qrc => true
  | _ => false

/-- The levels of a marker pulse (pulses.py:285-328); `rfOn` is `rf_output_on`. -/
def markerLevels (t : ModType) (rfOn : Bool) (c : Chan) : Except Err Levels :=
  if t = .qtm then .error .typeError
  else
    match Dict.get? (markers t) c with
    | none => .error .valueError
    | some m =>
      if isRf t = true ∧ rfOn = true then
        match defaults t with
        | none => .ok ⟨m, 0⟩
        | some ds =>
          match Dict.get? ds c with
          | none => .error .keyError
          | some d => if m ||| d = d then .error .runtimeError else .ok ⟨m ||| d, d⟩
      else .ok ⟨m, 0⟩

/-- The level that is set before the program starts (analog.py:462-488). -/
def initLevel (t : ModType) (rfOn : Bool) (c : Chan) : Nat :=
  if isRf t = true ∧ rfOn = true then ((defaults t).bind fun ds => Dict.get? ds c).getD 0 else 0

/-- The levels of a digital pulse on a QTM (pulses.py:349-375). -/
def digitalLevels (c : Chan) : Except Err Levels :=
  if c.mode = .digital then .ok ⟨1, 0⟩ else .error .valueError

/-- `_default_marker` (analog.py:143-145), which is used in debug mode (515-526): it does not depend on
`rf_output_on`. -/
def debugLevel (t : ModType) (c : Chan) : Option Nat :=
  match defaults t with
  | none => some 0
  | some ds => Dict.get? ds c

end Verif.Digital
