/-
Gates and their pulses: quantify_scheduler/operations/gate_library.py,
operations/composite_factories.py, operations/pulse_factories.py:18-156, 158-232, and the parts of
device_under_test/transmon_element.py:583-690, device_under_test/composite_square_edge.py:94-119 and
device_under_test/spin_edge.py that select the factories.

Simplifications: floats are exact rationals (angles in degrees) and complex numbers; names of
operations, LaTeX strings and plot functions are left out; `H` is taken on one qubit (with several
qubits it is the same for each of them); pulses keep what decides on the rotation: their qubit
(its microwave port and clock), amplitude and phase.
-/
import Mathlib.Analysis.SpecialFunctions.Trigonometric.Basic
import Mathlib.Analysis.SpecialFunctions.Complex.Circle
import Mathlib.LinearAlgebra.UnitaryGroup
import Mathlib.LinearAlgebra.Matrix.Notation
import Verif.Numeric.Model

namespace Verif.Gates

open Verif.Numeric (pyRound pyMod)
open Complex (I)

/-- `_modulo_360_with_mapping` (gate_library.py:926-966). -/
def modulo360 (θ : Rat) : Rat := -(pyMod (-θ - 180) 360) + 180

/-- Python's `round(x, 8)`. -/
def round8 (x : Rat) : Rat := pyRound (x * 100000000) / 100000000

/-- `np.deg2rad` -/
noncomputable def rad (x : Rat) : ℝ := (x : ℝ) * Real.pi / 180

/-- The matrix stored by `Rxy` (gate_library.py:75-86). -/
noncomputable def rxyMatrix (θ φ : Rat) : Matrix (Fin 2) (Fin 2) ℂ :=
  !![Complex.cos (rad θ / 2), -I * Complex.exp (-I * rad φ) * Complex.sin (rad θ / 2);
     -I * Complex.exp (I * rad φ) * Complex.sin (rad θ / 2), Complex.cos (rad θ / 2)]

/-- The matrix stored by `Rz` (gate_library.py:308-313). -/
noncomputable def rzMatrix (θ : Rat) : Matrix (Fin 2) (Fin 2) ℂ :=
  !![Complex.exp (-I * rad θ / 2), 0; 0, Complex.exp (I * rad θ / 2)]

/-- The matrix stored by `H` (gate_library.py:599). -/
noncomputable def hMatrix : Matrix (Fin 2) (Fin 2) ℂ :=
  (-I / (Real.sqrt 2 : ℝ)) • !![1, 1; 1, -1]

/-- The matrix stored by `CNOT` (gate_library.py:653). -/
noncomputable def cnotMatrix : Matrix (Fin 4) (Fin 4) ℂ :=
  !![1, 0, 0, 0; 0, 1, 0, 0; 0, 0, 0, 1; 0, 0, 1, 0]

/-- The matrix stored by `CZ` (gate_library.py:711). -/
noncomputable def czMatrix : Matrix (Fin 4) (Fin 4) ℂ :=
  !![1, 0, 0, 0; 0, 1, 0, 0; 0, 0, 1, 0; 0, 0, 0, -1]

/-- A gate as it is stored, on qubits of type `Q`. -/
inductive Gate (Q : Type) where
  | rxy (θ φ : Rat) (q : Q)
  | rz (θ : Rat) (q : Q)
  | h (q : Q)
  | cnot (c t : Q)
  | cz (c t : Q)
deriving DecidableEq, Repr

variable {Q : Type}

/-- `Rxy(theta, phi, qubit)` (gate_library.py:48-97). -/
def Rxy (θ φ : Rat) (q : Q) : Gate Q := .rxy (round8 (modulo360 θ)) (round8 (pyMod φ 360)) q

/-- `X` (gate_library.py:108-139) -/
def X (q : Q) : Gate Q := Rxy 180 0 q
/-- `X90` (gate_library.py:142-178) -/
def X90 (q : Q) : Gate Q := Rxy 90 0 q
/-- `Y` (gate_library.py:181-217) -/
def Y (q : Q) : Gate Q := Rxy 180 90 q
/-- `Y90` (gate_library.py:220-264) -/
def Y90 (q : Q) : Gate Q := Rxy 90 90 q

/-- `Rz(theta, qubit)` (gate_library.py:267-324). -/
def Rz (θ : Rat) (q : Q) : Gate Q := .rz (modulo360 θ) q

/-- `Z` (gate_library.py:351-383) -/
def Z (q : Q) : Gate Q := Rz 180 q
/-- `Z90` (gate_library.py:386-420) -/
def Z90 (q : Q) : Gate Q := Rz 90 q
/-- `S` (gate_library.py:423-454) -/
def S (q : Q) : Gate Q := Z90 q
/-- `SDagger` (gate_library.py:457-492) -/
def SDagger (q : Q) : Gate Q := Rz (-90) q
/-- `T` (gate_library.py:495-530) -/
def T (q : Q) : Gate Q := Rz 45 q
/-- `TDagger` (gate_library.py:533-568) -/
def TDagger (q : Q) : Gate Q := Rz (-45) q

/-- `H` (gate_library.py:571-613) on one qubit. -/
def H (q : Q) : Gate Q := .h q
/-- `CNOT` (gate_library.py:616-671) -/
def CNOT (c t : Q) : Gate Q := .cnot c t
/-- `CZ` (gate_library.py:674-730) -/
def CZ (c t : Q) : Gate Q := .cz c t

/-- `hadamard_as_y90z` (composite_factories.py:9-30), the operations in order of addition, which is the
order in which they are played. -/
def hadamardAsY90Z (q : Q) : List (Gate Q) := [Z q, Y90 q]

/-- `cnot_as_h_cz_h` (composite_factories.py:33-57) -/
def cnotAsHCzH (c t : Q) : List (Gate Q) := [H t, CZ c t, H t]

/-- What is played. -/
inductive Pulse (Q : Type) where
  /-- a drive pulse on the microwave port, modulated with the qubit's clock -/
  | drive (q : Q) (amp phase : Rat)
  /-- `ShiftClockPhase` on the qubit's clock -/
  | shift (q : Q) (angle : Rat)
  /-- the square pulse of the edge from `p` to `c` -/
  | square (p c : Q) (amp : Rat)
deriving DecidableEq, Repr

/-- The settings of an edge (composite_square_edge.py:19-62, spin_edge.py:52-92). -/
structure Edge where
  amp : Rat
  parentPhase : Rat
  childPhase : Rat
deriving DecidableEq, Repr

/-- The device: amplitudes for a rotation of 180 degrees, and edges from parent to child. -/
structure Device (Q : Type) where
  amp180 : Q → Rat
  edge : Q → Q → Option Edge

/-- `rxy_drag_pulse` and `rxy_gauss_pulse` (pulse_factories.py:18-127): `G_amp = amp180 * theta / 180`
and the phase. -/
def rxyPulse (d : Device Q) (θ φ : Rat) (q : Q) : Pulse Q := .drive q (d.amp180 q * θ / 180) φ

/-- `phase_shift` (pulse_factories.py:130-155). -/
def phaseShift (θ : Rat) (q : Q) : Pulse Q := .shift q θ

/-- `composite_square_pulse` (pulse_factories.py:158-232). -/
def compositeSquare (p c : Q) (e : Edge) : List (Pulse Q) :=
  [.square p c e.amp, .shift p e.parentPhase, .shift c e.childPhase]

/-- The configuration of a `CZ` gate: the edge as given or, as `CZ` is symmetric, the reversed one
(circuit_to_device.py:625-646, composite_square_edge.py:94-119). -/
def lowerCz (d : Device Q) (c t : Q) : Option (List (Pulse Q)) :=
  match d.edge c t with
  | some e => some (compositeSquare c t e)
  | none =>
    match d.edge t c with
    | some e => some (compositeSquare t c e)
    | none => none

/-- Pulses for a rotation (transmon_element.py:599-624, spin_element.py:309-334). -/
def lowerRot (d : Device Q) : Gate Q → List (Pulse Q)
  | .rxy θ φ q => [rxyPulse d θ φ q]
  | .rz θ q => [phaseShift θ q]
  | _ => []

/-- Pulses for `H`: the factory's schedule is compiled in turn
(transmon_element.py:625-630, circuit_to_device.py:561-611). -/
def lowerH (d : Device Q) (q : Q) : List (Pulse Q) := (hadamardAsY90Z q).flatMap (lowerRot d)

/-- Pulses for a gate; `none` if there is no edge. A `CNOT` is taken to be configured with
`cnot_as_h_cz_h` on the edge of the gate's qubits in the gate's order (it is not symmetric,
circuit_to_device.py:628-648). -/
def lower (d : Device Q) : Gate Q → Option (List (Pulse Q))
  | .rxy θ φ q => some (lowerRot d (.rxy θ φ q))
  | .rz θ q => some (lowerRot d (.rz θ q))
  | .h q => some (lowerH d q)
  | .cz c t => lowerCz d c t
  | .cnot c t =>
    match d.edge c t with
    | none => none
    | some _ => (lowerCz d c t).map (fun m => lowerH d t ++ m ++ lowerH d t)

/-- Pulses for a circuit: gates one after the other. -/
def lowerAll (d : Device Q) : List (Gate Q) → Option (List (Pulse Q))
  | [] => some []
  | g :: gs =>
    match lower d g, lowerAll d gs with
    | some a, some b => some (a ++ b)
    | _, _ => none

end Verif.Gates
