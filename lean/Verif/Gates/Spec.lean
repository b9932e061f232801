/-
What gates do: state vectors of qubits, and what calibrated pulses do.
-/
import Verif.Gates.Model

namespace Verif.Gates

open Complex (I)

variable {Q : Type} [DecidableEq Q]

/-- A state vector: the amplitude of each basis state. -/
abbrev State (Q : Type) := (Q → Fin 2) → ℂ

/-- A matrix applied to one qubit. -/
noncomputable def apply1 (M : Matrix (Fin 2) (Fin 2) ℂ) (q : Q) (ψ : State Q) : State Q :=
  fun x => ∑ b, M (x q) b * ψ (Function.update x q b)

/-- The row of a two-qubit matrix for the states `a` of the control and `b` of the target. -/
def pair (a b : Fin 2) : Fin 4 := ⟨2 * a.val + b.val, by omega⟩

/-- A matrix applied to two qubits, the control first. -/
noncomputable def apply2 (M : Matrix (Fin 4) (Fin 4) ℂ) (c t : Q) (ψ : State Q) : State Q :=
  fun x => ∑ a, ∑ b, M (pair (x c) (x t)) (pair a b) *
    ψ (Function.update (Function.update x c a) t b)

/-- What a gate does according to the matrix it stores. -/
noncomputable def act : Gate Q → State Q → State Q
  | .rxy θ φ q, ψ => apply1 (rxyMatrix θ φ) q ψ
  | .rz θ q, ψ => apply1 (rzMatrix θ) q ψ
  | .h q, ψ => apply1 hMatrix q ψ
  | .cnot c t, ψ => apply2 cnotMatrix c t ψ
  | .cz c t, ψ => apply2 czMatrix c t ψ

/-- What a circuit does. -/
noncomputable def run : List (Gate Q) → State Q → State Q
  | [], ψ => ψ
  | g :: gs, ψ => run gs (act g ψ)

/-- The hardware: the phase of each qubit's clock, and the state. -/
structure Hw (Q : Type) where
  phase : Q → Rat
  state : State Q

/-- What pulses do on calibrated qubits, if a shift of the clock by `x` degrees has the effect of a
shift of the pulses' phases by `s * x` degrees: a drive pulse rotates by the angle for which its
amplitude was calibrated, about the axis given by its phase and the one of the clock. The pulse of an
edge does a CZ gate, and rotates both qubits by the angles for which the edge's phase corrections
were calibrated. -/
noncomputable def play (d : Device Q) (s : Rat) : Pulse Q → Hw Q → Hw Q
  | .drive q amp φ, w =>
    ⟨w.phase, apply1 (rxyMatrix (amp / d.amp180 q * 180) (φ + s * w.phase q)) q w.state⟩
  | .shift q x, w => ⟨Function.update w.phase q (w.phase q + x), w.state⟩
  | .square p c _, w =>
    match d.edge p c with
    | none => w
    | some e => ⟨w.phase, apply1 (rzMatrix (s * e.parentPhase)) p
        (apply1 (rzMatrix (s * e.childPhase)) c (apply2 czMatrix p c w.state))⟩

/-- What a sequence of pulses does. -/
noncomputable def playAll (d : Device Q) (s : Rat) : List (Pulse Q) → Hw Q → Hw Q
  | [], w => w
  | p :: ps, w => playAll d s ps (play d s p w)

/-- The probability to measure the basis state `x`, for a normalised state. -/
noncomputable def prob (ψ : State Q) (x : Q → Fin 2) : ℝ := Complex.normSq (ψ x)

/-- The gates act on different qubits. -/
def Gate.Proper : Gate Q → Prop
  | .cnot c t => c ≠ t
  | .cz c t => c ≠ t
  | _ => True

end Verif.Gates
