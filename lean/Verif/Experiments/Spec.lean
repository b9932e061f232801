/-
What the experiments are meant to play: lists of operations with their start times.
-/
import Mathlib.Algebra.Order.Field.Rat

namespace Verif.Experiments.Spec

variable {A : Type}

/-- A part of an experiment: how long it takes until the next part, and what is played when,
relative to the start of the part. -/
structure Part (A : Type) where
  length : Rat
  plays : List (Rat × A)

/-- Parts one after the other, the first at time `t`: each starts when the one before is over. -/
def from_ (t : Rat) : List (Part A) → List (Rat × A)
  | [] => []
  | p :: ps => p.plays.map (fun e => (t + e.1, e.2)) ++ from_ (t + p.length) ps

/-- Parts one after the other. -/
def inSequence (ps : List (Part A)) : List (Rat × A) := from_ 0 ps

/-- Four nanoseconds. -/
def ns4 : Rat := 4 / 1000000000

/-- The five rotations of the AllXY experiment: none, by 180 or by 90 degrees about x or about y. -/
inductive Rot where
  | I | X | Y | x90 | y90
deriving DecidableEq, Repr

/-- The angle of a rotation and that of its axis in the xy plane, in degrees. -/
def Rot.angles : Rot → Rat × Rat
  | .I => (0, 0)
  | .X => (180, 0)
  | .Y => (180, 90)
  | .x90 => (90, 0)
  | .y90 => (90, 90)

/-- What a rotation does to the Bloch vector (right-hand rule). -/
def Rot.on : Rot → Int × Int × Int → Int × Int × Int
  | .I, v => v
  | .X, (x, y, z) => (x, -y, -z)
  | .Y, (x, y, z) => (-x, y, -z)
  | .x90, (x, y, z) => (x, -z, y)
  | .y90, (x, y, z) => (z, y, -x)

/-- The z component after two rotations of the ground state, for a perfect device: 1 is the ground state, -1 the
excited state, 0 an equal superposition. -/
def zAfter (p : Rot × Rot) : Int := (p.2.on (p.1.on (0, 0, 1))).2.2

/-- The 21 pairs of AllXY in the customary order: the first five leave the qubit in the ground state, the next
twelve put it in an equal superposition, the last four in the excited state. -/
def allxyTable : List (Rot × Rot) :=
  [(.I, .I), (.X, .X), (.Y, .Y), (.X, .Y), (.Y, .X)] ++
  [(.x90, .I), (.y90, .I), (.x90, .y90), (.y90, .x90), (.x90, .Y), (.y90, .X), (.X, .y90), (.Y, .x90),
   (.x90, .X), (.X, .x90), (.y90, .Y), (.Y, .y90)] ++
  [(.X, .I), (.Y, .I), (.x90, .x90), (.y90, .y90)]

end Verif.Experiments.Spec
