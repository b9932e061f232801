/-
What the initialisation of a spin pair is meant to play.
-/
import Verif.SpinInit.Model

namespace Verif.SpinInit

/-- Both squares start together at time 0. Then each element gets a ramp, to its amplitude at
its rate; the ramp of the child starts `ramp_diff` after that of the parent (before it, if that is
negative), and the first of the ramps starts when the squares end. -/
def Meant (a : Args) (l : List (Pulse × Option Rat)) : Prop :=
  ∃ dp dc tp tc : Rat,
    l = [(.square a.parent.squareAmp a.squareDuration a.parent.port a.parent.clock, some 0),
         (.square a.child.squareAmp a.squareDuration a.child.port a.child.clock, some 0),
         (.ramp a.parent.rampAmp dp a.parent.port a.parent.clock, some tp),
         (.ramp a.child.rampAmp dc a.child.port a.child.clock, some tc)] ∧
    dp * a.parent.rampRate = a.parent.rampAmp ∧ dc * a.child.rampRate = a.child.rampAmp ∧
    tc - tp = a.rampDiff ∧
    a.squareDuration ≤ tp ∧ a.squareDuration ≤ tc ∧
    (tp = a.squareDuration ∨ tc = a.squareDuration)

end Verif.SpinInit
