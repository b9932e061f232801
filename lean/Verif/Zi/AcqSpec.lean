/-
Specification: what the quantum analyser of a UHFQA measures.
-/
import Verif.Zi.Acq

namespace Verif.Zi.Spec

open Verif.Zi

/-- The last value that was written (settings are written in order). -/
def lastOf {β : Type} (f : Setting → Option β) (l : List Setting) : Option β := (l.filterMap f).getLast?

def realOf (node : Nat) : Setting → Option (List Rat)
  | .real k w => if k = node then some w else none
  | _ => none

def imagOf (node : Nat) : Setting → Option (List Rat)
  | .imag k w => if k = node then some w else none
  | _ => none

def lengthOf : Setting → Option Int
  | .integrationLength n => some n
  | _ => none

def resultsOf : Setting → Option Nat
  | .resultLength n => some n
  | _ => none

def averagesOf : Setting → Option Nat
  | .resultAverages n => some n
  | _ => none

def enabledOf : Setting → Option Bool
  | .resultEnable b => some b
  | _ => none

def monitorOf : Setting → Option Bool
  | .monitorEnable b => some b
  | _ => none

/-- The sum of `f 0`, …, `f (n - 1)`. -/
def total (n : Nat) (f : Nat → Rat) : Rat := ((List.range n).map f).sum

/-- The two inputs of the UHFQA during an acquisition: sample `m` of input I and of input Q. -/
abbrev Signal := Nat → Rat × Rat

/-- A node integrates both inputs with its two weights; the UHFQA keeps both integrals. -/
def integrated (s : List Setting) (node : Nat) (x : Signal) : Rat × Rat :=
  let n := ((lastOf lengthOf s).getD 0).toNat
  let wr := (lastOf (realOf node) s).getD []
  let wi := (lastOf (imagOf node) s).getD []
  (total n fun m => wr.getD m 0 * (x m).1, total n fun m => wi.getD m 0 * (x m).2)

/-- The results of a node, if acquisition `t`, counted from the start of the experiment, has the inputs `x t`: result
`j` of `resultLength` many is the average over all passes through the results. -/
def nodeResults (s : List Setting) (x : Nat → Signal) (node : Nat) : List (Rat × Rat) :=
  let n := (lastOf resultsOf s).getD 0
  let passes := (lastOf averagesOf s).getD 0
  (List.range n).map fun j =>
    (total passes (fun a => (integrated s node (x (a * n + j))).1) / passes,
      total passes (fun a => (integrated s node (x (a * n + j))).2) / passes)

/-- The product of a complex number with the conjugate of another one. -/
def timesConj (w s : Rat × Rat) : Rat × Rat := (w.1 * s.1 + w.2 * s.2, w.2 * s.1 - w.1 * s.2)

/-- What an acquisition is meant to measure: the integral of weights times the conjugate signal. -/
def measured (n : Nat) (w : List (Rat × Rat)) (x : Signal) : Rat × Rat :=
  (total n fun m => (timesConj (w.getD m (0, 0)) (x m)).1, total n fun m => (timesConj (w.getD m (0, 0)) (x m)).2)

/-- The mean of complex numbers. -/
def mean (n : Nat) (f : Nat → Rat × Rat) : Rat × Rat := (total n (fun k => (f k).1) / n, total n (fun k => (f k).2) / n)

end Verif.Zi.Spec
