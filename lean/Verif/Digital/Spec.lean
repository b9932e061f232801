/-
C61: what digital pulses are.
-/
import Verif.Digital.Model

namespace Verif.Digital.Spec

open Verif.Flatten (Forest)
open Verif.Digital

variable {R : Type}

/-- Does a loop or a conditional start or end here? -/
def control (o : DOp R) : Bool :=
  match o.act with
  | .rest (.loop _ _) => true
  | .rest .cond => true
  | .rest .ret => true
  | _ => false

/-- Is it a digital pulse? -/
def pulse (o : DOp R) : Bool :=
  match o.act with
  | .pulse _ => true
  | _ => false

/-- The pulses of a sequencer, and its loops and conditionals. -/
def outline (ops : List (DOp R)) : List (DOp R) := ops.filter (fun o => pulse o || control o)

/-- When an operation is over, as far as the output is concerned. -/
def stop (o : DOp R) : Int :=
  match o.act with
  | .pulse d => o.time + d
  | .rest _ => o.time

/-- Brackets are where they belong. -/
def Bracketed : Forest (DOp R) → Prop
  | .nil => True
  | .leaf o rest => control o = false ∧ Bracketed rest
  | .node b body e rest => ((∃ n p, b.act = .rest (.loop n p)) ∨ b.act = .rest .cond) ∧ e.act = .rest .ret ∧
      Bracketed body ∧ Bracketed rest

/-- `n` repetitions, number `i` first. -/
def again {α : Type} (f : Nat → List α) : Nat → Nat → List α
  | _, 0 => []
  | i, n + 1 => f i ++ again f (i + 1) n

/-- The pulses of an execution, each with its start and its end: the body of a loop is repeated, each time a
period later; the body of a conditional is executed or not, as told by `env`. -/
def pulses (env : List Nat → Bool) : Forest (DOp R) → Int → List Nat → Nat → List (Int × Int)
  | .nil, _, _, _ => []
  | .leaf o rest, shift, path, k =>
    (match o.act with
      | .pulse d => [(shift + o.time, shift + (o.time + d))]
      | .rest _ => []) ++ pulses env rest shift path k
  | .node b body _ rest, shift, path, k =>
    (match b.act with
      | .rest (.loop reps period) =>
          again (fun i => pulses env body (shift + i * period) (path ++ [k, i]) 0) 0 reps
      | _ => if env (path ++ [k]) then pulses env body shift (path ++ [k]) 0 else []) ++
    pulses env rest shift path (k + 1)

/-- One after the other. -/
def Sequential (l : List (Int × Int)) : Prop := l.Pairwise (fun a b => a.2 ≤ b.1)

/-- A pulse is on. -/
def On (l : List (Int × Int)) (now : Int) : Prop := ∃ q ∈ l, q.1 ≤ now ∧ now < q.2

/-- No pulse ends before it starts; pulses, loops and conditionals are listed in order of time, and a pulse is
over when the next one, a loop, a conditional or the end of one starts. -/
def InOrder (ops : List (DOp R)) : Prop :=
  (∀ o ∈ ops, ∀ d, o.act = .pulse d → 0 ≤ d) ∧ (outline ops).Pairwise (fun a b => stop a ≤ b.time)

end Verif.Digital.Spec

namespace Verif.Digital.Spec

open Verif.Connect (Chan ModType)

/-- The bit of a digital output in the marker register: on QCM and QRM, output `i` is bit `i`; on RF modules bits 0
and 1 are the switches of the RF paths, and on a QCM-RF the two outputs are swapped. -/
def bit : ModType → Chan → Option Nat
  | t, ⟨.digital, .output, i⟩ =>
    match t with
    | .qcm | .qrm => if i < 4 then some i else none
    | .qcmRf => if i = 0 then some 3 else if i = 1 then some 2 else none
    | .qrmRf => if i = 0 then some 2 else if i = 1 then some 3 else none
    | .qrc => if i = 0 then some 0 else none
    | .qtm => none
  | _, _ => none

/-- The bit that switches an RF output on. -/
def switch : ModType → Chan → Option Nat
  | .qcmRf, ⟨.complex, .output, i⟩ => if i = 0 then some 0 else if i = 1 then some 1 else none
  | .qrmRf, ⟨.complex, .output, i⟩ => if i = 0 then some 1 else none
  | _, _ => none

end Verif.Digital.Spec
