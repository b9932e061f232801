/-
What the parameters do on the hardware: an instruction that sets a parameter changes the pending
parameters; an update, or any play or acquire, applies the pending ones.  (Qblox documentation on
Q1 instructions, quoted at backends/types/qblox.py:199-207.)
-/
import Verif.Redundant.Model
import Verif.Flatten.Spec

namespace Verif.Redundant

open Verif.Flatten (Forest)

variable {S : Type}

/-- Pending and applied parameters. -/
structure Params (S : Type) where
  pending : S
  applied : S

/-- One executed operation. -/
def Params.step (p : Params S) (o : Op S) : Params S :=
  match o.kind with
  | .param f => ⟨f p.pending, p.applied⟩
  | .upd => ⟨p.pending, p.pending⟩
  | .io _ f => ⟨f p.pending, f p.pending⟩
  | .asm f => ⟨f p.pending, p.applied⟩
  | _ => p

/-- An execution: the operations executed, each with the time at which it is executed. -/
abbrev Trace (S : Type) := List (Int × Op S)

/-- Parameters after a piece of execution. -/
def Params.after (p : Params S) (t : Trace S) : Params S := t.foldl (fun p e => p.step e.2) p

/-- The parameters applied at time `now`: after all that is executed up to and including then. -/
def appliedAt (now : Int) (t : Trace S) (p : Params S) : S :=
  (p.after (t.filter (fun e => decide (e.1 ≤ now)))).applied

/-- What is played or acquired: time, operation, and the parameters it is played with. -/
def played : Trace S → Params S → List (Int × Nat × S)
  | [], _ => []
  | (t, o) :: rest, p =>
    match o.kind with
    | .io i _ => (t, i, (p.step o).applied) :: played rest (p.step o)
    | _ => played rest (p.step o)

/-- `n` repetitions, number `i` first; `f i` is repetition `i`. -/
def repeatFrom (f : Nat → Trace S) : Nat → Nat → Trace S
  | _, 0 => []
  | i, n + 1 => f i ++ repeatFrom f (i + 1) n

/-- The execution of a structured program: the body of a loop is repeated, each time a period later;
the body of a conditional is executed or not, as told by `env` (which is given the numbers of the
loop iterations and conditionals on the way).  `k` counts loops and conditionals. -/
def exec (env : List Nat → Bool) : Forest (Op S) → Int → List Nat → Nat → Trace S
  | .nil, _, _, _ => []
  | .leaf o rest, shift, path, k => (shift + o.time, o) :: exec env rest shift path k
  | .node b body e rest, shift, path, k =>
    (match b.kind with
      | .loop reps period => repeatFrom (fun i =>
          (shift + i * period + b.time, b) :: (exec env body (shift + i * period) (path ++ [k, i]) 0
            ++ [(shift + i * period + e.time, e)])) 0 reps
      | _ => (shift + b.time, b) ::
          ((if env (path ++ [k]) then exec env body shift (path ++ [k]) 0 else []) ++
            [(shift + e.time, e)])) ++
    exec env rest shift path (k + 1)

/-- Brackets are where they belong. -/
def Bracketed : Forest (Op S) → Prop
  | .nil => True
  | .leaf o rest => o.isControl = false ∧ Bracketed rest
  | .node b body e rest => ((∃ n d, b.kind = .loop n d) ∨ b.kind = .cond) ∧ e.kind = .ret ∧
      Bracketed body ∧ Bracketed rest

/-- Inline assembly does not set parameters. -/
def AsmHarmless (ops : List (Op S)) : Prop := ∀ o ∈ ops, ∀ f, o.kind = .asm f → f = id

end Verif.Redundant
