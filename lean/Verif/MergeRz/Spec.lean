/-
What a circuit does: the phase of each qubit, and the operations with the phases they see.
-/
import Verif.MergeRz.Model

namespace Verif.MergeRz

variable {K D : Type} [DecidableEq K]

/-- The phase of each qubit. -/
abbrev Phases := String → Rat

/-- What happens from given phases on: the phases afterwards, and the operations (other than Rz
gates and idle pulses), each with the phases it sees. -/
abbrev Sem (D : Type) := Phases → Phases × List (D × Phases)

/-- Nothing happens. -/
def Sem.skip : Sem D := fun p => (p, [])

/-- One after the other. -/
def Sem.seq (a b : Sem D) : Sem D :=
  fun p => ((b (a p).1).1, (a p).2 ++ (b (a p).1).2)

/-- `n` times. -/
def Sem.times (a : Sem D) : Nat → Sem D
  | 0 => Sem.skip
  | n + 1 => Sem.seq a (Sem.times a n)

/-- A rotation. -/
def Sem.rotate (q : String) (theta : Rat) : Sem D :=
  fun p => (fun x => if x = q then p x + theta else p x, [])

/-- Schedulables in the order in which they were added; one with a missing operation does
nothing. -/
def runItems (sems : List (K × Sem D)) : List (String × K) → Sem D
  | [] => Sem.skip
  | (_, k) :: rest => Sem.seq ((Dict.get? sems k).getD Sem.skip) (runItems sems rest)

mutual
/-- What an operation does.  `env` tells for each conditional whether its body is executed. -/
def run (env : String → Bool) (h : Heap) : Op K D → Sem D
  | .rz i q => Sem.rotate q (h i)
  | .idle => Sem.skip
  | .other d => fun p => (p, [(d, p)])
  | .sched ops items => runItems (runOps env h ops) items
  | .loop n body => Sem.times (run env h body) n
  | .cond c body => if env c then run env h body else Sem.skip
/-- What the operations of a dict do. -/
def runOps (env : String → Bool) (h : Heap) : Ops K D → List (K × Sem D)
  | .nil => []
  | .cons k o rest => (k, run env h o) :: runOps env h rest
end

mutual
/-- The Rz objects in an operation, once for each schedulable that uses them directly. -/
def uses : Op K D → List Nat
  | .rz i _ => [i]
  | .idle => []
  | .other _ => []
  | .sched ops items =>
    items.filterMap (fun it => ((ops.get? it.2).bind Op.rz?).map Prod.fst) ++ usesNested ops
  | .loop _ body => uses body
  | .cond _ body => uses body
/-- Those inside the sub-schedules and bodies in a dict. -/
def usesNested : Ops K D → List Nat
  | .nil => []
  | .cons _ (.rz _ _) rest => usesNested rest
  | .cons _ o rest => uses o ++ usesNested rest
end

mutual
/-- The hash of the idle pulse is not that of something else, and keys are unique. -/
def HashOk (noop : K) : Op K D → Prop
  | .rz _ _ => True
  | .idle => True
  | .other _ => True
  | .sched ops _ => HashOkOps noop ops
  | .loop _ body => HashOk noop body
  | .cond _ body => HashOk noop body
/-- The same for the operations of a dict. -/
def HashOkOps (noop : K) : Ops K D → Prop
  | .nil => True
  | .cons k o rest => (k = noop → o = .idle) ∧ HashOk noop o ∧ HashOkOps noop rest
end

mutual
/-- Every schedulable's operation is in the dict of its schedule. -/
def Closed : Op K D → Prop
  | .sched ops items => (∀ it ∈ items, ops.get? it.2 ≠ none) ∧ ClosedOps ops
  | .loop _ body => Closed body
  | .cond _ body => Closed body
  | .rz _ _ => True
  | .idle => True
  | .other _ => True
/-- The same for the operations of a dict. -/
def ClosedOps : Ops K D → Prop
  | .nil => True
  | .cons _ o rest => Closed o ∧ ClosedOps rest
end

end Verif.MergeRz
