/-
Merging of neighbouring Rz gates (quantify_scheduler/compilation.py:418-464).

Simplifications: an `Rz` gate is an object (a number) whose angle is in a heap, because the pass
changes the angle of an object that may be used in several places; the `operations` dict of a
schedule maps hashes (of an arbitrary type `K`) to operations; operations other than Rz gates and
idle pulses have a content of an arbitrary type `D`.
-/
import Verif.Common.Dict
import Mathlib.Data.Rat.Defs

namespace Verif.MergeRz

/-- Exceptions. -/
inductive Err where
  | keyError
deriving DecidableEq, Repr

mutual
/-- Operations and schedules. -/
inductive Op (K D : Type) where
  /-- an `Rz` object on a qubit (gate_library.py:267-342) -/
  | rz (id : Nat) (qubit : String)
  /-- `IdlePulse(0)` -/
  | idle
  | other (d : D)
  /-- `operations`, and `schedulables` with their `operation_id` -/
  | sched (ops : Ops K D) (items : List (String × K))
  | loop (reps : Nat) (body : Op K D)
  /-- a conditional on the outcome with this label -/
  | cond (label : String) (body : Op K D)
/-- The `operations` dict. -/
inductive Ops (K D : Type) where
  | nil
  | cons (key : K) (op : Op K D) (rest : Ops K D)
end

variable {K D : Type} [DecidableEq K]

/-- `operations[key]`. -/
def Ops.get? : Ops K D → K → Option (Op K D)
  | .nil, _ => none
  | .cons k o rest, x => if x = k then some o else rest.get? x

/-- `operations[key] = op`. -/
def Ops.set : Ops K D → K → Op K D → Ops K D
  | .nil, x, v => .cons x v .nil
  | .cons k o rest, x, v => if x = k then .cons k v rest else .cons k o (rest.set x v)

/-- Angles of the Rz objects. -/
abbrev Heap := Nat → Rat

/-- `last_op.theta += inner_op.theta` (compilation.py:448). -/
def Heap.add (h : Heap) (last inner : Nat) : Heap :=
  fun x => if x = last then h last + h inner else h x

/-- Is it an `Rz`: object and qubit. -/
def Op.rz? : Op K D → Option (Nat × String)
  | .rz i q => some (i, q)
  | _ => none

/-- The test of the pass (compilation.py:443-447): both are Rz gates, on the same qubit. -/
def mergeable (last : Option (Op K D)) (inner : Op K D) : Option (Nat × Nat) :=
  match last.bind Op.rz?, inner.rz? with
  | some (i, q), some (j, r) => if r = q then some (i, j) else none
  | _, _ => none

/-- The loop over the schedulables (compilation.py:435-457); `noop` is `IdlePulse(0).hash`. -/
def mergeItems (noop : K) : List (String × K) → Option (Op K D) → Ops K D → Heap →
    Except Err (List (String × K) × Ops K D × Heap)
  | [], _, ops, h => .ok ([], ops, h)
  | (l, k) :: rest, last, ops, h =>
    match ops.get? k with
    | none => .error .keyError
    | some inner =>
      match mergeable last inner with
      | some (i, j) =>
        match mergeItems noop rest last (ops.set noop .idle) (h.add i j) with
        | .error e => .error e
        | .ok r => .ok ((l, noop) :: r.1, r.2)
      | none =>
        match mergeItems noop rest (some inner) ops h with
        | .error e => .error e
        | .ok r => .ok ((l, k) :: r.1, r.2)

mutual
/-- `_merge_rz_gates` (compilation.py:418-464). -/
def merge (noop : K) : Op K D → Heap → Except Err (Op K D × Heap)
  | .sched ops items, h =>
    match mergeOps noop ops h with
    | .error e => .error e
    | .ok (ops', h') =>
      match mergeItems noop items none ops' h' with
      | .error e => .error e
      | .ok (items', ops'', h'') => .ok (.sched ops'' items', h'')
  | .loop n body, h =>
    match merge noop body h with
    | .error e => .error e
    | .ok (b, h') => .ok (.loop n b, h')
  | .cond c body, h =>
    match merge noop body h with
    | .error e => .error e
    | .ok (b, h') => .ok (.cond c b, h')
  | .rz i q, h => .ok (.rz i q, h)
  | .idle, h => .ok (.idle, h)
  | .other d, h => .ok (.other d, h)
/-- "First, process operations" (compilation.py:427-432). -/
def mergeOps (noop : K) : Ops K D → Heap → Except Err (Ops K D × Heap)
  | .nil, h => .ok (.nil, h)
  | .cons k o rest, h =>
    match merge noop o h with
    | .error e => .error e
    | .ok (o', h') =>
      match mergeOps noop rest h' with
      | .error e => .error e
      | .ok (rest', h'') => .ok (.cons k o' rest', h'')
end

end Verif.MergeRz
