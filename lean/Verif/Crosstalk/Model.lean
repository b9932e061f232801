/-
Crosstalk compensation (quantify_scheduler/backends/qblox/crosstalk_compensation.py).

Simplifications: values are elements of an arbitrary field `F` (the code: complex numbers);
operations have one `pulse_info` entry (the code compensates only the first one), its parameters
other than port and clock are a list of named values; the matrix inverse `np.linalg.inv` (line 77)
is a parameter of the model; the hash of an operation is a parameter `H`; nested schedules are
compensated by the same function (54-58) and control-flow bodies not at all.
-/
import Verif.Common.Dict
import Mathlib.Algebra.Field.Basic

namespace Verif.Crosstalk

variable {F Id : Type} [Field F] [DecidableEq F] [DecidableEq Id]

/-- Exceptions. -/
inductive Err where
  | valueError
  | keyError
deriving DecidableEq, Repr

/-- An operation: its port-clock `f"{port}-{clock}"`, parameters, and whether `wf_func` is set. -/
structure Op (F : Type) where
  pc : String
  params : List (String × F)
  hasWf : Bool
deriving DecidableEq, Repr

/-- A schedulable. -/
structure Sch (Id : Type) where
  opId : Id
  absTime : Rat
deriving DecidableEq, Repr

/-- Keys of schedulables: the original ones, and `f"{hash}_compensation_{index}"` (176). -/
inductive Key (Id : Type) where
  | orig (name : String)
  | comp (h : Id) (i : Nat)
deriving DecidableEq, Repr

/-- The schedule. -/
structure State (F Id : Type) where
  ops : List (Id × Op F)
  schs : List (Key Id × Sch Id)

/-- `"amp" in key` (137, 168). -/
def containsAmp (name : String) : Bool :=
  name.toList.tails.any (fun l => l.take 3 == ['a', 'm', 'p'])

/-- All parameters with `amp` in their name are multiplied (136-138, 167-171). -/
def scaleAmp (c : F) (params : List (String × F)) : List (String × F) :=
  params.map (fun p => if containsAmp p.1 then (p.1, p.2 * c) else p)

/-- `_get_unique_port_clocks` (67-71). -/
def uniquePortClocks (crosstalk : List (String × List (String × F))) : List String :=
  let all := crosstalk.flatMap (fun e => e.1 :: e.2.map Prod.fst)
  (all.foldl (fun l x => if x ∈ l then l else l ++ [x]) []).mergeSort (fun a b => decide (a ≤ b))

/-- `_construct_crosstalk_matrix` (80-92) at row `src` and column `dest`. -/
def crosstalkMatrix (crosstalk : List (String × List (String × F))) (src dest : String) : F :=
  match (Dict.get? crosstalk src).bind (fun c => Dict.get? c dest) with
  | some v => v
  | none => if src = dest then 1 else 0

/-- `target_port_clock.split("-")` gives two parts (157). -/
def splitOk (pc : String) : Bool := pc.toList.count '-' == 1

/-- The compensation operation for target `pc` (156-171). -/
def compOp (op : Op F) (target : String) (v : F) : Op F :=
  ⟨target, scaleAmp v op.params, op.hasWf⟩

/-- `_add_compensation_operation` (148-178). -/
def addComp (H : Op F → Id) (st : State F Id) (op : Op F) (sch : Sch Id) (target : String) (v : F)
    (i : Nat) : Except Err (State F Id) :=
  if !splitOk target then .error .valueError
  else
    let c := compOp op target v
    .ok ⟨Dict.set st.ops (H c) c,
      Dict.set st.schs (.comp (H op) i) ⟨H c, sch.absTime⟩⟩

/-- The loop over the row (124-133). -/
def addComps (H : Op F → Id) (pcs : List String) (row : Nat → F) (idx : Nat) (op : Op F)
    (sch : Sch Id) : List Nat → State F Id → Except Err (State F Id)
  | [], st => .ok st
  | i :: is, st =>
    if row i ≠ 0 ∧ i ≠ idx then do
      let st ← addComp H st op sch (pcs.getD i "") (row i) i
      addComps H pcs row idx op sch is st
    else addComps H pcs row idx op sch is st

/-- `_apply_compensation_to_operation` (112-138); the operation is changed in place. -/
def applyOp (H : Op F → Id) (pcs : List String) (comp : Nat → Nat → F) (st : State F Id)
    (op : Op F) (sch : Sch Id) : Except Err (State F Id) :=
  if op.pc ∉ pcs then .error .valueError
  else do
    let idx := pcs.idxOf op.pc
    let st ← addComps H pcs (comp idx) idx op sch (List.range pcs.length) st
    let own : Op F := ⟨op.pc, scaleAmp (comp idx idx) op.params, op.hasWf⟩
    .ok ⟨Dict.set st.ops sch.opId own, st.schs⟩

/-- The loop over the schedulables (51-62), a snapshot taken before. -/
def applyAll (H : Op F → Id) (pcs : List String) (comp : Nat → Nat → F) :
    List (Key Id × Sch Id) → State F Id → Except Err (State F Id)
  | [], st => .ok st
  | (_, sch) :: rest, st =>
    match Dict.get? st.ops sch.opId with
    | none => .error .keyError
    | some op =>
      if op.hasWf then do
        let st ← applyOp H pcs comp st op sch
        applyAll H pcs comp rest st
      else applyAll H pcs comp rest st

/-- `crosstalk_compensation` (20-64); `comp` is `np.linalg.inv` of the crosstalk matrix. -/
def compensate (H : Op F → Id) (crosstalk : List (String × List (String × F)))
    (comp : Nat → Nat → F) (st : State F Id) : Except Err (State F Id) :=
  if crosstalk.isEmpty then .ok st
  else applyAll H (uniquePortClocks crosstalk) comp st.schs st

end Verif.Crosstalk
