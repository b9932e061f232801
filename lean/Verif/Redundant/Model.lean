/-
Removal of redundant parameter updates
(quantify_scheduler/backends/qblox/compiler_abc.py:957-1066).

Simplifications: an operation is its time on the grid (ns) and its kind, as far as the flags of
`OpInfo` (backends/types/qblox.py:169-225) and the strategy classes distinguish kinds; what an
operation does to the parameters (offsets, gains, phases, markers, ...) is a function on a set of
parameter values of an arbitrary type `S`.
-/
import Verif.Common.StableSort
import Mathlib.Data.Int.Order.Basic

namespace Verif.Redundant

open Verif.StableSort (sortBy)

/-- Exceptions. -/
inductive Err where
  | runtimeError
deriving DecidableEq, Repr

/-- Kinds of operations. -/
inductive Kind (S : Type) where
  /-- `is_parameter_instruction`: sets parameters, which are applied by the next update -/
  | param (set : S → S)
  /-- `is_parameter_update` -/
  | upd
  /-- `is_real_time_io_operation` but no update: plays or acquires (`id` tells which), after
  setting its own parameters -/
  | io (id : Nat) (set : S → S)
  /-- `LoopStrategy` with its repetitions, and the time of one repetition -/
  | loop (reps : Nat) (period : Int)
  /-- `ConditionalStrategy` -/
  | cond
  /-- `ControlFlowReturnStrategy` -/
  | ret
  /-- inline assembly that may set parameters: no flag is set (inline_q1asm.py:149-170) -/
  | asm (set : S → S)
  /-- anything else (idle, latch reset) -/
  | idle

/-- `IOperationStrategy`; `time` is `to_grid_time(operation_info.timing)`. -/
structure Op (S : Type) where
  time : Int
  kind : Kind S

variable {S : Type}

/-- `is_parameter_update` (types/qblox.py:219-225). -/
def Op.isUpd (o : Op S) : Bool :=
  match o.kind with
  | .upd => true
  | _ => false

/-- `is_parameter_update or is_real_time_io_operation` (compiler_abc.py:982-985). -/
def Op.updates (o : Op S) : Bool :=
  match o.kind with
  | .upd => true
  | .io _ _ => true
  | _ => false

/-- Operations that reset `last_updated_timing` (compiler_abc.py:995-1000). -/
def Op.resets (rev : Bool) (o : Op S) : Bool :=
  match o.kind with
  | .param _ => !rev
  | .cond => rev
  | .loop _ _ => true
  | .ret => true
  | _ => false

/-- The loop of `_removal_pass` (compiler_abc.py:979-1013): the numbers of the operations to be
removed. -/
def scan (rev : Bool) : Option Int → List (Op S × Nat) → List Nat
  | _, [] => []
  | last, (o, i) :: rest =>
    if o.updates then
      if o.isUpd && last == some o.time then i :: scan rev last rest
      else scan rev (some o.time) rest
    else if o.resets rev then scan rev none rest
    else scan rev last rest

/-- `_removal_pass` (compiler_abc.py:969-1017). -/
def removalPass (rev : Bool) (ops : List (Op S)) : List (Op S) :=
  let sorted := sortBy (fun e : Op S × Nat => e.1.time) ops.zipIdx
  let removed := scan rev none (if rev then sorted.reverse else sorted)
  (ops.zipIdx.filter (fun e => decide (e.2 ∉ removed))).map Prod.fst

/-- `_remove_redundant_update_parameters` (compiler_abc.py:957-1027). -/
def removeRedundant (ops : List (Op S)) : List (Op S) := removalPass true (removalPass false ops)

/-- `_get_ordered_operations` (compiler_abc.py:752-757): the order in which the program is
written. -/
def ordered (ops : List (Op S)) : List (Op S) := sortBy Op.time ops

/-- Loop, conditional or end of one (compiler_abc.py:1062-1064). -/
def Op.isControl (o : Op S) : Bool :=
  match o.kind with
  | .loop _ _ => true
  | .cond => true
  | .ret => true
  | _ => false

/-- The loop of `_validate_update_parameters_alignment` (compiler_abc.py:1034-1066) over the
reversed list; `last` is the time of `last_upd_params_incompatible_op_info`. -/
def alignLoop (total : Int) : Option Int → List (Op S) → Except Err Unit
  | _, [] => .ok ()
  | last, o :: rest =>
    if o.isUpd then
      if total = o.time then .error .runtimeError
      else if last = some o.time then .error .runtimeError
      else alignLoop total last rest
    else if o.isControl then alignLoop total (some o.time) rest
    else alignLoop total last rest

/-- `_validate_update_parameters_alignment` (compiler_abc.py:1029-1066). -/
def validateAlignment (total : Int) (ops : List (Op S)) : Except Err Unit :=
  alignLoop total none (ordered ops).reverse

end Verif.Redundant
