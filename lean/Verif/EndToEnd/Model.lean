/-
From the operations of a sequencer to its program: `distribute_data` (compiler_abc.py:1557-1579),
`get_operation_strategy` (operation_handling/factory_common.py:20-49, factory_analog.py:29-130,
factory_timetag.py:31-120), `add_operation_strategy` (compiler_abc.py:322-347),
`_remove_redundant_update_parameters` (compiler_abc.py:957-1027), `_get_ordered_operations`
(compiler_abc.py:752-757).

Simplifications:
* Which strategy is made for a pulse or an acquisition, with which waveforms, gains, bins, is a function
  given from outside (`Factory.leaf`); only loops, conditionals and their ends are told apart here.
* No inline assembly (code generation, `Verif.Q1`, does not model it), no markers of the debug mode, no digital
  pulses (`_replace_digital_pulses`, see C61).
-/
import Verif.Connect.Pipeline
import Verif.Q1.ProgramProps
import Verif.Redundant.Model

namespace Verif.EndToEnd

open Verif.Flatten (Info ns onGrid)
open Verif.StableSort (sortBy)

variable {D : Type}

/-- What `get_operation_strategy` makes of the data of an operation. -/
structure Factory (D : Type) where
  /-- pulses and acquisitions (the time is set below) -/
  leaf : Info D → Q1.Leaf
  /-- repetitions, for a loop -/
  reps : D → Option Nat
  /-- the trigger condition, for a conditional -/
  cond : D → Q1.TrigCond
  /-- no debug mode -/
  nodebug : ∀ i, (leaf i).debug = none

/-- The strategy of a pulse or acquisition, at its time. -/
def Factory.leafAt (F : Factory D) (i : Info D) : Q1.Leaf := { F.leaf i with t := ns i.timing }

/-- `get_operation_strategy`. -/
def Factory.strategy (F : Factory D) (i : Info D) : Q1.Op :=
  match i.data with
  | .loopStart d =>
    match F.reps d with
    | some n => .loop (ns i.timing) n
    | none => .cond (ns i.timing) (F.cond d)
  | .loopStop => .ret (ns i.timing)
  | _ => .leaf (F.leafAt i)

/-- The `UpdateParameterStrategy` made for a parameter instruction (compiler_abc.py:334-346). -/
def update (t : Int) : Q1.Leaf := ⟨t, false, false, true, .updParam, none⟩

/-- `add_operation_strategy` (compiler_abc.py:322-347). -/
def added : Q1.Op → List Q1.Op
  | .leaf l => if l.isParam then [.leaf l, .leaf (update l.t)] else [.leaf l]
  | o => [o]

/-- The time of an operation. -/
def timeOf : Q1.Op → Int
  | .leaf l => l.t
  | .loop t _ => t
  | .cond t _ => t
  | .ret t => t

/-- An operation as `_remove_redundant_update_parameters` sees it (`Verif.Redundant`). -/
def view : Q1.Op → Redundant.Op Unit
  | .leaf l => ⟨l.t,
      if l.strat = .updParam then .upd
      else if l.isParam then .param id
      else if l.isRT then .io 0 id
      else .idle⟩
  | .loop t n => ⟨t, .loop n 0⟩
  | .cond t _ => ⟨t, .cond⟩
  | .ret t => ⟨t, .ret⟩

/-- The numbers of the operations that `_removal_pass` removes (compiler_abc.py:969-1013). -/
def removed (rev : Bool) (l : List Q1.Op) : List Nat :=
  let sorted := sortBy (fun e : Redundant.Op Unit × Nat => e.1.time) (l.map view).zipIdx
  Redundant.scan rev none (if rev then sorted.reverse else sorted)

/-- `_removal_pass` (compiler_abc.py:969-1017). -/
def removalPass (rev : Bool) (l : List Q1.Op) : List Q1.Op :=
  (l.zipIdx.filter (fun e => decide (e.2 ∉ removed rev l))).map Prod.fst

/-- The operations from which the program of a sequencer is generated. -/
def programOps (F : Factory D) (infos : List (Info D)) : Except Flatten.Err (List Q1.Op) :=
  if infos.all (fun i => (onGrid i.timing).isOk) then
    .ok (sortBy timeOf (removalPass true (removalPass false (infos.flatMap (fun i => added (F.strategy i))))))
  else .error .valueError

end Verif.EndToEnd
