/-
From the timed schedule to the operation list of each sequencer
(quantify_scheduler/backends/qblox/helpers.py:540-985, compiler_abc.py:752-757, 1479-1501).

Simplifications:
* Python floats are exact rationals; `to_grid_time(t) * 1e-9` is the integer number of
  nanoseconds.
* Everything in a pulse, acquisition or control-flow description other than port, clock and `t0`
  is a value of an arbitrary type `D`.
* Port and clock names contain no `-` (so that `f"{port}-{clock}"` and `split("-")` are inverse),
  and no clock is called `None`.
* `add_op_info` appends to the list of the port-clock in the device's compiler; the model keeps
  the log of all `add_op_info` calls.  Modules without acquisitions (compiler_abc.py:1494-1499)
  and warnings are left out.
-/
import Verif.Numeric.Model
import Verif.Common.StableSort
import Verif.Common.Dict
import Mathlib.Data.List.Dedup

namespace Verif.Flatten

open Verif.StableSort (sortBy)

/-- Exceptions. -/
inductive Err where
  | valueError | keyError | runtimeError
deriving DecidableEq, Repr

/-- Port and clock. -/
abbrev PC := String × String

/-- An entry of `pulse_info` or of `acquisition_info`. -/
structure Piece (D : Type) where
  port : Option String
  clock : Option String
  t0 : Rat
  data : D
deriving DecidableEq, Repr

/-- A plain operation.  `window`: is a `WindowOperation`; `asm`: is an `InlineQ1ASM` on this port
and clock. -/
structure Plain (D : Type) where
  name : String
  window : Bool
  asm : Option PC
  pulses : List (Piece D)
  acqs : List (Piece D)
deriving DecidableEq, Repr

/-- `control_flow_info` of a loop or conditional: `t0` and the rest (repetitions, or trigger
address, invert and count). -/
structure Ctl (D : Type) where
  name : String
  t0 : Rat
  data : D
deriving DecidableEq, Repr

mutual
/-- Operations and schedules after absolute timing.  `ctl c dur body`: a loop or conditional,
`dur` is `operation.body.duration`. -/
inductive Op (D : Type) where
  | plain (p : Plain D)
  | sched (items : Items D)
  | ctl (c : Ctl D) (dur : Rat) (body : Op D)
/-- Schedulables: name, `abs_time` and operation. -/
inductive Items (D : Type) where
  | nil
  | cons (name : String) (abs : Rat) (op : Op D) (rest : Items D)
end

/-- `FullSchedulableLabel`: names, `none` for the body of a control flow. -/
abbrev Label := List (Option String)

variable {D : Type}

/-- `Operation.valid_pulse or Operation.valid_acquisition` (operation.py:312-324). -/
def Plain.valid (p : Plain D) : Bool := !p.pulses.isEmpty || !p.acqs.isEmpty

/-- Port and clock of a piece, if it has both (operation.py:282-284). -/
def Piece.pc? (q : Piece D) : Option PC :=
  match q.port, q.clock with
  | some p, some c => some (p, c)
  | _, _ => none

mutual
/-- Does `get_used_port_clocks` not raise (operation.py:279-291)? -/
def Op.allValid : Op D → Bool
  | .plain p => p.valid
  | .sched items => items.allValid
  | .ctl _ _ body => body.allValid
/-- The same for the operations of a schedule. -/
def Items.allValid : Items D → Bool
  | .nil => true
  | .cons _ _ op rest => op.allValid && rest.allValid
end

mutual
/-- `get_used_port_clocks` (operation.py:269-291, schedule.py:189-202,
control_flow_library.py:49-60). -/
def Op.used : Op D → List PC
  | .plain p => (p.pulses ++ p.acqs).filterMap Piece.pc?
  | .sched items => items.used
  | .ctl _ _ body => body.used
/-- The same for the operations of a schedule. -/
def Items.used : Items D → List PC
  | .nil => []
  | .cons _ _ op rest => op.used ++ rest.used
end

/-- What is put into the list of operations. -/
inductive Payload (D : Type) where
  | op (p : Plain D)
  /-- `_get_control_flow_begin` (helpers.py:630-670): `valid` is false if
  `get_used_port_clocks` raises -/
  | start (c : Ctl D) (pcs : List PC) (valid : Bool)
  /-- `_get_control_flow_end` (helpers.py:702-721) -/
  | stop (pcs : List PC) (valid : Bool)
deriving DecidableEq, Repr

/-- An entry of the list; `time` is before conversion to the grid. -/
structure Entry (D : Type) where
  time : Rat
  payload : Payload D
  label : Label
deriving DecidableEq, Repr

mutual
/-- `_get_list_of_operations_for_op_info_creation` (helpers.py:724-772), before the conversions
to the grid. -/
def entries : Op D → Rat → Label → List (Entry D)
  | .plain p, off, label => [⟨off, .op p, label⟩]
  | .sched items, off, label => itemEntries items off label
  | .ctl c dur body, off, label =>
    ⟨off, .start c body.used.dedup body.allValid, label ++ [none]⟩ ::
      (entries body off (label ++ [none]) ++
        [⟨off + dur, .stop body.used.dedup body.allValid, label ++ [none]⟩])
/-- The loop over the schedulables (731-741). -/
def itemEntries : Items D → Rat → Label → List (Entry D)
  | .nil, _, _ => []
  | .cons name abs op rest, off, label =>
    entries op (off + abs) (label ++ [some name]) ++ itemEntries rest off label
end

/-- Integer nanoseconds of a time on the grid (`constants.GRID_TIME` is 1 ns). -/
def onGrid (t : Rat) : Except Err Int :=
  match Numeric.toGridTime t 1 with
  | .ok n => .ok n
  | .error _ => .error .valueError

/-- The nanoseconds of an entry: `to_grid_time` of its time. -/
def ns (t : Rat) : Int := Numeric.pyRound (t * 1000000000)

/-- Errors while the list is made: `to_grid_time` first, then the markers. -/
def checkEntry (e : Entry D) : Except Err Unit :=
  match onGrid e.time with
  | .error x => .error x
  | .ok _ =>
    match e.payload with
    | .op _ => .ok ()
    | .start _ _ v => if v then .ok () else .error .runtimeError
    | .stop _ v => if v then .ok () else .error .runtimeError

/-- What an `OpInfo` holds. -/
inductive Data (D : Type) where
  | pulse (d : D)
  /-- `acq_index` from the dict of indices, `None` if missing -/
  | acq (d : D) (index : Option (List Int))
  | asm
  | loopStart (d : D)
  | loopStop
deriving DecidableEq, Repr

/-- `OpInfo` (types/qblox.py), with the start of its operation in nanoseconds. -/
structure Info (D : Type) where
  name : String
  data : Data D
  timing : Rat
  start : Int
deriving DecidableEq, Repr

/-- Ports and clocks of the hardware configuration, `generate_port_clock_to_device_map`
(helpers.py:501-538): port-clock to device, keys of a dict. -/
abbrev Mapping := List (PC × String)

/-- One `add_op_info` call: the device's compiler, port-clock and `OpInfo`. -/
abbrev Call (D : Type) := String × PC × Info D

/-- `operation_start_time + t0`. -/
def startAt (n : Int) (t0 : Rat) : Rat := (n : Rat) / 1000000000 + t0

/-- The body of the loop of `_assign_pulse_info_to_devices` (helpers.py:780-828). -/
def assignPulse (m : Mapping) (name : String) (n : Int) (wrap : D → Data D) (q : Piece D) :
    Except Err (List (Call D)) :=
  match onGrid (startAt n q.t0) with
  | .error e => .error e
  | .ok _ =>
    let info : Info D := ⟨name, wrap q.data, startAt n q.t0, n⟩
    match q.port with
    | none => .ok ((m.filter (fun e => name = "LatchReset" ∨ some e.1.2 = q.clock)).map
        (fun e => (e.2, e.1, info)))
    | some p =>
      match q.clock with
      | none => .error .keyError
      | some c =>
        match Dict.get? m (p, c) with
        | none => .error .keyError
        | some dev => .ok [(dev, (p, c), info)]

/-- The body of the loop of `_assign_acq_info_to_devices` (helpers.py:839-876): `i` is the number
of the acquisition in the operation. -/
def assignAcq (m : Mapping) (idx : Label × Nat → Option (List Int)) (name : String) (n : Int)
    (label : Label) (i : Nat) (q : Piece D) : Except Err (List (Call D)) :=
  match q.port with
  | none => .ok []
  | some p =>
    match q.clock with
    | none => .error .keyError
    | some c =>
      match Dict.get? m (p, c) with
      | none => .error .keyError
      | some dev =>
        .ok [(dev, (p, c), ⟨name, .acq q.data (idx (label, i)), startAt n q.t0, n⟩)]

/-- The calls of the loop over the pulses of an operation. -/
def assignPulses (m : Mapping) (name : String) (n : Int) (wrap : D → Data D) :
    List (Piece D) → Except Err (List (Call D))
  | [] => .ok []
  | q :: qs =>
    match assignPulse m name n wrap q with
    | .error e => .error e
    | .ok a =>
      match assignPulses m name n wrap qs with
      | .error e => .error e
      | .ok b => .ok (a ++ b)

/-- The calls of the loop over the acquisitions of an operation. -/
def assignAcqs (m : Mapping) (idx : Label × Nat → Option (List Int)) (name : String) (n : Int)
    (label : Label) : Nat → List (Piece D) → Except Err (List (Call D))
  | _, [] => .ok []
  | i, q :: qs =>
    match assignAcq m idx name n label i q with
    | .error e => .error e
    | .ok a =>
      match assignAcqs m idx name n label (i + 1) qs with
      | .error e => .error e
      | .ok b => .ok (a ++ b)

/-- `_assign_asm_info_to_devices` (helpers.py:879-905). -/
def assignAsm (m : Mapping) (name : String) (n : Int) (pc : PC) : Except Err (List (Call D)) :=
  match Dict.get? m pc with
  | none => .error .keyError
  | some dev => .ok [(dev, pc, ⟨name, .asm, startAt n 0, n⟩)]

/-- The `pulse_info` of a marker: one piece for each port and clock used, all with the `t0` of the
control flow (helpers.py:657-670, 709-720; `t0` of the end marker is 0, 690). -/
def markerPieces (pcs : List PC) (t0 : Rat) (d : D) : List (Piece D) :=
  pcs.map (fun pc => ⟨some pc.1, some pc.2, t0, d⟩)

/-- Concatenate two results. -/
def both (a b : Except Err (List (Call D))) : Except Err (List (Call D)) :=
  match a with
  | .error e => .error e
  | .ok x =>
    match b with
    | .error e => .error e
    | .ok y => .ok (x ++ y)

/-- Whatever `d` an end marker carries is not used. -/
def assignStop (m : Mapping) (n : Int) : List PC → Except Err (List (Call D))
  | [] => .ok []
  | pc :: pcs =>
    match Dict.get? m pc with
    | none => .error .keyError
    | some dev =>
      match assignStop m n pcs with
      | .error e => .error e
      | .ok b => .ok ((dev, pc, ⟨"ControlFlowReturn", .loopStop, startAt n 0, n⟩) :: b)

/-- The body of the loop of `assign_pulse_and_acq_info_to_devices` (helpers.py:946-985) for an
operation starting at `n` ns. -/
def assignEntry (m : Mapping) (idx : Label × Nat → Option (List Int)) (e : Entry D) :
    Except Err (List (Call D)) :=
  let n := ns e.time
  match e.payload with
  | .op p =>
    if p.window then .ok []
    else if !p.valid && p.asm.isNone then .error .runtimeError
    else
      both (match p.asm with
        | none => .ok []
        | some pc => assignAsm m p.name n pc)
        (both (assignPulses m p.name n .pulse p.pulses)
          (assignAcqs m idx p.name n e.label 0 p.acqs))
  | .start c pcs _ =>
    if pcs.isEmpty then .error .runtimeError
    else assignPulses m c.name n .loopStart (markerPieces pcs c.t0 c.data)
  | .stop pcs _ =>
    if pcs.isEmpty then .error .runtimeError else assignStop m n pcs

/-- The loop over the sorted list (946-985). -/
def assignAll (m : Mapping) (idx : Label × Nat → Option (List Int)) :
    List (Entry D) → Except Err (List (Call D))
  | [] => .ok []
  | e :: es => both (assignEntry m idx e) (assignAll m idx es)

/-- All checks made while the list is collected. -/
def checkAll : List (Entry D) → Except Err Unit
  | [] => .ok ()
  | e :: es =>
    match checkEntry e with
    | .error x => .error x
    | .ok _ => checkAll es

/-- `assign_pulse_and_acq_info_to_devices` (helpers.py:908-985). -/
def assign (m : Mapping) (idx : Label × Nat → Option (List Int)) (root : Op D) :
    Except Err (List (Call D)) :=
  let es := entries root 0 []
  match checkAll es with
  | .error x => .error x
  | .ok _ => assignAll m idx (sortBy (fun e => ns e.time) es)

/-- The list of one port-clock, in the order of the `add_op_info` calls
(compiler_abc.py:1501, instrument_compilers.py:568). -/
def opInfos (pc : PC) (log : List (Call D)) : List (Info D) :=
  log.filterMap (fun c => if c.2.1 = pc then some c.2.2 else none)

/-- `_get_ordered_operations` (compiler_abc.py:752-757). -/
def ordered (infos : List (Info D)) : Except Err (List (Info D)) :=
  if infos.all (fun i => (onGrid i.timing).isOk) then
    .ok (sortBy (fun i => ns i.timing) infos)
  else .error .valueError

/-- The operations of the sequencer of a port-clock, in the order in which its program is
generated. -/
def sequencerOps (m : Mapping) (idx : Label × Nat → Option (List Int)) (root : Op D) (pc : PC) :
    Except Err (List (Info D)) :=
  match assign m idx root with
  | .error e => .error e
  | .ok log => ordered (opInfos pc log)

end Verif.Flatten
