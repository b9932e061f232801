/-
Conditional playback (quantify_scheduler/backends/qblox_backend.py:241-267, 297-681).

Simplifications:
* Times are exact rationals in nanoseconds.
* Each schedulable has its own operation (`operations` and `schedulables` list the same things in
  the same order; an operation used by two schedulables is not modelled: the code would insert its
  latch resets twice if it is a schedule).
* Python sets of port-clocks and of labels are lists without repetitions, in insertion order.
* The port-clocks of the body of a conditional (`get_used_port_clocks`) are a field of it.
* `modType` is the module a port-clock is on (`_get_module_type`, 354-376), `none` is its `KeyError`.
-/
import Verif.Common.Dict
import Verif.Common.StableSort
import Verif.Numeric.Model
import Mathlib.Data.List.Dedup
import Mathlib.Data.Rat.Lemmas
import Mathlib.Algebra.Order.Ring.Rat

namespace Verif.Conditional

open Verif.StableSort (sortBy)

/-- Exceptions, by the place where they are raised. -/
inductive Err where
  /-- `ValueError`: conflicting trigger inversion (316-325) -/
  | conflictInvert
  /-- `ValueError`: conflicting trigger count (338-347) -/
  | conflictCount
  /-- `ValueError`: unknown trigger condition (391-397) -/
  | badCondition
  /-- `KeyError`: no module (372-375) -/
  | noModule
  /-- `RuntimeError`: dual thresholded trigger count not on a QTM (425-429) -/
  | dualNotQtm
  /-- `ValueError`: too many labels (617-622) -/
  | tooManyLabels
  /-- `RuntimeError`: conditional without acquisition (636-648) -/
  | condWithoutAcq
  /-- `RuntimeError`: acquisition while labels are unused (668-678) -/
  | acqWhilePending
deriving DecidableEq, Repr

/-- Port and clock. -/
abbrev PC := String × String

/-- A feedback trigger label; `none` is Python's `None`. -/
abbrev Label := Option String

/-- Module types, as far as they are told apart. -/
inductive ModType where
  | qrm | qtm | other
deriving DecidableEq, Repr

/-- Acquisition protocols, as far as they are told apart. -/
inductive Proto where
  | thresholded
  | weightedThresholded
  /-- `ThresholdedTriggerCount`: condition (`some true` is `LESS_THAN`, `some false` is
  `GREATER_THAN_EQUAL_TO`, `none` something else) and threshold -/
  | trigCount (less : Option Bool) (threshold : Nat)
  | dual
  | other
deriving DecidableEq, Repr

/-- An entry of `acquisition_info`. -/
structure AcqInfo where
  proto : Proto
  port : String
  clock : String
  t0 : Rat
  /-- `feedback_trigger_label` -/
  label : Label
  /-- `feedback_trigger_labels`: the values for `low`, `mid`, `high` and `invalid`; empty if there
  is no such entry -/
  labels : List Label
  /-- `feedback_trigger_address`, filled in -/
  address : Option Nat
  /-- `feedback_trigger_addresses`, filled in -/
  addresses : List (Option Nat)
deriving DecidableEq, Repr

/-- `control_flow_info` of a conditional, and the port-clocks used by its body. -/
structure Cond where
  label : Label
  portclocks : List PC
  address : Option Nat
  invert : Option Bool
  count : Option Nat
deriving DecidableEq, Repr

mutual
/-- Operations and schedules.  `plain infos`: anything with this `acquisition_info` (pulses have
none). `loop`: repetitions, duration of the body, body. -/
inductive Op where
  | plain (infos : List AcqInfo)
  | latch (pc : PC)
  | cond (c : Cond) (body : Op)
  | loop (reps : Nat) (dur : Rat) (body : Op)
  | sched (items : Items)
/-- Schedulables: `abs_time` and operation. -/
inductive Items where
  | nil
  | cons (abs : Rat) (op : Op) (rest : Items)
end

deriving instance DecidableEq for Op, Items

/-- `ConditionalInfo` (297-351). -/
structure Info where
  portclocks : List PC
  address : Nat
  invert : Option Bool
  count : Option Nat
deriving DecidableEq, Repr

/-- `conditional_info_map` and `address_counter` (609-612). -/
structure St where
  map : List (Label × Info)
  next : Nat
deriving DecidableEq, Repr

/-- `conditional_info_map[label]` of the `defaultdict`. -/
def St.get (s : St) (l : Label) : Info × St :=
  match Dict.get? s.map l with
  | some i => (i, s)
  | none => (⟨[], s.next, none, none⟩, ⟨Dict.set s.map l ⟨[], s.next, none, none⟩, s.next + 1⟩)

/-- Store back. -/
def St.put (s : St) (l : Label) (i : Info) : St := ⟨Dict.set s.map l i, s.next⟩

/-- The setters of `trigger_invert` and `trigger_count` (314-351), one after the other, on
`conditional_info_map[label]`. -/
def St.settings (s : St) (l : Label) (invert : Bool) (count : Nat) : Except Err St :=
  let i := (s.get l).1
  let s := (s.get l).2
  if i.invert ≠ none ∧ i.invert ≠ some invert then .error .conflictInvert
  else if i.count ≠ none ∧ i.count ≠ some count then .error .conflictCount
  else .ok (s.put l { i with invert := some invert, count := some count })

/-- The loop over the kinds of a dual thresholded acquisition (421-434). -/
def dualLoop (m : Option ModType) : List Label → St → Except Err (List (Option Nat) × St)
  | [], s => .ok ([], s)
  | none :: rest, s =>
    match dualLoop m rest s with
    | .error e => .error e
    | .ok (as, s) => .ok (none :: as, s)
  | some l :: rest, s =>
    match m with
    | none => .error .noModule
    | some .qtm =>
      match (s.get (some l)).2.settings (some l) false 1 with
      | .error e => .error e
      | .ok s' =>
        match dualLoop m rest s' with
        | .error e => .error e
        | .ok (as, s'') => .ok (some (s.get (some l)).1.address :: as, s'')
    | some _ => .error .dualNotQtm

/-- `_update_conditional_info_from_acquisition` (379-438). -/
def updateAcq (modType : PC → Option ModType) (q : AcqInfo) (s : St) : Except Err (AcqInfo × St) :=
  match q.proto with
  | .thresholded => .ok ({ q with address := some (s.get q.label).1.address }, (s.get q.label).2)
  | .weightedThresholded =>
    .ok ({ q with address := some (s.get q.label).1.address }, (s.get q.label).2)
  | .trigCount none _ => .error .badCondition
  | .trigCount (some less) threshold =>
    let q' := { q with address := some (s.get q.label).1.address }
    let s' := (s.get q.label).2
    match modType (q.port, q.clock) with
    | none => .error .noModule
    | some .qrm =>
      match s'.settings q.label less threshold with
      | .error e => .error e
      | .ok s'' => .ok (q', s'')
    | some .qtm =>
      match s'.settings q.label false 1 with
      | .error e => .error e
      | .ok s'' => .ok (q', s'')
    | some .other => .ok (q', s')
  | .dual =>
    match dualLoop (modType (q.port, q.clock)) q.labels s with
    | .error e => .error e
    | .ok (as, s') => .ok ({ q with addresses := as }, s')
  | .other => .ok (q, s)

/-- `is_conditional_acquisition` (operation.py:326-337), with `valid_acquisition`. -/
def isConditional (infos : List AcqInfo) : Bool :=
  match infos with
  | [] => false
  | q :: _ => q.label.isSome || !q.labels.isEmpty

/-- The protocols that `_set_conditional_info_map` looks at (484-488). -/
def handled : Proto → Bool
  | .thresholded => true
  | .trigCount _ _ => true
  | .dual => true
  | _ => false

/-- The loop over `acquisition_info` (482-494). -/
def updateAll (modType : PC → Option ModType) : List AcqInfo → St →
    Except Err (List AcqInfo × St)
  | [], s => .ok ([], s)
  | q :: qs, s =>
    match (if handled q.proto then updateAcq modType q s else .ok (q, s)) with
    | .error e => .error e
    | .ok (q', s') =>
      match updateAll modType qs s' with
      | .error e => .error e
      | .ok (qs', s'') => .ok (q' :: qs', s'')

/-- `portclocks |= ...`. -/
def union (a b : List PC) : List PC := a ++ (b.dedup.filter (fun x => decide (x ∉ a)))

/-- The conditional (453-472). -/
def setCond (c : Cond) (s : St) : Cond × St :=
  let i := (s.get c.label).1
  let s := (s.get c.label).2
  ({ c with address := some i.address, invert := i.invert, count := i.count },
    s.put c.label { i with portclocks := union i.portclocks c.portclocks })

mutual
/-- `_set_conditional_info_map` (441-494). -/
def setMap (modType : PC → Option ModType) : Op → St → Except Err (Op × St)
  | .plain infos, s =>
    if isConditional infos then
      match updateAll modType infos s with
      | .error e => .error e
      | .ok (infos', s') => .ok (.plain infos', s')
    else .ok (.plain infos, s)
  | .latch pc, s => .ok (.latch pc, s)
  | .cond c body, s => .ok (.cond (setCond c s).1 body, (setCond c s).2)
  | .loop reps dur body, s =>
    match setMap modType body s with
    | .error e => .error e
    | .ok (body', s') => .ok (.loop reps dur body', s')
  | .sched items, s =>
    match setMapItems modType items s with
    | .error e => .error e
    | .ok (items', s') => .ok (.sched items', s')
/-- The loop over the operations (446-452). -/
def setMapItems (modType : PC → Option ModType) : Items → St → Except Err (Items × St)
  | .nil, s => .ok (.nil, s)
  | .cons abs op rest, s =>
    match setMap modType op s with
    | .error e => .error e
    | .ok (op', s') =>
      match setMapItems modType rest s' with
      | .error e => .error e
      | .ok (rest', s'') => .ok (.cons abs op' rest', s'')
end

/-- Port-clocks that read from a label. -/
def St.pcs (s : St) (l : Label) : List PC :=
  match Dict.get? s.map l with
  | some i => i.portclocks
  | none => []

/-- The latch resets for one entry of `acquisition_info` (524-557); `abs` is the time of the
operation in the schedule, 4 is `MAX_MIN_INSTRUCTION_WAIT`. -/
def resetsOf (s : St) (abs : Rat) (q : AcqInfo) : List (Rat × PC) :=
  match q.proto with
  | .thresholded =>
    match q.label with
    | none => []
    | some l => (s.pcs (some l)).map (fun pc => (abs + q.t0 + 4, pc))
  | .trigCount _ _ =>
    match q.label with
    | none => []
    | some l => (s.pcs (some l)).map (fun pc => (abs + q.t0 + 4, pc))
  | .dual =>
    ((q.labels.filter Option.isSome).flatMap (fun l =>
      (s.pcs l).map (fun pc => (((Numeric.pyRound (abs + q.t0 + 4) : Int) : Rat), pc)))).dedup
  | _ => []

/-- Schedulables of latch resets. -/
def latchItems : List (Rat × PC) → Items
  | [] => .nil
  | (t, pc) :: rest => .cons t (.latch pc) (latchItems rest)

/-- `schedule.add(LatchReset(...))` for each: schedulables are added at the end. -/
def Items.addLatches : Items → List (Rat × PC) → Items
  | .nil, l => latchItems l
  | .cons abs op rest, l => .cons abs op (rest.addLatches l)

mutual
/-- `_insert_latch_reset` (497-557): the operation, and the latch resets added to the schedule it
is in. -/
def insertLatch (s : St) : Op → Rat → Op × List (Rat × PC)
  | .plain infos, abs =>
    (.plain infos, if isConditional infos then infos.flatMap (resetsOf s abs) else [])
  | .latch pc, _ => (.latch pc, [])
  | .cond c body, _ => (.cond c body, [])
  | .loop reps dur body, abs =>
    (.loop reps dur (insertLatch s body abs).1, (insertLatch s body abs).2)
  | .sched items, _ =>
    (.sched ((insertLatchItems s items).1.addLatches (insertLatchItems s items).2), [])
/-- The loop over the schedulables (504-513). -/
def insertLatchItems (s : St) : Items → Items × List (Rat × PC)
  | .nil => (.nil, [])
  | .cons abs op rest =>
    (.cons abs (insertLatch s op abs).1 (insertLatchItems s rest).1,
      (insertLatch s op abs).2 ++ (insertLatchItems s rest).2)
end

/-- What is collected. -/
inductive Event where
  | acq (infos : List AcqInfo)
  | cond (c : Cond)
  | latch (pc : PC)
deriving DecidableEq, Repr

/-- The iterations of a loop, number `i` first (257-263). -/
def iterations (f : Rat → List (Rat × Event)) (off dur : Rat) : Nat → Nat → List (Rat × Event)
  | _, 0 => []
  | i, n + 1 => f (off + i * dur) ++ iterations f off dur (i + 1) n

mutual
/-- `_all_conditional_acqs_and_control_flows_and_latch_reset` (241-267). -/
def events : Op → Rat → List (Rat × Event)
  | .plain infos, off => if isConditional infos then [(off, .acq infos)] else []
  | .latch pc, off => [(off, .latch pc)]
  | .cond c _, off => [(off, .cond c)]
  | .loop reps dur body, off => iterations (events body) off dur 0 reps
  | .sched items, off => itemEvents items off
/-- The loop over the schedulables (246-254). -/
def itemEvents : Items → Rat → List (Rat × Event)
  | .nil, _ => []
  | .cons abs op rest, off => events op (off + abs) ++ itemEvents rest off
end

/-- The labels of an acquisition (652-667). -/
def acqLabels (infos : List AcqInfo) : List Label :=
  match infos with
  | [] => []
  | q :: _ => match q.proto with
    | .dual => (q.labels.filter Option.isSome).dedup
    | _ => [q.label]

/-- The loop over the sorted events (629-678); `active` is `currently_active_trigger_labels`. -/
def check : List Label → List Event → Except Err Unit
  | _, [] => .ok ()
  | active, .cond c :: rest =>
    if c.label ∉ active then .error .condWithoutAcq
    else check (active.filter (fun l => decide (l ≠ c.label))) rest
  | active, .acq infos :: rest =>
    if acqLabels infos = [] then check active rest
    else if active ≠ [] then .error .acqWhilePending
    else check (acqLabels infos) rest
  | active, .latch _ :: rest => check active rest

/-- `compile_conditional_playback` (560-681). -/
def compile (modType : PC → Option ModType) (op : Op) : Except Err Op :=
  match setMap modType op ⟨[], 1⟩ with
  | .error e => .error e
  | .ok (op', s) =>
    let op'' := (insertLatch s op' 0).1
    if s.map.any (fun e => decide (15 < e.2.address)) then .error .tooManyLabels
    else
      match check [] ((sortBy Prod.fst (events op'' 0)).map Prod.snd) with
      | .error e => .error e
      | .ok () => .ok op''

end Verif.Conditional
