/-
Automatic RF switch windows (quantify_scheduler/backends/qblox/auto_rf_switch.py).

Simplifications: floats are exact rationals; of a pulse only the fields the pass reads are kept
(`endsMw` is `port.endswith(":mw")`); inserted schedulables are modelled by the list of
`(port, clock, start, duration)` that is appended to the root schedule (their uuid and the
operation hash do not matter).  Schedulables whose operation is missing (191-193) are left out.
-/
import Mathlib.Data.Rat.Floor

namespace Verif.RfSwitch

/-- The fields of a `pulse_info` entry that the pass reads (auto_rf_switch.py:207-247). -/
structure PulseInfo where
  port : String
  clock : String
  endsMw : Bool
  t0 : Rat
  duration : Rat
  /-- `marker_pulse` is set (an `RFSwitchToggle` or other marker) -/
  marker : Bool
  /-- `wf_func is not None` -/
  hasWf : Bool
  /-- one of the two offsets is non-zero -/
  nonzero : Bool
deriving DecidableEq, Repr

mutual
/-- A schedule tree with absolute times relative to the parent.  `flow` is a control-flow
operation; for a loop `reps` is its repetitions, for a conditional 1.  `dur` is the duration of
the body (`Operation.duration`, only used by the specification). -/
inductive Op where
  | leaf (ps : List PulseInfo)
  | sched (items : Items)
  | flow (reps : Nat) (dur : Rat) (body : Op)

/-- The schedulables of a schedule with their `abs_time`. -/
inductive Items where
  | nil
  | cons (absTime : Rat) (op : Op) (rest : Items)
end

/-- `MicrowavePulseInfo` (auto_rf_switch.py:35-54) without the unused `schedulable_key`. -/
structure MwPulse where
  absTime : Rat
  duration : Rat
  port : String
  clock : String
deriving DecidableEq, Repr

/-- `end_time` (auto_rf_switch.py:51-54). -/
def MwPulse.endTime (p : MwPulse) : Rat := p.absTime + p.duration

/-- `VoltageOffsetEvent` (auto_rf_switch.py:16-32). -/
structure VoEvent where
  absTime : Rat
  port : String
  clock : String
  isNonzero : Bool
deriving DecidableEq, Repr

/-- One entry of `pulse_info` (auto_rf_switch.py:215-254). -/
def collectInfo (schedAbs : Rat) (p : PulseInfo) : List MwPulse × List VoEvent :=
  if !p.endsMw then ([], [])
  else if p.marker then ([], [])
  else if !p.hasWf then
    if p.duration = 0 then ([], [⟨schedAbs + p.t0, p.port, p.clock, p.nonzero⟩]) else ([], [])
  else if p.duration > 0 then ([⟨schedAbs + p.t0, p.duration, p.port, p.clock⟩], [])
  else ([], [])

/-- The loop over `pulse_info` (auto_rf_switch.py:214-254). -/
def collectInfos (schedAbs : Rat) : List PulseInfo → List MwPulse × List VoEvent
  | [] => ([], [])
  | p :: ps =>
    let a := collectInfo schedAbs p
    let b := collectInfos schedAbs ps
    (a.1 ++ b.1, a.2 ++ b.2)

mutual
/-- The body of the loop over schedulables (auto_rf_switch.py:197-254); `t` is the global absolute
time of the schedulable. -/
def collectOp (t : Rat) : Op → List MwPulse × List VoEvent
  | .leaf ps => collectInfos t ps
  | .sched items => collectItems t items
  | .flow _ _ (.sched items) => collectItems t items
  | .flow _ _ _ => ([], [])

/-- `_collect_all_mw_events_recursive` (auto_rf_switch.py:144-256). -/
def collectItems (offset : Rat) : Items → List MwPulse × List VoEvent
  | .nil => ([], [])
  | .cons absTime op rest =>
    let a := collectOp (offset + absTime) op
    let b := collectItems offset rest
    (a.1 ++ b.1, a.2 ++ b.2)
end

/-- The scan over the sorted events of one port-clock (auto_rf_switch.py:291-309). -/
def scanEvents (port clock : String) : Option Rat → List VoEvent → List MwPulse
  | _, [] => []
  | none, e :: es =>
    if e.isNonzero then scanEvents port clock (some e.absTime) es
    else scanEvents port clock none es
  | some s, e :: es =>
    if e.isNonzero then scanEvents port clock (some s) es
    else ⟨s, e.absTime - s, port, clock⟩ :: scanEvents port clock none es

/-- The keys of a `defaultdict(list)` in order of first occurrence. -/
def groupKeys {α : Type} (key : α → String × String) (l : List α) : List (String × String) :=
  l.foldl (fun ks x => if key x ∈ ks then ks else ks ++ [key x]) []

/-- The list of a key of a `defaultdict(list)`. -/
def groupOf {α : Type} (key : α → String × String) (l : List α) (k : String × String) : List α :=
  l.filter (fun x => key x == k)

/-- `_voltage_offset_events_to_pulses` (auto_rf_switch.py:259-313). -/
def eventsToPulses (events : List VoEvent) : List MwPulse :=
  (groupKeys (fun e => (e.port, e.clock)) events).flatMap (fun k =>
    scanEvents k.1 k.2 none
      ((groupOf (fun e => (e.port, e.clock)) events k).mergeSort
        (fun a b => decide (a.absTime ≤ b.absTime))))

/-- The tolerance `atol` (auto_rf_switch.py:420). -/
def atol : Rat := 1 / 1000000000000000

/-- The loop of `_merge_pulses_into_windows` (auto_rf_switch.py:421-436) with the current window. -/
def mergeLoop (rb : Rat) (cs ce : Rat) : List MwPulse → List (Rat × Rat)
  | [] => [(cs, ce)]
  | p :: ps =>
    if p.absTime - ce ≤ 2 * rb + atol then mergeLoop rb cs (max ce p.endTime) ps
    else (cs, ce) :: mergeLoop rb p.absTime p.endTime ps

/-- `_merge_pulses_into_windows` (auto_rf_switch.py:390-436). -/
def mergeWindows (rb : Rat) : List MwPulse → List (Rat × Rat)
  | [] => []
  | p :: ps => mergeLoop rb p.absTime p.endTime ps

/-- An inserted `RFSwitchToggle`. -/
structure Toggle where
  port : String
  clock : String
  start : Rat
  duration : Rat
deriving DecidableEq, Repr

/-- `_insert_rf_switch_operation` (auto_rf_switch.py:439-497). -/
def toggleOf (port clock : String) (rb : Rat) (w : Rat × Rat) : Toggle :=
  let start := max 0 (w.1 - rb)
  ⟨port, clock, start, (w.2 + rb) - start⟩

/-- All the pulses and offset windows of a schedule (auto_rf_switch.py:112-115). -/
def allPulses (root : Items) : List MwPulse :=
  let c := collectItems 0 root
  c.1 ++ eventsToPulses c.2

/-- `auto_rf_switch_dressing` (auto_rf_switch.py:57-141): the toggles appended to the root
schedule.  `config` is `none` if the pass is not enabled (99-106), else the ramp buffer. -/
def dressing (config : Option Rat) (root : Items) : List Toggle :=
  match config with
  | none => []
  | some rb =>
    let all := allPulses root
    (groupKeys (fun p => (p.port, p.clock)) all).flatMap (fun k =>
      (mergeWindows rb ((groupOf (fun p => (p.port, p.clock)) all k).mergeSort
        (fun a b => decide (a.absTime ≤ b.absTime)))).map (toggleOf k.1 k.2 rb))

end Verif.RfSwitch
