/-
Pulse compensation (quantify_scheduler/pulse_compensation.py,
quantify_scheduler/operations/pulse_compensation_library.py,
quantify_scheduler/helpers/waveforms.py:515-552).

Simplifications: floats and complex numbers are exact rationals; a schedule is a tree (the
operations dict of a schedule is inlined at its schedulables; processing one shared object twice
is the same as processing it once, because processing leaves no compensation block behind);
sampled waveforms are given by their samples at the sampling rate; the timing pass
`_determine_absolute_timing` is a parameter `T` of the model (its model is in Verif/Timing).
-/
import Verif.Common.Dict
import Mathlib.Data.Rat.Defs
import Mathlib.Algebra.Order.Ring.Rat
import Mathlib.Algebra.Order.Field.Rat

namespace Verif.Compensation

/-- Exceptions. -/
inductive Err where
  | valueError | assertion | keyError | typeError | zeroDivision
deriving DecidableEq, Repr

/-- The waveform of a pulse: `square` with an amplitude, another function with its samples, or no
`wf_func`. -/
inductive Wf where
  | square (amp : Rat)
  | sampled (samples : List Rat)
  | none
deriving DecidableEq, Repr

/-- An entry of `pulse_info`; `offset`: it has `offset_path_I` or `offset_path_Q`. -/
structure Info where
  port : String
  clock : String
  t0 : Rat
  dur : Rat
  wf : Wf
  offset : Bool
deriving DecidableEq, Repr

mutual
/-- Operations and schedules. -/
inductive Op where
  /-- a plain operation; acquisitions: port and end -/
  | plain (infos : List Info) (acqs : List (String × Rat))
  /-- `Schedule`, its cached duration -/
  | sched (items : Items) (dur : Option Rat)
  /-- `LoopOperation` -/
  | loop (body : Op) (reps : Nat)
  /-- `ConditionalOperation`, its `hardware_buffer_time` -/
  | cond (body : Op) (buffer : Rat)
  /-- another control-flow operation -/
  | other (body : Op)
  /-- `PulseCompensation` -/
  | comp (body : Op) (maxAmp : List (String × Rat)) (grid rate : Rat)
/-- Schedulables: their `abs_time` if determined, and operation. -/
inductive Items where
  | nil
  | cons (abs : Option Rat) (op : Op) (rest : Items)
end

/-- Maximum of a list, default 0: `max(map(...), default=0)` (operations/operation.py:139-142). -/
def maxDefault : List Rat → Rat
  | [] => 0
  | x :: xs => xs.foldl max x

/-- `duration` (operations/operation.py:139-157, schedules/schedule.py:649-656,
control_flow_library.py); `none` for a schedule that has not been timed. -/
def Op.duration : Op → Option Rat
  | .plain infos acqs => some (maxDefault (infos.map (fun i => i.t0 + i.dur) ++ acqs.map Prod.snd))
  | .sched _ d => d
  | .loop body reps => (body.duration).map (fun d => reps * d)
  | .cond body b => (body.duration).map (fun d => d + b)
  | .other body => body.duration
  | .comp _ _ _ _ => some 0

/-- `BasebandClockResource.IDENTITY`. -/
def baseband : String := "cl0.baseband"

/-- `SumEnd` (pulse_compensation.py:34-46). -/
structure SumEnd where
  sum : Rat
  stop : Rat
deriving DecidableEq, Repr

/-- `SumEnd.merge` (41-46). -/
def SumEnd.merge (a b : SumEnd) : SumEnd := ⟨a.sum + b.sum, max a.stop b.stop⟩

/-- The entry for one port (56-62). -/
def mergeAt (a b : List (String × SumEnd)) (p : String) : Option SumEnd :=
  match Dict.get? a p, Dict.get? b p with
  | some x, some y => some (x.merge y)
  | some x, none => some x
  | none, some y => some y
  | none, none => none

/-- `_merge_sum_and_end` (49-63); the order of the result (that of a set in the code) is arbitrary. -/
def mergeAll (a b : List (String × SumEnd)) : List (String × SumEnd) :=
  (Dict.keys a ++ (Dict.keys b).filter (fun p => decide (p ∉ Dict.keys a))).filterMap
    (fun p => (mergeAt a b p).map (fun v => (p, v)))

/-- `area_pulse` (helpers/waveforms.py:515-552). The mean of no samples is `nan`, which makes
`math.ceil` raise a `ValueError` later (pulse_compensation.py:230). -/
def areaPulse (i : Info) (rate : Rat) : Except Err Rat :=
  if ¬ rate > 0 then .error .valueError
  else match i.wf with
    | .square a => .ok (a * i.dur)
    | .sampled s => if s.isEmpty then .error .valueError else .ok (s.sum / s.length * i.dur)
    | .none => .error .typeError

/-- The loop over `pulse_info` (149-168). -/
def sumInfos (rate : Rat) (ports : List String) (off : Rat) (cond : Bool) :
    List Info → List (String × SumEnd) → Except Err (List (String × SumEnd))
  | [], acc => .ok acc
  | i :: is, acc =>
    if i.port ∈ ports ∧ i.clock = baseband then
      if cond then .error .valueError
      else do
        let a ← areaPulse i rate
        sumInfos rate ports off cond is (mergeAll acc [(i.port, ⟨a, off + i.t0 + i.dur⟩)])
    else sumInfos rate ports off cond is acc

/-- The scaling of sums and ends by a loop (117-122). -/
def loopSums (reps : Nat) (dur : Option Rat) :
    List (String × SumEnd) → Except Err (List (String × SumEnd))
  | [] => .ok []
  | (p, se) :: rest =>
    match dur with
    | none => .error .typeError
    | some d => do
      let r ← loopSums reps dur rest
      .ok ((p, ⟨reps * se.sum, ((reps : Rat) - 1) * d + se.stop⟩) :: r)

/-- `operation.has_voltage_offset` on one of the ports (138-147); ports of acquisitions count
too. -/
def offsetOn (ports : List String) (infos : List Info) (acqs : List (String × Rat)) : Bool :=
  infos.any (fun i => i.offset) &&
    (infos.map Info.port ++ acqs.map Prod.fst).any (fun p => decide (p ∈ ports))

mutual
/-- `_determine_sum_and_end_of_all_pulses` (66-170). -/
def sumEnd (rate : Rat) (ports : List String) : Op → Rat → Bool →
    Except Err (List (String × SumEnd))
  | .comp _ _ _ _, _, _ => .error .assertion
  | .sched items _, off, c => sumItems rate ports items off c []
  | .loop body reps, off, c => do
    let b ← sumEnd rate ports body off c
    if reps = 0 then .error .assertion else loopSums reps body.duration b
  | .cond body _, off, _ => sumEnd rate ports body off true
  | .other _, _, _ => .error .valueError
  | .plain infos acqs, off, c =>
    if offsetOn ports infos acqs then .error .valueError
    else sumInfos rate ports off c infos []
/-- The loop over the schedulables (99-108). -/
def sumItems (rate : Rat) (ports : List String) : Items → Rat → Bool → List (String × SumEnd) →
    Except Err (List (String × SumEnd))
  | .nil, _, _, acc => .ok acc
  | .cons abs op rest, off, c, acc =>
    match abs with
    | none => .error .keyError
    | some a => do
      let n ← sumEnd rate ports op (off + a) c
      sumItems rate ports rest off c (mergeAll acc n)
end

/-- `CompensationPulseParams` (173-179). -/
structure Params where
  start : Rat
  dur : Rat
  amp : Rat
deriving DecidableEq, Repr

/-- The loop of `_determine_compensation_pulse` (225-236). -/
def compParams (maxAmp : List (String × Rat)) (grid : Rat) :
    List (String × SumEnd) → Except Err (List (String × Params))
  | [] => .ok []
  | (p, se) :: rest =>
    match Dict.get? maxAmp p with
    | none => compParams maxAmp grid rest
    | some m =>
      if se.sum = 0 then compParams maxAmp grid rest
      else if grid = 0 ∨ m = 0 then .error .zeroDivision
      else
        let dur : Rat := ((|se.sum| / grid / m).ceil : Rat) * grid
        if dur = 0 then .error .zeroDivision
        else do
          let r ← compParams maxAmp grid rest
          .ok ((p, ⟨se.stop, dur, -se.sum / dur⟩) :: r)

/-- The timing before the sums are determined (215-219): only if the body is a schedule. -/
def timed (T : Op → Except Err Op) : Op → Except Err Op
  | .sched items d => T (.sched items d)
  | op => .ok op

/-- `_determine_compensation_pulse` (182-238). -/
def compensationPulse (T : Op → Except Err Op) (op : Op) (maxAmp : List (String × Rat))
    (grid rate : Rat) : Except Err (List (String × Params)) := do
  let t ← timed T op
  let s ← sumEnd rate (Dict.keys maxAmp) t 0 false
  compParams maxAmp grid s

/-- The compensation pulse `SquarePulse(amp, duration, port, baseband)` (312-317). -/
def squareOp (p : String) (q : Params) : Op :=
  .plain [⟨p, baseband, 0, q.dur, .square q.amp, false⟩] []

/-- The schedulables of the compensation pulses (307-323): relative to the start of the body, which
is at 0. -/
def compItems : List (String × Params) → Items
  | [] => .nil
  | (p, q) :: rest => .cons (some q.start) (squareOp p q) (compItems rest)

mutual
/-- `process_compensation_pulses` (241-326). -/
def process (T : Op → Except Err Op) : Op → Except Err Op
  | .plain infos acqs => .ok (.plain infos acqs)
  | .sched items d => do
    let is ← processItems T items
    .ok (.sched is d)
  | .loop body reps => do
    let b ← process T body
    .ok (.loop b reps)
  | .cond body buf => do
    let b ← process T body
    .ok (.cond b buf)
  | .other body => do
    let b ← process T body
    .ok (.other b)
  | .comp body maxAmp grid rate => do
    let b ← process T body
    let ps ← compensationPulse T b maxAmp grid rate
    .ok (.sched (.cons (some 0) b (compItems ps)) none)
/-- The loop over the operations (276-284). -/
def processItems (T : Op → Except Err Op) : Items → Except Err Items
  | .nil => .ok .nil
  | .cons abs op rest => do
    let o ← process T op
    let r ← processItems T rest
    .ok (.cons abs o r)
end

end Verif.Compensation
