/-
Schedules that the package provides, and the schedule a measurement gate stands for:
quantify_scheduler/schedules/timedomain_schedules.py, spectroscopy_schedules.py, trace_schedules.py,
two_qubit_transmon_schedules.py, verification.py and
quantify_scheduler/operations/measurement_factories.py; with the timing pass of `Verif.Timing`.

Simplifications:
* Floats are exact rationals; voltages are real or complex numbers of an arbitrary type where they
  only are passed on (here: rationals).
* A schedulable without a label is called by its position in the schedule (in the code: a new
  random identifier).
* Schedules and loops inside a schedule are timed when the schedule is (compilation.py:127-143).
* Clock resources, names of schedules and repetitions are left out.
* Gates have the duration that the device configuration gives them: any function of the gate.
-/
import Verif.Timing.Model
import Mathlib.Algebra.Order.Field.Rat

namespace Verif.Experiments

open Verif.Timing (RefPt Item Constraint Err timing latestEnd)

/-- The name of a schedulable (schedules/schedule.py:804-805): its label, or the identifier made for
the `n`-th schedulable. -/
inductive Key where
  | label (s : String)
  | uuid (n : Nat)
deriving DecidableEq, Repr

mutual
/-- What is added to a schedule: an operation with its duration, a schedule (with its
`next_operation_delay`), or a loop. -/
inductive Op (L : Type) where
  | leaf (l : L) (dur : Rat)
  | sched (delay : Option Rat) (calls : Calls L)
  | loop (reps : Nat) (body : Op L)
/-- The calls of `Schedule.add` (schedules/schedule.py:755-763) in order. -/
inductive Calls (L : Type) where
  | nil
  | cons (op : Op L) (label : Option String) (rel : Rat) (ref : Option Key)
      (refPt : Option RefPt) (rest : Calls L)
end

variable {L : Type}

/-- `schedule.add(op, label=..)` with the defaults for the timing. -/
def Calls.add (op : Op L) (label : Option String) (rest : Calls L) : Calls L :=
  .cons op label 0 none none rest

/-- Calls one after the other. -/
def Calls.append : Calls L → Calls L → Calls L
  | .nil, b => b
  | .cons op l rel ref pt rest, b => .cons op l rel ref pt (rest.append b)

/-- `next_operation_delay` of an operation (compilation.py:219-220); only schedules have it. -/
def Op.delay : Op L → Option Rat
  | .sched d _ => d
  | _ => none

/-- The name given to the `n`-th schedulable. -/
def keyOf (n : Nat) : Option String → Key
  | some s => .label s
  | none => .uuid n

mutual
/-- `Operation.duration`, `Schedule.duration` after its timing, `LoopOperation.duration`
(operations/operation.py:150, schedules/schedule.py:623-656, control_flow_library.py:105-107). -/
def Op.duration : Op L → Except Err Rat
  | .leaf _ d => .ok d
  | .sched _ calls =>
    match calls.items 0 [] with
    | .error e => .error e
    | .ok items =>
      match timing .asap items with
      | .error e => .error e
      | .ok out => .ok (latestEnd out)
  | .loop n body =>
    match body.duration with
    | .error e => .error e
    | .ok d => .ok (n * d)
/-- The schedulables made by the calls (schedules/schedule.py:755-835), for the timing pass: `n` of
them are there, with the names `used`. A name in use is a `ValueError` (837-851). -/
def Calls.items : Calls L → Nat → List Key → Except Err (List (Item Key))
  | .nil, _, _ => .ok []
  | .cons op label rel ref pt rest, n, used =>
    if keyOf n label ∈ used then .error .valueError
    else
      match op.duration with
      | .error e => .error e
      | .ok d =>
        match rest.items (n + 1) (used ++ [keyOf n label]) with
        | .error e => .error e
        | .ok l => .ok (⟨keyOf n label, d, op.delay, [⟨ref, pt, none, rel⟩], none⟩ :: l)
end

/-- The timed schedulables of a schedule. -/
def Calls.timed (calls : Calls L) : Except Err (List (Item Key)) :=
  match calls.items 0 [] with
  | .error e => .error e
  | .ok items => timing .asap items

/-- `abs_time` of the schedulable with this name. -/
def absOf (out : List (Item Key)) (k : Key) : Rat :=
  (((out.find? (fun it => it.key = k)).bind (·.abs))).getD 0

/-- The same list at a later time. -/
def later (t : Rat) (l : List (Rat × L)) : List (Rat × L) := l.map (fun e => (t + e.1, e.2))

/-- A list that is repeated `n` times, `d` apart. -/
def repeated (d : Rat) (l : List (Rat × L)) : Nat → List (Rat × L)
  | 0 => []
  | n + 1 => l ++ later d (repeated d l n)

mutual
/-- What is played and when, relative to the start: the operations in the order of the
schedulables, loops unrolled (as by the passes after the timing, Flatten and Q1). -/
def Op.play : Op L → Except Err (List (Rat × L))
  | .leaf l _ => .ok [(0, l)]
  | .sched _ calls =>
    match calls.timed with
    | .error e => .error e
    | .ok out => calls.playAll out 0
  | .loop n body =>
    match body.duration, body.play with
    | .ok d, .ok l => .ok (repeated d l n)
    | .error e, _ => .error e
    | _, .error e => .error e
/-- The schedulables from the `n`-th on. -/
def Calls.playAll : Calls L → List (Item Key) → Nat → Except Err (List (Rat × L))
  | .nil, _, _ => .ok []
  | .cons op label _ _ _ rest, out, n =>
    match op.play, rest.playAll out (n + 1) with
    | .ok l, .ok r => .ok (later (absOf out (keyOf n label)) l ++ r)
    | .error e, _ => .error e
    | _, .error e => .error e
end

/-! ## Gates and pulses of the experiments -/

/-- Gates (operations/gate_library.py, nv_native_library.py, shared_native_library.py), pulses and
acquisitions of the experiments. -/
inductive Act where
  | reset (qs : List String)
  | rxy (theta phi : Rat) (q : String)
  | measure (qs : List String) (protocol : Option String) (append : Bool)
  | chargeReset (q : String)
  | crCount (q : String)
  | spectroscopy (q : String)
  | idle (dur : Rat)
  | drag (gAmp dAmp : Rat) (dur : Rat) (port clock : String)
  | square (amp : Rat) (dur : Rat) (port clock : String)
  | setFreq (clock : String) (freq : Rat)
  | offset (re im : Rat) (port clock : String)
  | ssb (dur : Rat) (port clock : String) (channel : Nat) (index : Option Nat)
  | trace (dur : Rat) (port clock : String) (channel : Nat)
deriving DecidableEq, Repr

/-- The durations of the gates. -/
abbrev Dev := Act → Rat

/-- The duration of an operation: its own, or that of the device configuration. -/
def durOf (dev : Dev) : Act → Rat
  | .idle d => d
  | .drag _ _ d _ _ => d
  | .square _ d _ _ => d
  | .setFreq _ _ => 0
  | .offset _ _ _ _ => 0
  | .ssb d _ _ _ _ => d
  | .trace d _ _ _ => d
  | a => dev a

/-- An operation of an experiment. -/
def op (dev : Dev) (a : Act) : Op Act := .leaf a (durOf dev a)

/-- `X`, `X90` and `Y` are `Rxy` gates (gate_library.py:76-270). -/
def gX (q : String) : Act := .rxy 180 0 q
/-- See `gX`. -/
def gX90 (q : String) : Act := .rxy 90 0 q
/-- See `gX`. -/
def gY (q : String) : Act := .rxy 180 90 q

/-- `Measure(q)`. -/
def gM (q : String) : Act := .measure [q] none false

/-- f"{prefix}{i}". -/
def lab (p : String) (i : Nat) : Option String := some (p ++ toString i)

/-- `for i, x in enumerate(xs): …`. -/
def forEach {X : Type} (f : Nat → X → Calls L → Calls L) : Nat → List X → Calls L
  | _, [] => .nil
  | i, x :: xs => f i x (forEach f (i + 1) xs)

/-- `t1_sched` (timedomain_schedules.py:106-152). -/
def t1Sched (dev : Dev) (times : List Rat) (q : String) : Op Act :=
  .sched none (forEach (fun i tau rest =>
    .add (op dev (.reset [q])) (lab "Reset " i) <|
    .add (op dev (gX q)) (lab "pi " i) <|
    .cons (op dev (gM q)) (lab "Measurement " i) tau none (some .start) rest) 0 times)

/-- `ramsey_sched` (timedomain_schedules.py:155-218); `np.rad2deg(2 * np.pi * x)` is `360 * x`. -/
def ramseySched (dev : Dev) (times : List Rat) (q : String) (detuning : Rat) : Op Act :=
  .sched none (forEach (fun i tau rest =>
    .add (op dev (.reset [q])) (lab "Reset " i) <|
    .add (op dev (gX90 q)) none <|
    .cons (op dev (.rxy 90 (360 * (detuning * tau)) q)) none tau none (some .start) <|
    .add (op dev (gM q)) (lab "Measurement " i) rest) 0 times)

/-- `echo_sched` (timedomain_schedules.py:221-266). -/
def echoSched (dev : Dev) (times : List Rat) (q : String) : Op Act :=
  .sched none (forEach (fun i tau rest =>
    .add (op dev (.reset [q])) (lab "Reset " i) <|
    .add (op dev (gX90 q)) none <|
    .cons (op dev (gX q)) none (tau / 2) none (some .start) <|
    .cons (op dev (gX90 q)) none (tau / 2) none (some .start) <|
    .add (op dev (gM q)) (lab "Measurement " i) rest) 0 times)

/-- The variants of `cpmg_sched`. -/
inductive Variant where
  | x | y | xy
deriving DecidableEq, Repr

/-- Is it a power of two? (`np.log2(n) % 1 == 0`, timedomain_schedules.py:329; at most 64 bits.) -/
def isPow2 (n : Nat) : Bool := (List.range 64).any (fun k => n = 2 ^ k)

/-- The loop body of `cpmg_sched` (timedomain_schedules.py:338-363). -/
def cpmgInner (dev : Dev) (idle : Rat) (q : String) (i : Nat) : Variant → Calls Act
  | .xy =>
    .add (op dev (.idle idle)) none <|
    .add (op dev (gX q)) (lab "pi_x " i) <|
    .cons (op dev (.idle (2 * idle))) none 0 none (some .start) <|
    .add (op dev (gY q)) (lab "pi_y " i) <|
    .cons (op dev (.idle idle)) none 0 none (some .start) .nil
  | v =>
    .add (op dev (.idle idle)) none <|
    .add (op dev (if v = .x then gX q else gY q)) (lab "pi " i) <|
    .cons (op dev (.idle idle)) none 0 none (some .start) .nil

/-- `cpmg_sched` (timedomain_schedules.py:269-378). -/
def cpmgSched (dev : Dev) (n : Nat) (times : List Rat) (q : String) (v : Variant) (detuning : Rat) :
    Except Err (Op Act) :=
  if isPow2 n = false then .error .valueError
  else if times ≠ [] ∧ v = .xy ∧ n < 2 then .error .valueError
  else .ok (.sched none (forEach (fun i tau rest =>
    .add (op dev (.reset [q])) (lab "Reset " i) <|
    .add (op dev (gX90 q)) none <|
    .cons (.loop (if v = .xy then n / 2 else n) (.sched none (cpmgInner dev (tau / (2 * n)) q i v)))
      (lab "loop " i) (4 / 1000000000) none (some .start) <|
    .add (op dev (.rxy 90 (360 * (detuning * tau)) q)) none <|
    .add (op dev (gM q)) (lab "Measurement " i) rest) 0 times))

/-- One value is used for all (timedomain_schedules.py:64-84). -/
def broadcast (amps durations : List Rat) : Except Err (List (Rat × Rat)) :=
  match amps, durations with
  | [a], ds => .ok (ds.map (fun d => (a, d)))
  | as, [d] => .ok (as.map (fun a => (a, d)))
  | as, ds => if ds.length ≠ as.length then .error .valueError else .ok (as.zip ds)

/-- `rabi_sched` (timedomain_schedules.py:29-103). -/
def rabiSched (dev : Dev) (amps durations : List Rat) (q : String) (port clock : Option String) :
    Except Err (Op Act) :=
  match broadcast amps durations with
  | .error e => .error e
  | .ok l => .ok (.sched none (forEach (fun i (x : Rat × Rat) rest =>
      .add (op dev (.reset [q])) (lab "Reset " i) <|
      .add (op dev (.drag x.1 0 x.2 (port.getD (q ++ ":mw")) (clock.getD (q ++ ".01"))))
        (lab "Rabi_pulse " i) <|
      .add (op dev (gM q)) (lab "Measurement " i) rest) 0 l))

/-- The combinations of `allxy_sched` (timedomain_schedules.py:415-437). -/
def allxyCombinations : List ((Rat × Rat) × (Rat × Rat)) :=
  [((0, 0), (0, 0)),
   ((180, 0), (180, 0)),
   ((180, 90), (180, 90)),
   ((180, 0), (180, 90)),
   ((180, 90), (180, 0)),
   ((90, 0), (0, 0)),
   ((90, 90), (0, 0)),
   ((90, 0), (90, 90)),
   ((90, 90), (90, 0)),
   ((90, 0), (180, 90)),
   ((90, 90), (180, 0)),
   ((180, 0), (90, 90)),
   ((180, 90), (90, 0)),
   ((90, 0), (180, 0)),
   ((180, 0), (90, 0)),
   ((90, 90), (180, 90)),
   ((180, 90), (90, 90)),
   ((180, 0), (0, 0)),
   ((180, 90), (0, 0)),
   ((90, 0), (90, 0)),
   ((90, 90), (90, 90))]

/-- The selected combinations, or the exception of the first wrong index
(timedomain_schedules.py:440-447). -/
def allxySelect : List Int → Except Err (List ((Rat × Rat) × (Rat × Rat)))
  | [] => .ok []
  | i :: is =>
    if i > allxyCombinations.length ∨ i < 0 then .error .valueError
    else
      match allxyCombinations[i.toNat]? with
      | none => .error .indexError
      | some c =>
        match allxySelect is with
        | .error e => .error e
        | .ok l => .ok (c :: l)

/-- `allxy_sched` (timedomain_schedules.py:381-453). -/
def allxySched (dev : Dev) (q : String) (idx : List Int) : Except Err (Op Act) :=
  match allxySelect idx with
  | .error e => .error e
  | .ok l => .ok (.sched none (forEach (fun i (c : (Rat × Rat) × (Rat × Rat)) rest =>
      .add (op dev (.reset [q])) (lab "Reset " i) <|
      .add (op dev (.rxy c.1.1 c.1.2 q)) none <|
      .add (op dev (.rxy c.2.1 c.2.2 q)) none <|
      .add (op dev (gM q)) (lab "Measurement " i) rest) 0 l))

/-- Are the states supported (timedomain_schedules.py:497-508)? -/
def checkStates : List Int → Except Err Unit
  | [] => .ok ()
  | s :: ss =>
    if s = 0 ∨ s = 1 then checkStates ss
    else if s = 2 then .error .notImplemented
    else .error .valueError

/-- `readout_calibration_sched` (timedomain_schedules.py:456-513). -/
def readoutCalibrationSched (dev : Dev) (q : String) (states : List Int) (protocol : String) :
    Except Err (Op Act) :=
  match checkStates states with
  | .error e => .error e
  | .ok _ => .ok (.sched none (forEach (fun i (s : Int) rest =>
      .add (op dev (.reset [q])) (lab "Reset " i) <|
      (fun r => if s = 1 then .add (op dev (.rxy 180 0 q)) none r else r) <|
      .add (op dev (.measure [q] (some protocol) true)) (lab "Measurement " i) rest) 0 states))

/-- The pulses of a pulse-level experiment: a pulse on a port and clock. -/
structure Tone where
  amp : Rat
  dur : Rat
  port : String
  clock : String
deriving DecidableEq, Repr

/-- The square pulse. -/
def Tone.act (t : Tone) : Act := .square t.amp t.dur t.port t.clock

/-- `rabi_pulse_sched` (timedomain_schedules.py:516-626). -/
def rabiPulseSched (dev : Dev) (gAmp dAmp : Rat) (mwDur : Rat) (mwPort mwClock : String) (ro : Tone)
    (roDelay acqDelay integration init : Rat) : Op Act :=
  .sched none (
    .add (op dev (.idle init)) (some "qubit reset") <|
    .cons (op dev (.drag gAmp dAmp mwDur mwPort mwClock)) (some "Rabi_pulse") 0 none (some .stop) <|
    .cons (op dev ro.act) (some "readout_pulse") roDelay none none <|
    .cons (op dev (.ssb integration ro.port ro.clock 0 none)) (some "acquisition") acqDelay
      (some (.label "readout_pulse")) (some .start) .nil)

/-- `trace_schedule` (trace_schedules.py:32-107). -/
def traceSched (dev : Dev) (pulse : Tone) (delay acqDelay integration init : Rat) : Op Act :=
  .sched none (
    .add (op dev (.idle init)) (some "Dead time") <|
    .cons (op dev pulse.act) (some "trace_pulse") delay none none <|
    .cons (op dev (.trace integration pulse.port pulse.clock 0)) (some "acquisition") acqDelay
      (some (.label "trace_pulse")) (some .start) .nil)

/-- `two_tone_trace_schedule` (trace_schedules.py:135-243). -/
def twoToneTraceSched (dev : Dev) (pulse ro : Tone) (roDelay acqDelay integration init : Rat) :
    Op Act :=
  .sched none (
    .add (op dev (.idle init)) (some "Reset") <|
    .add (op dev pulse.act) (some "qubit_pulse") <|
    .cons (op dev ro.act) (some "readout_pulse") roDelay none none <|
    .cons (op dev (.trace integration ro.port ro.clock 0)) (some "acquisition") acqDelay
      (some (.label "readout_pulse")) (some .start) .nil)

/-- `long_time_trace` (trace_schedules.py:249-351) with `pulse_delay = 0`. -/
def longTimeTrace (dev : Dev) (re im : Rat) (acqDelay integration : Rat) (port clock : String)
    (points : Nat) (index : Nat) : Op Act :=
  .sched none (
    .add (op dev (.offset re im port clock)) none <|
    .cons (.loop points (.sched none (.add (op dev (.ssb integration port clock 0 (some index))) none .nil)))
      none acqDelay none (some .start) <|
    .cons (op dev (.offset 0 0 port clock)) none (4 / 1000000000) none none <|
    .add (op dev (.idle (4 / 1000000000))) none .nil)

/-- `heterodyne_spec_sched` (spectroscopy_schedules.py:26-99). -/
def heterodyneSched (dev : Dev) (pulse : Tone) (portOut : Option String)
    (acqDelay integration init : Rat) : Op Act :=
  .sched none (
    .add (op dev (.idle init)) (some "buffer") <|
    .add (op dev (.square pulse.amp pulse.dur (portOut.getD pulse.port) pulse.clock))
      (some "spec_pulse") <|
    .cons (op dev (.ssb integration pulse.port pulse.clock 0 (some 0))) (some "acquisition") acqDelay
      (some (.label "spec_pulse")) (some .start) .nil)

/-- `heterodyne_spec_sched_nco` (spectroscopy_schedules.py:102-235). `fmt f` is f"{f:e}". -/
def heterodyneNcoSched (dev : Dev) (fmt : Rat → String) (pulse : Tone) (portOut : Option String)
    (freqs : List Rat) (acqDelay integration init : Rat) : Op Act :=
  .sched none (forEach (fun i f rest =>
    .add (op dev (.idle init)) (lab "buffer " i) <|
    .add (op dev (.setFreq pulse.clock f))
      (some ("set_freq " ++ toString i ++ " (" ++ pulse.clock ++ " " ++ fmt f ++ " Hz)")) <|
    .add (op dev (.square pulse.amp pulse.dur (portOut.getD pulse.port) pulse.clock))
      (some ("spec_pulse " ++ toString i ++ ")")) <|
    .cons (op dev (.ssb integration pulse.port pulse.clock 0 (some i)))
      (some ("acquisition " ++ toString i ++ ")")) acqDelay
      (some (.label ("spec_pulse " ++ toString i ++ ")"))) (some .start) rest) 0 freqs)

/-- `two_tone_spec_sched` (spectroscopy_schedules.py:238-338). -/
def twoToneSched (dev : Dev) (spec ro : Tone) (roDelay acqDelay integration init : Rat) : Op Act :=
  .sched none (
    .add (op dev (.idle init)) (some "buffer") <|
    .add (op dev spec.act) (some "spec_pulse") <|
    .cons (op dev ro.act) (some "readout_pulse") roDelay none none <|
    .cons (op dev (.ssb integration ro.port ro.clock 0 (some 0))) (some "acquisition") acqDelay
      (some (.label "readout_pulse")) (some .start) .nil)

/-- `two_tone_spec_sched_nco` (spectroscopy_schedules.py:341-517). -/
def twoToneNcoSched (dev : Dev) (fmt : Rat → String) (spec ro : Tone) (freqs : List Rat)
    (roDelay acqDelay integration init : Rat) : Op Act :=
  .sched none (forEach (fun i f rest =>
    .add (op dev (.idle init)) (lab "buffer " i) <|
    .add (op dev (.setFreq spec.clock f))
      (some ("set_freq " ++ toString i ++ " (" ++ spec.clock ++ " " ++ fmt f ++ " Hz)")) <|
    .add (op dev spec.act) (lab "spec_pulse " i) <|
    .cons (op dev ro.act) (lab "readout_pulse " i) roDelay
      (some (.label ("spec_pulse " ++ toString i))) (some .stop) <|
    .cons (op dev (.ssb integration ro.port ro.clock 0 (some i))) (lab "acquisition " i) acqDelay
      (some (.label ("readout_pulse " ++ toString i))) (some .start) rest) 0 freqs)

/-- `nv_dark_esr_sched` (spectroscopy_schedules.py:520-554). -/
def nvDarkEsrSched (dev : Dev) (q : String) : Op Act :=
  .sched none (
    .add (op dev (.chargeReset q)) (some "Charge reset") <|
    .add (op dev (.crCount q)) (some "CRCount pre") <|
    .add (op dev (.reset [q])) (some "Reset") <|
    .add (op dev (.spectroscopy q)) (some "Spectroscopy") <|
    .add (op dev (gM q)) (some "Measure") <|
    .add (op dev (.crCount q)) (some "CRCount post") .nil)

/-- `nv_dark_esr_sched_nco` (spectroscopy_schedules.py:557-603). -/
def nvDarkEsrNcoSched (dev : Dev) (fmt : Rat → String) (q clock : String) (freqs : List Rat) :
    Op Act :=
  .sched none (
    .add (op dev (.chargeReset q)) (some "Charge reset pre 0") <|
    .add (op dev (.crCount q)) (some "CRCount pre 0") <|
    forEach (fun i f rest =>
      .add (op dev (.setFreq clock f)) (some ("set_freq (" ++ clock ++ " " ++ fmt f ++ " Hz)")) <|
      .add (op dev (.reset [q])) (lab "Reset " i) <|
      .add (op dev (.spectroscopy q)) (some ("Spectroscopy (" ++ fmt f ++ " Hz)")) <|
      .add (op dev (gM q)) (lab "Measure " i) <|
      .add (op dev (.crCount q)) (lab "CRCount post " i) rest) 0 freqs)

/-- `chevron_cz_sched` (two_qubit_transmon_schedules.py:13-117). -/
def chevronSched (dev : Dev) (lf hf : String) (amps : List Rat) (dur : Rat) (port : Option String) :
    Op Act :=
  .sched none (forEach (fun i amp rest =>
    .add (op dev (.reset [lf, hf])) (lab "Reset " i) <|
    .add (op dev (gX lf)) (lab ("X(" ++ lf ++ ") ") i) <|
    .cons (op dev (gX hf)) (lab ("X(" ++ hf ++ ") ") i) 0
      (some (.label ("X(" ++ lf ++ ") " ++ toString i))) (some .start) <|
    .add (op dev (.square amp dur (port.getD (hf ++ ":fl")) "cl0.baseband"))
      (lab ("SquarePulse(" ++ port.getD (hf ++ ":fl") ++ ") ") i) <|
    .add (op dev (.measure [lf, hf] none false)) (lab ("Measure(" ++ lf ++ "," ++ hf ++ ") ") i) rest)
    0 amps)

/-- `acquisition_staircase_sched` and `awg_staircase_sched` (verification.py:22-110, 113-211): the
pulse on one port and clock, the acquisition on the same or another. -/
def staircaseSched (dev : Dev) (amps : List Rat) (dur : Rat) (port clock acqPort acqClock : String)
    (channel : Nat) (acqDelay integration init : Rat) : Op Act :=
  .sched none (forEach (fun i amp rest =>
    .add (op dev (.idle init)) none <|
    .add (op dev (.square amp dur port clock)) (lab "SquarePulse_" i) <|
    .cons (op dev (.ssb integration acqPort acqClock channel none)) (lab "Acquisition_" i) acqDelay
      (some (.label ("SquarePulse_" ++ toString i))) (some .start) rest) 0 amps)

/-- The loop of `multiplexing_staircase_sched` (verification.py:311-327): the `n`-th schedulable is
next, `ref` is the reference pulse. -/
def multiplexingLoop (dev : Dev) (dur : Rat) (port clock0 clock1 : String)
    (acqDelay integration : Rat) : Nat → Nat → List (Rat × Rat) → Calls Act
  | _, _, [] => .nil
  | n, ref, (a0, a1) :: rest =>
    .cons (op dev (.square a0 dur port clock0)) none 0 (some (.uuid ref)) (some .stop) <|
    .cons (op dev (.ssb integration port clock0 0 none)) none acqDelay (some (.uuid n)) (some .start) <|
    .cons (op dev (.square a1 dur port clock1)) none 0 (some (.uuid ref)) (some .stop) <|
    .cons (op dev (.ssb integration port clock1 1 none)) none acqDelay (some (.uuid (n + 2)))
      (some .start) <|
    multiplexingLoop dev dur port clock0 clock1 acqDelay integration (n + 4) (n + 2) rest

/-- `multiplexing_staircase_sched` (verification.py:214-329). -/
def multiplexingSched (dev : Dev) (amps : List Rat) (dur : Rat) (port clock0 clock1 : String)
    (acqDelay integration init : Rat) : Op Act :=
  .sched none (.add (op dev (.idle init)) none
    (multiplexingLoop dev dur port clock0 clock1 acqDelay integration 1 0 (amps.zip amps.reverse)))

end Verif.Experiments
