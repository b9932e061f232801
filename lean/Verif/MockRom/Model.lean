/-
Model of the mock readout module: its compiler backend, the simulated instrument and the component of the instrument
coordinator (quantify_scheduler/backends/mock/mock_rom.py:46-405).

Simplifications:
* Samples are values of any type `K` with a product; a waveform with its carrier is a function of the intermediate
  frequency and of the time (`exec_waveform_function` and `modulate_waveform`, helpers/waveforms.py, work sample by
  sample for the waveforms a user of this backend can play), and time is an exact rational, so that `np.arange` has
  the number of elements intended.
* Operations are plain operations, given by their class, `pulse_info` and `acquisition_info`, or something else
  (schedules, loops and conditionals, with the acquisitions in them).
* `random()` is a stream of numbers; `draws k` is the k-th number drawn in an execution.
* Of the name of an input of the instrument there is what follows its first underscore, up to the next one, as far as
  it is an integer; and whether it contains the text "TRACE".
* Acquisition indices are those of `Verif.AcqIndices`.
* The result is a dict of traces and a dict of the values at each channel and acquisition index.
-/
import Verif.AcqIndices.Model
import Mathlib.Algebra.Order.Field.Rat
import Mathlib.Data.Rat.Floor

namespace Verif.MockRom

open Verif.AcqIndices (Info Coord Coords Data Idx BinMode)

variable {Ch U K : Type} [DecidableEq Ch]

/-- Exceptions. -/
inductive Err where
  | valueError | assertion | notImplemented | runtime | zeroDivision | index | key | type
deriving DecidableEq, Repr

/-- An entry of `pulse_info`; `wf`: the waveform with its carrier, at a frequency and a time. -/
structure Pulse (K : Type) where
  port : String
  clock : String
  dur : Rat
  wf : Option (Rat → Rat → K × K)

/-- An entry of `acquisition_info`. -/
structure AcqInfo (Ch U : Type) where
  port : String
  clock : String
  info : Info Ch U

/-- The class of an operation. -/
inductive Cls where
  | trace | ssb | other
deriving DecidableEq, Repr

/-- A plain operation. -/
structure PlainOp (Ch U K : Type) where
  hash : String
  cls : Cls
  pulses : List (Pulse K)
  acqs : List (AcqInfo Ch U)

/-- What a schedulable refers to. -/
inductive Op (Ch U K : Type) where
  | plain (o : PlainOp Ch U K)
  | nested (o : AcqIndices.Op Ch U)

/-- A schedulable. -/
structure Item (Ch U K : Type) where
  name : String
  abs : Rat
  op : Op Ch U K

/-- An input of the instrument: the part of its name between its first two underscores, if there is an underscore,
as an integer, if it is one; and whether the name contains "TRACE". -/
structure HwPort where
  second : Option (Option Int)
  trace : Bool
deriving DecidableEq, Repr

/-- The configuration (382-389): `sampling_rate`, `gain`, `modulation_frequencies`, and the inputs connected to
"q0:res" (`none` where a node has no dot). -/
structure Config (K : Type) where
  rate : Option Rat
  gain : Option (List (String × K))
  freqs : Option (List (String × Option Rat))
  readout : Option (List (Option HwPort))

/-- An instruction, `TRACE_<port>_<location>` or `ACQ_<port>_<location>`. -/
structure Instr where
  trace : Bool
  port : HwPort
  loc : Nat
deriving DecidableEq, Repr

/-- The loop of `hardware_compile`: instructions, waveforms (by hash, and I or Q), the next location, the mappings
and `gain_setting`. -/
structure CS (Ch K : Type) where
  instrs : List Instr
  waves : List ((String × Bool) × List K)
  next : Nat
  tmap : List (Ch × Nat)
  bmap : List ((Ch × Nat) × Nat)
  gain : Option K

/-- `MockROMSettings` (140-150). -/
structure Settings (Ch U K : Type) where
  waves : List ((String × Bool) × List K)
  instrs : List Instr
  rate : Rat
  gain : K
  acq : List (Ch × Data U)
  tmap : List (Ch × Nat)
  bmap : List ((Ch × Nat) × Nat)
deriving DecidableEq

/-- The acquisitions of an operation. -/
def toOp : Op Ch U K → AcqIndices.Op Ch U
  | .plain o => .plain (o.acqs.map AcqInfo.info)
  | .nested o => o

/-- The schedule, for `generate_acq_channels_data`. -/
def toItems : List (Item Ch U K) → AcqIndices.Items Ch U
  | [] => .nil
  | i :: is => .cons i.name i.abs (toOp i.op) (toItems is)

/-- `np.arange(0, duration, 1 / sampling_rate)` (296). -/
def grid (dur rate : Rat) : List Rat := (List.range ⌈dur * rate⌉.toNat).map (fun k : Nat => (k : Rat) / rate)

/-- `connectivity.graph["q0:res"]` and `node.split(".")[1]` (323-324, 343-344). -/
def readoutPorts (readout : Option (List (Option HwPort))) : Except Err (List HwPort) :=
  match readout with
  | none => .error .key
  | some l => l.foldr (fun p r =>
      match p, r with
      | none, _ => .error .index
      | some _, .error e => .error e
      | some p, .ok r => .ok (p :: r)) (.ok [])

/-- The key of the hardware options. -/
def pc (port clock : String) : String := port ++ "-" ++ clock

/-- The gain (327-333). -/
def newGain [DecidableEq K] (cfg : Config K) (old : Option K) (key : String) : Except Err (Option K) :=
  match cfg.gain with
  | none => .ok old
  | some g =>
    match Dict.get? g key with
    | none => .error .key
    | some x => if old.isSome ∧ old ≠ some x then .error .valueError else .ok (some x)

/-- An operation with pulses (292-316). -/
def stepPulse (cfg : Config K) (rate : Rat) (hash : String) (p : Pulse K) (s : CS Ch K) : Except Err (CS Ch K) :=
  if rate = 0 then .error .zeroDivision
  else match p.wf with
    | none => .ok s
    | some f =>
      match cfg.freqs with
      | none => .error .valueError
      | some fr =>
        match Dict.get? fr (pc p.port p.clock) with
        | none => .error .assertion
        | some none => .error .assertion
        | some (some freq) =>
          let w := (grid p.dur rate).map (f freq)
          let waves := Dict.set s.waves (hash, false) (w.map Prod.fst)
          .ok { s with waves := Dict.set waves (hash, true) (w.map Prod.snd) }

/-- One turn of the loop of `hardware_compile` (287-354). -/
def step [DecidableEq K] (cfg : Config K) (rate : Rat) (index : List ((AcqIndices.Label × Nat) × Idx))
    (s : CS Ch K) (i : Item Ch U K) : Except Err (CS Ch K) :=
  match i.op with
  | .nested _ => .error .notImplemented
  | .plain o =>
    match o.pulses with
    | p :: _ => stepPulse cfg rate o.hash p s
    | [] =>
      match o.cls, o.acqs with
      | .other, _ => .error .notImplemented
      | _, [] => .error .index
      | .trace, a :: _ =>
        match readoutPorts cfg.readout with
        | .error e => .error e
        | .ok ps =>
          match newGain cfg s.gain (pc a.port a.clock) with
          | .error e => .error e
          | .ok g => .ok { s with
              instrs := s.instrs ++ ps.map (fun p => ⟨true, p, s.next⟩)
              gain := g
              tmap := Dict.set s.tmap a.info.ch s.next
              next := s.next + 1 }
      | .ssb, a :: _ =>
        if a.info.mode ≠ .average then .error .notImplemented
        else
          match readoutPorts cfg.readout with
          | .error e => .error e
          | .ok ps =>
            match Dict.get? index ([some i.name], 0) with
            | none => .error .key
            | some (.many _) => .error .type
            | some (.one n) => .ok { s with
                instrs := s.instrs ++ ps.map (fun p => ⟨false, p, s.next⟩)
                bmap := Dict.set s.bmap (a.info.ch, n) s.next
                next := s.next + 1 }

/-- `hardware_compile` (261-379). -/
def compile [DecidableEq K] [One K] (cfg : Config K) (items : List (Item Ch U K)) :
    Except Err (Settings Ch U K) :=
  match AcqIndices.generate (.sched (toItems items)) with
  | .error _ => .error .valueError
  | .ok st =>
    match cfg.rate with
    | none => .error .key
    | some rate =>
      match items.foldlM (step cfg rate st.map) ⟨[], [], 0, [], [], none⟩ with
      | .error e => .error e
      | .ok s => .ok ⟨s.waves, s.instrs, rate, s.gain.getD 1, st.chans, s.tmap, s.bmap⟩

/-! ### The instrument -/

/-- What an instruction leaves at its location: the resampled waveforms or a number. -/
inductive Res (K : Type) where
  | traces (l : List (List K))
  | value (v : K)
deriving DecidableEq, Repr

/-- `MockReadoutModule` (46-61). -/
structure Rom (K : Type) where
  waves : List ((String × Bool) × List K)
  instrs : List Instr
  rate : Rat
  gain : K
  data : List (Int × Res K)

/-- `int(instruction.split("_")[2])` (80, 86). -/
def location (i : Instr) : Except Err Int :=
  match i.port.second with
  | none => .ok i.loc
  | some none => .error .valueError
  | some (some n) => .ok n

/-- `int(self.sampling_rate / 1e9)` (83). -/
def stride (rate : Rat) : Int := if 0 ≤ rate then ⌊rate / 10 ^ 9⌋ else ⌈rate / 10 ^ 9⌉

/-- `wf[np.arange(0, len(wf), s)]` (83-84). -/
def resample (s : Int) (w : List K) : Except Err (List K) :=
  if s = 0 then .error .zeroDivision
  else if s < 0 then .ok []
  else .ok ((List.range ((w.length + (s.toNat - 1)) / s.toNat)).filterMap (fun k => w[k * s.toNat]?))

/-- The loop over the waveforms (82-84). -/
def traceWaves [Mul K] (s : Int) (gain : K) : List (List K) → Except Err (List (List K))
  | [] => .ok []
  | w :: ws =>
    match resample s w with
    | .error e => .error e
    | .ok r =>
      match traceWaves s gain ws with
      | .error e => .error e
      | .ok rs => .ok (r.map (· * gain) :: rs)

/-- One instruction (78-90), with the number of random numbers drawn so far. -/
def execOne [Mul K] (rom : Rom K) (draws : Nat → K) (d : List (Int × Res K) × Nat) (i : Instr) :
    Except Err (List (Int × Res K) × Nat) :=
  match location i with
  | .error e => .error e
  | .ok l =>
    if i.trace || i.port.trace then
      match traceWaves (stride rom.rate) rom.gain (rom.waves.map Prod.snd) with
      | .error e => .error e
      | .ok t => .ok (Dict.set d.1 l (.traces t), d.2)
    else .ok (Dict.set d.1 l (.value (draws d.2)), d.2 + 1)

/-- `MockReadoutModule.execute` (71-90). -/
def execute [Mul K] (rom : Rom K) (draws : Nat → K) : Except Err (Rom K) :=
  if rom.instrs = [] then .error .runtime
  else
    match rom.instrs.foldlM (execOne rom draws) ([], 0) with
    | .error e => .error e
    | .ok d => .ok { rom with data := d.1 }

/-- `MockROMGettable.get` (115-126): the results of an execution of `waves`, `instrs`. -/
def gettable [Mul K] (rom : Rom K) (waves : List ((String × Bool) × List K)) (instrs : List Instr) (rate : Rat)
    (gain : K) (draws : Nat → K) : Except Err (List (Int × Res K)) :=
  match execute { rom with rate := rate, gain := gain, waves := waves, instrs := instrs } draws with
  | .error e => .error e
  | .ok rom => .ok rom.data

/-! ### The component -/

/-- `MockROMInstrumentCoordinatorComponent` (153-177). -/
structure Comp (Ch U K : Type) where
  rom : Rom K
  tmap : List (Ch × Nat)
  bmap : List ((Ch × Nat) × Nat)
  acq : Option (List (Ch × Data U))

/-- A new component around an instrument (166-176). -/
def new (rom : Rom K) : Comp Ch U K := ⟨rom, [], [], none⟩

/-- `prepare` (182-191). -/
def prepare (c : Comp Ch U K) (s : Settings Ch U K) : Comp Ch U K :=
  ⟨{ c.rom with waves := s.waves, instrs := s.instrs, rate := s.rate, gain := s.gain }, s.tmap, s.bmap, some s.acq⟩

/-- `start` (193-195). -/
def start [Mul K] (c : Comp Ch U K) (draws : Nat → K) : Except Err (Comp Ch U K) :=
  match execute c.rom draws with
  | .error e => .error e
  | .ok rom => .ok { c with rom := rom }

/-- The dataset: the trace of a channel, sample k at the time k ns, with the user's coordinates if they are in it; and
the value at an acquisition index of a channel, with its coordinates. -/
structure DS (Ch U K : Type) where
  traces : List (Ch × (List (K × K) × Option U))
  bins : List ((Ch × Nat) × (K × Coord U))
deriving DecidableEq

/-- A trace channel (209-232).  The user's coordinates are added to the array after its copy has been made. -/
def getTrace (data : List (Int × Res K)) (acq : List (Ch × Data U)) (ds : DS Ch U K) (e : Ch × Nat) :
    Except Err (DS Ch U K) :=
  match Dict.get? acq e.1 with
  | none => .error .key
  | some a =>
    if a.protocol ≠ "Trace" then .error .notImplemented
    else
      match Dict.get? data (e.2 : Int) with
      | none => .error .key
      | some (.value _) => .error .type
      | some (.traces (x :: y :: _)) =>
        match a.coords with
        | .list _ => .error .assertion
        | .dict _ => .ok { ds with traces := Dict.set ds.traces e.1 (x.zip y, none) }
      | some (.traces _) => .error .index

/-- An acquisition index of a channel (234-252). -/
def getBin (data : List (Int × Res K)) (acq : List (Ch × Data U)) (ds : DS Ch U K) (e : (Ch × Nat) × Nat) :
    Except Err (DS Ch U K) :=
  match Dict.get? acq e.1.1 with
  | none => .error .key
  | some a =>
    if a.protocol ≠ "SSBIntegrationComplex" then .error .notImplemented
    else
      match Dict.get? data (e.2 : Int) with
      | none => .error .key
      | some (.traces _) => .error .valueError
      | some (.value v) =>
        match a.coords with
        | .dict _ => .error .assertion
        | .list l =>
          match l[e.1.2]? with
          | none => .error .index
          | some c => .ok { ds with bins := Dict.set ds.bins e.1 (v, c) }

/-- `retrieve_acquisition` (200-254). -/
def retrieve (c : Comp Ch U K) : Except Err (DS Ch U K) :=
  match c.acq with
  | none => .error .runtime
  | some acq =>
    match c.tmap.foldlM (getTrace c.rom.data acq) ⟨[], []⟩ with
    | .error e => .error e
    | .ok ds => c.bmap.foldlM (getBin c.rom.data acq) ds

end Verif.MockRom
