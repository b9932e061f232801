/-
Which channel of a Zurich Instruments device plays a port and clock, at which intermediate frequency, and to which values the
local oscillators are set.
-/
import Verif.Common.Dict
import Verif.Common.StableSort
import Mathlib.Data.String.Basic
import Mathlib.Algebra.Order.Field.Rat

namespace Verif.ZiFreq

/-- Exceptions. -/
inductive Err where
  | keyError | indexError | valueError | runtimeError | attributeError | validation
deriving DecidableEq, Repr

/-- A node of the connectivity graph, split at the dots (`io_path`, zhinst_backend.py:767). -/
abbrev Node := List String

/-- The text of a node. -/
def text (n : Node) : List Char := ['.'].intercalate (n.map String.toList)

/-- `a in b` for strings (zhinst_backend.py:762). -/
def isIn (p : List Char) : List Char → Bool
  | [] => p.isEmpty
  | c :: l => p.isPrefixOf (c :: l) || isIn p l

/-- What a hardware description describes (`instrument_type`): an IQ mixer, a UHFQA or HDAWG, or something else. -/
inductive Kind where
  | mixer | device | other
deriving DecidableEq, Repr

/-- `LocalOscillatorDescription` (backends/types/common.py:290-305) with its name. -/
structure Lo where
  name : String
  instrument : Option String
  freqParam : String
  powerParam : String
  power : Option Rat
deriving DecidableEq, Repr

/-- `ModulationFrequencies` (backends/types/common.py:182-206). -/
structure Mod where
  interm : Option Rat
  lo : Option Rat
deriving DecidableEq, Repr

/-- The compilation configuration: connectivity (nodes and their neighbours, in order), the kinds of instruments, the channels
that hardware descriptions describe, the local oscillators, the modulation frequencies of ports and clocks, and the frequencies
of clocks (`schedule.resources`). Simplification: a port and a clock are a pair, not the text `port-clock`. -/
structure Cfg where
  graph : List (Node × List Node)
  kinds : List (String × Kind)
  outs : List (String × String)
  los : List Lo
  mods : List ((String × String) × Mod)
  clocks : List (String × Rat)
deriving DecidableEq, Repr

/-- A channel of a device: its port and clock, its local oscillator and, if there is one, the intermediate frequency in its
`modulation`. -/
structure Chan where
  device : String
  io : String
  port : String
  clock : String
  lo : Option String
  modulation : Option (Option Rat)
deriving DecidableEq, Repr

/-- Neighbours of the first node of which the name contains the port (zhinst_backend.py:759-764). -/
def connected (g : List (Node × List Node)) (port : String) : List Node :=
  match g.find? (fun e => isIn port.toList (text e.1)) with
  | some e => e.2
  | none => []

/-- `list(connectivity_graph[...])[0]` (773, 775). -/
def firstOf (g : List (Node × List Node)) (n : Node) : Except Err Node :=
  match Dict.get? g n with
  | none => .error .keyError
  | some [] => .error .indexError
  | some (m :: _) => .ok m

/-- The local oscillator, if there is an IQ mixer, and the channel (767-775). -/
def route (cfg : Cfg) (n : Node) : Except Err (Option String × Node) :=
  match Dict.get? cfg.kinds (n.headD "") with
  | none => .error .keyError
  | some .mixer =>
    match firstOf cfg.graph [n.headD "", "lo"] with
    | .error e => .error e
    | .ok l =>
      match firstOf cfg.graph [n.headD "", "if"] with
      | .error e => .error e
      | .ok i => .ok (some (l.headD ""), i)
  | some _ => .ok (none, n)

/-- Is the channel used already (788-790)? -/
def taken (cs : List Chan) (device io : String) : Bool := cs.any (fun c => c.device == device && c.io == io)

/-- One connected node (766-800). -/
def addNode (cfg : Cfg) (pc : String × String) (cs : List Chan) (n : Node) : Except Err (List Chan) :=
  match route cfg n with
  | .error e => .error e
  | .ok (lo, io) =>
    if taken cs (io.headD "") (io.getLastD "") then .error .valueError
    else .ok (cs ++ [⟨io.headD "", io.getLastD "", pc.1, pc.2, lo, none⟩])

/-- All nodes connected to a port (759-800). -/
def addPort (cfg : Cfg) (cs : List Chan) (pc : String × String) : Except Err (List Chan) :=
  (connected cfg.graph pc.1).foldlM (addNode cfg pc) cs

/-- Channels of all ports and clocks of the schedule, in the order in which the set is iterated; devices are then sorted by
their names (758-803). -/
def wire (cfg : Cfg) (pcs : List (String × String)) : Except Err (List Chan) :=
  match pcs.foldlM (addPort cfg) [] with
  | .error e => .error e
  | .ok cs => .ok (StableSort.sortBy (fun c => c.device) cs)

/-- Set the intermediate frequency of the first channel with a port and a clock (`find_port_clock_path`,
helpers/collections.py:144-197; 911-922). -/
def setInterm (pc : String × String) (f : Option Rat) : List Chan → Option (Chan × List Chan)
  | [] => none
  | c :: l =>
    if c.port = pc.1 ∧ c.clock = pc.2 then some (c, { c with modulation := some f } :: l)
    else
      match setInterm pc f l with
      | none => none
      | some (d, m) => some (d, c :: m)

/-- Modulation frequencies of one port and clock (905-947). The second component has the `frequency` of local oscillators. -/
def modStep (cfg : Cfg) (s : List Chan × List (String × Option Rat)) (pc : String × String) :
    Except Err (List Chan × List (String × Option Rat)) :=
  match Dict.get? cfg.mods pc with
  | none => .ok s
  | some m =>
    match setInterm pc m.interm s.1 with
    | none => .error .keyError
    | some (c, cs) =>
      match c.lo with
      | none => .error .keyError
      | some l =>
        if cfg.los.any (fun o => o.name == l) then .ok (cs, Dict.set s.2 l m.lo) else .error .runtimeError

/-- Number of a channel. -/
def ioIndex (io : String) : Option Nat := ["channel_0", "channel_1", "channel_2", "channel_3"].idxOf? io

/-- Is the channel accepted by `zhinst.Device` and `zhinst.Output` (types/zhinst.py:89-260): the device is a UHFQA or an HDAWG,
the channel is described, the intermediate frequency is a number, and the device has a channel 0? -/
def accepted (cfg : Cfg) (cs : List Chan) (c : Chan) : Bool :=
  Dict.get? cfg.kinds c.device == some .device && (ioIndex c.io).isSome && cfg.outs.contains (c.device, c.io) &&
    c.modulation != some none && taken cs c.device "channel_0"

/-- `_parse_devices`, `_parse_local_oscillators` (465-517): every local oscillator needs the name of its instrument, whether it
is used or not. Channels of a device are in the order of their numbers. -/
def parse (cfg : Cfg) (cs : List Chan) : Except Err (List Chan) :=
  if cs.all (accepted cfg cs) && cfg.los.all (fun o => o.instrument.isSome) then
    .ok (StableSort.sortBy (fun c => c.device) (StableSort.sortBy (fun c => (ioIndex c.io).getD 0) cs))
  else .error .validation

/-- `modulation.interm_freq` (types/zhinst.py:104). -/
def Chan.interm (c : Chan) : Rat :=
  match c.modulation with
  | some (some f) => f
  | _ => 0

/-- Frequencies of local oscillators, and what the generic component is told to set: values of parameters of instruments. -/
structure Conf where
  freqs : List (String × Option Rat)
  generic : List ((String × String) × Option Rat)
deriving DecidableEq, Repr

/-- The end of `_add_lo_config` (1602-1634). The name under which frequencies are kept is always `generic`. Simplification:
the text `instrument.parameter` is a pair. -/
def tell (s : Conf) (o : Lo) (f : Rat) : Except Err Conf :=
  if o.name = "generic" ∧ s.generic ≠ [] then .error .valueError
  else .ok { s with
    generic := Dict.set (Dict.set s.generic (o.instrument.getD "", o.freqParam) (some f)) (o.instrument.getD "", o.powerParam) o.power }

/-- `_add_lo_config` (1547-1634). -/
def addLo (cfg : Cfg) (s : Conf) (c : Chan) : Except Err Conf :=
  match c.lo with
  | none => .ok s
  | some l =>
    match cfg.los.find? (fun o => o.name == l) with
    | none => .error .keyError
    | some o =>
      match Dict.get? s.freqs l with
      | none => .error .attributeError
      | some (some f) => tell s o f
      | some none =>
        match Dict.get? cfg.clocks c.clock with
        | none => .ok s
        | some r => tell { s with freqs := Dict.set s.freqs l (some (r - c.interm)) } o (r - c.interm)

/-- Compilation, as far as frequencies are concerned (`_generate_legacy_hardware_config`, `_parse_devices`, `_add_lo_config`):
the channels and what the generic component is told. `pcs` are the ports and clocks of the schedule in the order in which the set
is iterated. -/
def compile (cfg : Cfg) (pcs : List (String × String)) : Except Err (List Chan × Conf) :=
  match wire cfg pcs with
  | .error e => .error e
  | .ok cs =>
    match pcs.foldlM (modStep cfg) (cs, []) with
    | .error e => .error e
    | .ok (cs, freqs) =>
      match parse cfg cs with
      | .error e => .error e
      | .ok cs =>
        match cs.foldlM (addLo cfg) ⟨freqs, []⟩ with
        | .error e => .error e
        | .ok s => .ok (cs, s)

/-- Phase, in turns, of sample `k` of a pulse that is modulated in software (`apply_waveform_corrections`, 588-592;
`modulate_waveform`: `exp(2πi f t)`): time starts at 0 with every pulse. -/
def premodPhase (interm rate : Rat) (k : Nat) : Rat := interm * (k / rate)

/-- Phase of sample `k` of an integration weight (600-606). -/
def weightPhase (interm rate : Rat) (k : Nat) : Rat := -interm * (k / rate)

end Verif.ZiFreq
