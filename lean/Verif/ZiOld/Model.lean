/-
Conversion of Zurich Instruments hardware configurations in the old style
(quantify_scheduler/backends/zhinst_backend.py:987-1187, `_generate_new_style_hardware_compilation_config`).

Simplifications: values are of an arbitrary type `V`, `truthy` tells which ones count as true; a port-clock is the pair of its
names; the entries of the configuration are given one by one (their order does not matter), corrections, which are copied, and
unknown keys, which are skipped with a warning, are not modelled; channels and local oscillators have a port, a clock, a name.
The names of devices, local oscillators and mixers are different.
-/
import Verif.Common.Dict

namespace Verif.ZiOld

/-- Exceptions. -/
inductive Err where
  | keyError | indexError | valueError
deriving DecidableEq, Repr

/-- A port and a clock. -/
abbrev Pc := String × String

/-- `modulation`: whether its type is `premod`, and its intermediate frequency. -/
structure Modu (V : Type) where
  premod : Bool
  interm : Option V
deriving DecidableEq, Repr

/-- `mode`, `markers` and `trigger` of a channel. -/
structure Desc (V : Type) where
  mode : V
  markers : Option V
  trigger : Option V
deriving DecidableEq, Repr

/-- A channel. -/
structure Chan (V : Type) where
  pc : Pc
  mode : Option V := none
  markers : Option V := none
  trigger : Option V := none
  lo : Option String := none
  corrections : List (String × V) := []
  gain1 : Option V := none
  gain2 : Option V := none
  modulation : Option (Modu V) := none
deriving DecidableEq, Repr

/-- The type of a device; `hdawg` is `HDAWG4` or `HDAWG8`. -/
inductive Kind where
  | hdawg | uhfqa | other
deriving DecidableEq, Repr

/-- A device: its other keys and its channels, by their numbers. -/
structure Device (V : Type) where
  name : String
  kind : Kind
  opts : List (String × V)
  channels : List (Nat × Chan V)
deriving DecidableEq, Repr

/-- A local oscillator; `power` and `frequency` are dicts with the name of a parameter. -/
structure Lo (V : Type) where
  name : String
  instrument : Option V := none
  generic : Option V := none
  freqParam : Option String := none
  power : List (String × V) := []
  frequency : Option (List (String × V)) := none
deriving DecidableEq, Repr

/-- A configuration in the old style. -/
structure Old (V : Type) where
  los : Option (List (Lo V))
  devices : List (Device V)
deriving DecidableEq, Repr

/-- Terminals of mixers. -/
inductive Pin where
  | «if» | lo | rf
deriving DecidableEq, Repr

/-- Nodes of the graph. -/
inductive Node where
  | chan (device : String) (idx : Nat)
  | port (name : String)
  | lo (name : String)
  | mixer (device : String) (idx : Nat) (pin : Pin)
deriving DecidableEq, Repr

/-- The description of a local oscillator (1031-1038). -/
structure LoDesc (V : Type) where
  instrument : Option V
  generic : Option V
  freqParam : String
  powerParam : String
  power : Option V
deriving DecidableEq, Repr

/-- A setting of the hardware options: category, port-clock, field. -/
abbrev Key := String × Pc × String

/-- A configuration in the new style. -/
structure New (V : Type) where
  los : List (String × LoDesc V) := []
  devices : List (String × List (String × V)) := []
  channels : List ((String × Nat) × Desc V) := []
  mixers : List (String × Nat) := []
  graph : List (Node × Node) := []
  options : List (Key × V) := []
deriving DecidableEq, Repr

variable {V : Type}

/-- Local oscillators (1020-1038). -/
def convertLo (d : List (String × LoDesc V)) (l : Lo V) : List (String × LoDesc V) :=
  Dict.set d l.name
    { instrument := l.instrument, generic := l.generic, freqParam := l.freqParam.getD "frequency",
      powerParam := (l.power.head?.map Prod.fst).getD "power", power := l.power.head?.map Prod.snd }

/-- The frequency of a local oscillator: of the first with this name, the first value (1079-1088, 1140-1150). -/
def loFreq (old : Old V) (name : String) : Except Err (Option V) :=
  match old.los with
  | none => .error .keyError
  | some los =>
    match los.find? (fun l => l.name == name) with
    | none => .error .indexError
    | some l =>
      match l.frequency with
      | none => .ok none
      | some [] => .error .indexError
      | some (e :: _) => .ok (some e.2)

/-- The local oscillator of a channel (1061-1089, 1122-1151): the configuration, and the node that is connected to the port. -/
def convertChanLo (old : Old V) (dev : String) (idx : Nat) (c : Chan V) (n : New V) : Except Err (New V × Node) :=
  match c.lo with
  | none => .ok (n, .chan dev idx)
  | some l =>
    let n := { n with
      mixers := if n.mixers.contains (dev, idx) then n.mixers else n.mixers ++ [(dev, idx)],
      graph := n.graph ++ [(.chan dev idx, .mixer dev idx .if), (.lo l, .mixer dev idx .lo)] }
    match loFreq old l with
    | .error e => .error e
    | .ok none => .ok (n, .mixer dev idx .rf)
    | .ok (some v) =>
      .ok ({ n with options := Dict.set n.options ("modulation_frequencies", c.pc, "lo_freq") v }, .mixer dev idx .rf)

/-- `hardware_options[cat][port_clock] = ...`. -/
def setWhole (o : List (Key × V)) (cat : String) (p : Pc) (opts : List (String × V)) : List (Key × V) :=
  o.filter (fun e => !(e.1.1 == cat && e.1.2.1 == p)) ++ opts.map (fun e => ((cat, p, e.1), e.2))

/-- Mixer corrections; those of an HDAWG get names in small letters (1093-1100, 1155-1158). -/
def convertCorrections (kind : Kind) (c : Chan V) (o : List (Key × V)) : List (Key × V) :=
  if c.corrections.isEmpty then o
  else
    setWhole o "mixer_corrections" c.pc
      (if kind = .hdawg then c.corrections.foldl (fun d e => Dict.set d e.1.toLower e.2) [] else c.corrections)

/-- A gain that is not zero (1101-1108, 1159-1166). -/
def convertGain (truthy : V → Bool) (pc : Pc) (field : String) (g : Option V) (o : List (Key × V)) : List (Key × V) :=
  match g with
  | none => o
  | some v => if truthy v then Dict.set o ("output_gain", pc, field) v else o

/-- The intermediate frequency (1109-1112, 1167-1170). -/
def convertModulation (c : Chan V) (o : List (Key × V)) : Except Err (List (Key × V)) :=
  match c.modulation with
  | none => .ok o
  | some m =>
    if m.premod then
      match m.interm with
      | none => .error .keyError
      | some v => .ok (Dict.set o ("modulation_frequencies", c.pc, "interm_freq") v)
    else .ok o

/-- One channel (1051-1112, 1119-1170). -/
def convertChan (old : Old V) (truthy : V → Bool) (kind : Kind) (dev : String) (idx : Nat) (c : Chan V) (n : New V) :
    Except Err (New V) :=
  match c.mode with
  | none => .error .keyError
  | some mode =>
    match convertChanLo old dev idx c
      { n with channels := Dict.set n.channels (dev, idx) ⟨mode, c.markers, c.trigger⟩ } with
    | .error e => .error e
    | .ok (n, node) =>
      match convertModulation c (convertGain truthy c.pc "gain_Q" c.gain2 (convertGain truthy c.pc "gain_I" c.gain1
        (convertCorrections kind c n.options))) with
      | .error e => .error e
      | .ok o => .ok { n with graph := n.graph ++ [(node, .port c.pc.1)], options := o }

/-- The channels of a device, in the order of their numbers. -/
def convertChans (old : Old V) (truthy : V → Bool) (kind : Kind) (dev : String) (channels : List (Nat × Chan V)) :
    List Nat → New V → Except Err (New V)
  | [], n => .ok n
  | i :: l, n =>
    match Dict.get? channels i with
    | none => convertChans old truthy kind dev channels l n
    | some c =>
      match convertChan old truthy kind dev i c n with
      | .error e => .error e
      | .ok n => convertChans old truthy kind dev channels l n

/-- `{key: instr_cfg[key] for ...}`. -/
def pick (opts : List (String × V)) : List String → Except Err (List (String × V))
  | [] => .ok []
  | k :: l =>
    match Dict.get? opts k with
    | none => .error .keyError
    | some v =>
      match pick opts l with
      | .error e => .error e
      | .ok r => .ok ((k, v) :: r)

/-- The keys of the description of a device other than the type (1043-1048, 1115-1118). -/
def header : Kind → List String
  | .hdawg => ["ref", "channelgrouping", "clock_select"]
  | .uhfqa => ["ref"]
  | .other => []

/-- The channels that are looked at (1049, 1119). -/
def indices : Kind → List Nat
  | .hdawg => [0, 1, 2, 3]
  | .uhfqa => [0]
  | .other => []

/-- The devices (1039-1175). -/
def convertDevices (old : Old V) (truthy : V → Bool) : List (Device V) → New V → Except Err (New V)
  | [], n => .ok n
  | d :: l, n =>
    if d.kind = .other then .error .valueError
    else
      match pick d.opts (header d.kind) with
      | .error e => .error e
      | .ok h =>
        match convertChans old truthy d.kind d.name d.channels (indices d.kind)
          { n with devices := Dict.set n.devices d.name h } with
        | .error e => .error e
        | .ok n => convertDevices old truthy l n

/-- `_generate_new_style_hardware_compilation_config` (987-1187). -/
def convert (old : Old V) (truthy : V → Bool) : Except Err (New V) :=
  convertDevices old truthy old.devices { los := (old.los.getD []).foldl convertLo [] }

end Verif.ZiOld
