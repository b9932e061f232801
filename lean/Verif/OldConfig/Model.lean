/-
Conversion of hardware configurations in the old style
(quantify_scheduler/backends/qblox/helpers.py:1074-1528, `_generate_new_style_hardware_compilation_config`).

Simplifications: values are of an arbitrary type `V`; a port-clock is the pair of its names (different pairs have different
texts); the kind of a channel is the start of its name, the slot of a module the number in its name; whether a port-clock is
optical (its text contains `optical_control`) is a parameter. Every channel has `portclock_configs`. Of a key with several
settings the text of its own dict is a field, `""` is a setting that is not in a dict of its own. Different clusters, modules
and channels have different names, which are not those of mixers. Warnings are not modelled.
-/
import Verif.Common.Dict

namespace Verif.OldConfig

/-- Exceptions. -/
inductive Err where
  | keyError | valueError
deriving DecidableEq, Repr

/-- A port and a clock. -/
abbrev Pc := String × String

/-- One of the `portclock_configs`: port and clock, and its other keys. -/
structure PcCfg (V : Type) where
  pc : Pc
  opts : List (String × V)
deriving DecidableEq, Repr

/-- A key of a channel, other than `portclock_configs`. -/
inductive Entry (V : Type) where
  | opt (k : String) (v : V) | lo (name : String)
deriving DecidableEq, Repr

/-- The start of the name of a channel. -/
inductive Kind where
  | complex | real | digital
deriving DecidableEq, Repr

/-- A channel: the keys before `portclock_configs`, these, and the keys after them. -/
structure Channel (V : Type) where
  kind : Kind
  name : String
  before : List (Entry V)
  pcs : List (PcCfg V)
  after : List (Entry V)
deriving DecidableEq, Repr

/-- A module: slot, other keys, channels. -/
structure Module (V : Type) where
  slot : Nat
  opts : List (String × V)
  channels : List (Channel V)
deriving DecidableEq, Repr

/-- An entry of the configuration (1499-1527): `correction` for `latency_corrections` and `distortion_corrections`,
`untyped` without `instrument_type`, `unknown` with another one. -/
inductive Item (V : Type) where
  | backend
  | correction (v : V)
  | untyped
  | cluster (opts : List (String × V)) (modules : List (Module V))
  | lo (opts : List (String × V))
  | unknown
deriving DecidableEq, Repr

/-- A configuration in the old style. -/
abbrev Old (V : Type) := List (String × Item V)

/-- Terminals of mixers; `out` is `rf` or `out`. -/
inductive Pin where
  | «if» | lo | out
deriving DecidableEq, Repr

/-- Nodes of the graph. A mixer has the name of its local oscillator. -/
inductive Node where
  | chan (cluster : String) (slot : Nat) (name : String)
  | port (name : String)
  | lo (name : String)
  | mixer (optical : Bool) (lo : String) (pin : Pin)
deriving DecidableEq, Repr

/-- A setting of the hardware options: category, port-clock, field. -/
abbrev Key := String × Pc × String

/-- A configuration in the new style (1490-1496): clusters, modules, channels, local oscillators and mixers of the hardware
description, the graph, the hardware options, and the corrections. -/
structure New (V : Type) where
  clusters : List (String × List (String × V)) := []
  modules : List ((String × Nat) × List (String × V)) := []
  channels : List ((String × Nat × String) × List (String × V)) := []
  los : List (String × List (String × V)) := []
  mixers : List (Bool × String) := []
  graph : List (Node × Node) := []
  options : List (Key × V) := []
  corrections : List (String × V) := []
deriving DecidableEq, Repr

variable {V : Type}

/-- A setting for all port-clocks. -/
def setAll (o : List (Key × V)) (cat field : String) (pcs : List Pc) (v : V) : List (Key × V) :=
  pcs.foldl (fun o p => Dict.set o (cat, p, field) v) o

/-- A setting in a table, for all port-clocks; `none` if the key is not in the table. -/
def lookup (table : List (String × String × String)) (k : String) : Option (String × String) := Dict.get? table k

/-- Keys of complex channels (1146-1193). -/
def complexTable : List (String × String × String) :=
  [("lo_freq", "modulation_frequencies", "lo_freq"), ("auto_lo_cal", "mixer_corrections", "auto_lo_cal"),
    ("dc_mixer_offset_I", "mixer_corrections", "dc_offset_i"), ("dc_mixer_offset_Q", "mixer_corrections", "dc_offset_q"),
    ("input_gain_I", "input_gain", "gain_I"), ("input_gain_Q", "input_gain", "gain_Q"),
    ("output_att", "output_att", ""), ("input_att", "input_att", "")]

/-- Keys of real channels (1256-1261). -/
def realTable : List (String × String × String) := [("input_gain_0", "input_gain", ""), ("input_gain_1", "input_gain", "")]

/-- Keys of the description (1112-1119, 1251-1254). -/
def described : Kind → List String
  | .complex => ["marker_debug_mode_enable", "mix_lo", "downconverter_freq"]
  | .real => ["marker_debug_mode_enable", "mix_lo"]
  | .digital => []

/-- Keys of the port-clocks of complex channels (1204-1223). -/
def complexPcTable : List (String × String × String) :=
  [("interm_freq", "modulation_frequencies", "interm_freq"), ("mixer_amp_ratio", "mixer_corrections", "amp_ratio"),
    ("auto_sideband_cal", "mixer_corrections", "auto_sideband_cal"),
    ("mixer_phase_error_deg", "mixer_corrections", "phase_error")]

/-- Keys of the port-clocks of real channels (1273-1287). -/
def realPcTable : List (String × String × String) :=
  [("interm_freq", "modulation_frequencies", "interm_freq"),
    ("init_gain_awg_path_I", "sequencer_options", "init_gain_awg_path_I"),
    ("init_gain_awg_path_Q", "sequencer_options", "init_gain_awg_path_Q")]

/-- Keys of the port-clocks of digital channels (1363-1367). -/
def digitalPcTable : List (String × String × String) :=
  [("analog_threshold", "digitization_thresholds", "analog_threshold")]

/-- The keys in the table are set and removed. -/
def popAll (table : List (String × String × String)) (p : Pc) (opts : List (String × V)) (o : List (Key × V)) :
    List (Key × V) :=
  opts.foldl (fun o e => match lookup table e.1 with
    | some (cat, field) => Dict.set o (cat, p, field) e.2
    | none => o) o

/-- The keys that remain. -/
def rest (table : List (String × String × String)) (opts : List (String × V)) : List (String × V) :=
  opts.filter (fun e => (lookup table e.1).isNone)

/-- `hardware_options["sequencer_options"][port_clock] = portclock_cfg`. -/
def setWhole (o : List (Key × V)) (p : Pc) (opts : List (String × V)) : List (Key × V) :=
  o.filter (fun e => !(e.1.1 == "sequencer_options" && e.1.2.1 == p)) ++
    opts.map (fun e => (("sequencer_options", p, e.1), e.2))

/-- The keys for which the remaining ones become sequencer options (1288-1298). -/
def realRest : List String :=
  ["init_gain_awg_path_I", "init_gain_awg_path_Q", "init_offset_awg_path_I", "init_offset_awg_path_Q", "qasm_hook_func",
    "ttl_acq_threshold"]

/-- The options of one port-clock (1203-1229, 1272-1302, 1361-1369). -/
def pcOptions (kind : Kind) (c : PcCfg V) (o : List (Key × V)) : List (Key × V) :=
  match kind with
  | .complex =>
    let o := popAll complexPcTable c.pc c.opts o
    if (rest complexPcTable c.opts).isEmpty then o else setWhole o c.pc (rest complexPcTable c.opts)
  | .real =>
    let o := popAll realPcTable c.pc c.opts o
    if (rest realPcTable c.opts).any (fun e => realRest.contains e.1) then setWhole o c.pc (rest realPcTable c.opts) else o
  | .digital => popAll digitalPcTable c.pc c.opts o

/-- `portclock_configs` (1194-1229, 1262-1302, 1352-1369), from a node of the graph. -/
def convertPcs (kind : Kind) (node : Node) : List (PcCfg V) → New V → New V
  | [], n => n
  | c :: l, n =>
    convertPcs kind node l { n with graph := n.graph ++ [(node, .port c.pc.1)], options := pcOptions kind c n.options }

/-- The frequency of a local oscillator (1140-1145, 1333-1338). -/
def loFreq (old : Old V) (name : String) : Except Err (Option V) :=
  match Dict.get? old name with
  | none => .error .keyError
  | some (.lo opts) => .ok (Dict.get? opts "frequency")
  | some _ => .ok none

/-- A key of a channel (1102-1193, 1241-1261, 1304-1338): the configuration, the description of the channel, and the node to
which ports are connected. -/
def convertEntry (old : Old V) (kind : Kind) (optical : Bool) (pcs : List Pc) (e : Entry V)
    (st : New V × List (String × V) × Node) : Except Err (New V × List (String × V) × Node) :=
  match e with
  | .opt k v =>
    if (described kind).contains k then .ok (st.1, Dict.set st.2.1 k v, st.2.2)
    else
      match lookup (if kind = .complex then complexTable else realTable) k with
      | some (cat, field) => .ok ({ st.1 with options := setAll st.1.options cat field pcs v }, st.2.1, st.2.2)
      | none => .ok st
  | .lo name =>
    let optical := kind == .real && optical
    let n := { st.1 with
      mixers := if st.1.mixers.contains (optical, name) then st.1.mixers else st.1.mixers ++ [(optical, name)],
      graph := st.1.graph ++ [(st.2.2, .mixer optical name .if), (.lo name, .mixer optical name .lo)] }
    match loFreq old name with
    | .error e => .error e
    | .ok (some v) =>
      .ok ({ n with options := setAll n.options "modulation_frequencies" "lo_freq" pcs v }, st.2.1, .mixer optical name .out)
    | .ok none => .ok (n, st.2.1, .mixer optical name .out)

/-- Several keys. -/
def convertEntries (old : Old V) (kind : Kind) (optical : Bool) (pcs : List Pc) : List (Entry V) →
    New V × List (String × V) × Node → Except Err (New V × List (String × V) × Node)
  | [], st => .ok st
  | e :: l, st =>
    match convertEntry old kind optical pcs e st with
    | .error e => .error e
    | .ok st => convertEntries old kind optical pcs l st

/-- A channel (1386-1453). In a complex channel `portclock_configs` comes last (1388-1391); in a real channel it stays where it
is (1411-1420, the dict that was made is not used), and every later key needs the names that were removed (1246-1249). A
description that only has default values is removed (1400-1410, 1422-1430, 1441-1452). -/
def convertChannel [DecidableEq V] (old : Old V) (optical : Pc → Bool) (dflt : String → V) (cluster : String) (slot : Nat)
    (c : Channel V) (n : New V) : Except Err (New V) :=
  let pcs := c.pcs.map (·.pc)
  let node := Node.chan cluster slot c.name
  let opt := pcs.any optical
  let finish (n : New V) (d : List (String × V)) : New V :=
    if d.all (fun e => decide (e.2 = dflt e.1)) then n
    else { n with channels := Dict.set n.channels (cluster, slot, c.name) d }
  match c.kind with
  | .complex =>
    match convertEntries old .complex opt pcs (c.before ++ c.after) (n, [], node) with
    | .error e => .error e
    | .ok (n, d, node) => .ok (finish (convertPcs .complex node c.pcs n) d)
  | .real =>
    match convertEntries old .real opt pcs c.before (n, [], node) with
    | .error e => .error e
    | .ok (n, d, node) =>
      let n := convertPcs .real node c.pcs n
      if !c.after.isEmpty && !c.pcs.isEmpty then .error .keyError
      else
        match convertEntries old .real false [] c.after (n, d, node) with
        | .error e => .error e
        | .ok (n, d, _) => .ok (finish n d)
  | .digital => .ok (convertPcs .digital node c.pcs n)

/-- The channels of a module. -/
def convertChannels [DecidableEq V] (old : Old V) (optical : Pc → Bool) (dflt : String → V) (cluster : String) (slot : Nat) :
    List (Channel V) → New V → Except Err (New V)
  | [], n => .ok n
  | c :: l, n =>
    match convertChannel old optical dflt cluster slot c n with
    | .error e => .error e
    | .ok n => convertChannels old optical dflt cluster slot l n

/-- The modules of a cluster (1371-1453, 1468-1475). -/
def convertModules [DecidableEq V] (old : Old V) (optical : Pc → Bool) (dflt : String → V) (cluster : String) :
    List (Module V) → New V → Except Err (New V)
  | [], n => .ok n
  | m :: l, n =>
    match convertChannels old optical dflt cluster m.slot m.channels { n with
        modules := Dict.set n.modules (cluster, m.slot)
          (m.opts.filter fun e => ["instrument_type", "sequence_to_file"].contains e.1) } with
    | .error e => .error e
    | .ok n => convertModules old optical dflt cluster l n

/-- One entry (1499-1527). -/
def convertItem [DecidableEq V] (old : Old V) (optical : Pc → Bool) (dflt : String → V) (name : String) (i : Item V)
    (n : New V) : Except Err (New V) :=
  match i with
  | .backend | .untyped => .ok n
  | .correction v => .ok { n with corrections := Dict.set n.corrections name v }
  | .cluster opts modules =>
    convertModules old optical dflt name modules { n with
      clusters := Dict.set n.clusters name (opts.filter fun e => ["ref", "sequence_to_file"].contains e.1) }
  | .lo opts =>
    if opts.any (fun e => !["instrument_type", "power", "frequency"].contains e.1) then .error .keyError
    else .ok { n with los := Dict.set n.los name (opts.filter fun e => ["instrument_type", "power"].contains e.1) }
  | .unknown => .error .valueError

/-- All entries. -/
def convertItems [DecidableEq V] (old : Old V) (optical : Pc → Bool) (dflt : String → V) :
    List (String × Item V) → New V → Except Err (New V)
  | [], n => .ok n
  | e :: l, n =>
    match convertItem old optical dflt e.1 e.2 n with
    | .error e => .error e
    | .ok n => convertItems old optical dflt l n

/-- `_generate_new_style_hardware_compilation_config` (1074-1528). -/
def convert [DecidableEq V] (old : Old V) (optical : Pc → Bool) (dflt : String → V) : Except Err (New V) :=
  convertItems old optical dflt old {}

end Verif.OldConfig
