/-
From the connectivity graph to the sequencers of the modules
(quantify_scheduler/backends/qblox_backend.py:964-1937, backends/types/common.py:384-415,
backends/qblox/compiler_abc.py:1479-1577, backends/qblox/instrument_compilers.py:434-660,
backends/qblox/helpers.py:501-538).

Simplifications:
* A node of the graph is given by its parts between the dots: `cluster.moduleN.channel`,
  `instrument.part` or a name without a dot.  Names with another number of dots, and module names
  that are not `module` and a number, are left out.  Channel names are `mode_direction_number`
  (others are refused when the configuration is made, qblox_backend.py:854-895).
* Names of ports and clocks contain no `-` (with one, `split("-")` in
  `ClusterCompiler.distribute_data` raises) and names of ports no dot, so that the pair of port
  and clock stands for the string `f"{port}-{clock}"`.
* A cluster description is the list of its modules; the other fields of descriptions and options
  are left out here.
* A dict of dicts is one dict with pairs as keys.
-/
import Verif.Common.Dict
import Verif.Common.StableSort
import Mathlib.Data.String.Basic

set_option autoLift false

namespace Verif.Connect

open Verif.StableSort (sortBy)

/-- Exceptions. -/
inductive Err where
  | valueError | keyError | runtimeError | notImplemented
deriving DecidableEq, Repr

/-- Port and clock. -/
abbrev PC := String × String

/-- `ChannelMode` (backends/qblox/enums.py). -/
inductive Mode where
  | complex | real | digital
deriving DecidableEq, Repr

/-- Direction in a channel name. -/
inductive Dir where
  | output | input
deriving DecidableEq, Repr

/-- A channel name, e.g. `complex_output_0`. -/
structure Chan where
  mode : Mode
  dir : Dir
  idx : Nat
deriving DecidableEq, Repr

/-- A node of the connectivity graph. -/
inductive Node where
  | chan (cluster : String) (mod : Nat) (ch : Chan)
  | sub (instr : String) (part : String)
  | plain (name : String)
deriving DecidableEq, Repr

/-- A node name up to its last dot. -/
inductive Elem where
  | module (cluster : String) (mod : Nat)
  | instr (name : String)
deriving DecidableEq, Repr

/-- `value.split(".")[0]`. -/
def Node.head : Node → String
  | .chan c _ _ => c
  | .sub i _ => i
  | .plain s => s

/-- `n[: n.rindex(".")]`; `none` if there is no dot. -/
def Node.parent : Node → Option Elem
  | .chan c m _ => some (.module c m)
  | .sub i _ => some (.instr i)
  | .plain _ => none

/-- The edges of the graph, with lists already unrolled. -/
abbrev Edges := List (Node × Node)

/-- `_unroll_lists_of_ports_in_edges_input` (types/common.py:397-410); a single port is a list of
length one. -/
def unroll (l : List (List Node × List Node)) : Edges :=
  l.flatMap (fun e => e.1.flatMap (fun a => e.2.map (fun b => (a, b))))

/-- Insertion order without repetition, as in the keys of a dict. -/
def insertNew {α : Type} [DecidableEq α] (acc : List α) (x : α) : List α :=
  if x ∈ acc then acc else acc ++ [x]

/-- The distinct elements in order of first appearance. -/
def distinct {α : Type} [DecidableEq α] (l : List α) : List α := l.foldl insertNew []

/-- `graph.nodes`: the nodes of `networkx.Graph(edges)` in order of insertion. -/
def nodes (g : Edges) : List Node := distinct (g.flatMap (fun e => [e.1, e.2]))

/-- `graph.neighbors(n)` in order of insertion (structure/types.py:109-139). -/
def neighbors (g : Edges) (n : Node) : List Node :=
  distinct (g.flatMap (fun e =>
    (if e.1 = n then [e.2] else []) ++ (if e.2 = n then [e.1] else [])))

/-- `ChannelPath` (qblox_backend.py:1879-1937); the set `channel_name_measure` is a list without
repetition. -/
structure Path where
  cluster : String
  module : Nat
  chan : Chan
  measure : Option (List Chan)
deriving DecidableEq, Repr

/-- `add_channel_name_measure` (qblox_backend.py:1916-1937). -/
def Path.add (p : Path) (c : Chan) : Path :=
  match p.measure with
  | none =>
    if c.dir = .input then { p with measure := some [c] }
    else { p with chan := c, measure := some [p.chan] }
  | some m => { p with measure := some (insertNew m c) }

/-- `cluster_pc_to_path` and `cluster_lo_to_path`.  The `ChannelPath` objects are on a heap: one
object is shared by all clocks of a port (1171-1193). -/
structure St where
  heap : List Path
  tab : List ((String × PC) × Nat)
  los : List ((String × Elem) × Nat)
deriving DecidableEq, Repr

/-- What the loops read.  `mixerHas i`, `clockHas i`: does a name contain the `i`-th key or value
of `mixer_part_to_clock_part` (1106-1110)? -/
structure Env where
  clusters : List String
  los : List String
  graph : Edges
  mixerHas : Nat → Elem → Bool
  clockHas : Nat → String → Bool

/-- The loop over the values of `cluster_pc_to_path` (1178-1190): `r` is `repeated_pc`. -/
def repeatLoop (path : Path) (pc : PC) : List String → St → Bool → Except Err (St × Bool)
  | [], st, r => .ok (st, r)
  | cl :: cls, st, r =>
    match Dict.get? st.tab (cl, pc) with
    | none => repeatLoop path pc cls st r
    | some ref =>
      match st.heap[ref]? with
      | none => .error .keyError
      | some p =>
        if path.cluster ≠ p.cluster ∨ path.module ≠ p.module then .error .valueError
        else repeatLoop path pc cls { st with heap := st.heap.set ref (p.add path.chan) } true

/-- The loop over the clocks of a port for a neighbour that is a channel (1173-1193); `ref` is the
place of `path` on the heap. -/
def clockLoop (env : Env) (port : String) (path : Path) (ref : Nat) :
    List String → St → Except Err St
  | [], st => .ok st
  | clock :: rest, st =>
    match repeatLoop path (port, clock) env.clusters st false with
    | .error e => .error e
    | .ok (st', true) => clockLoop env port path ref rest st'
    | .ok (st', false) =>
      clockLoop env port path ref rest
        { st' with tab := Dict.set st'.tab (path.cluster, (port, clock)) ref }

/-- One of the three entries of `get_optical_clock` (1112-1118). -/
def opticalAt (env : Env) (mixer : Elem) (clocks : List String) (i : Nat) : Option String :=
  if env.mixerHas i mixer then clocks.find? (env.clockHas i) else none

/-- `get_optical_clock` (1112-1118). -/
def opticalClock (env : Env) (mixer : Elem) (clocks : List String) : Option String :=
  [0, 1, 2].findSome? (opticalAt env mixer clocks)

/-- The body of the loop over the neighbours of the nodes of a mixer (1126-1134): `acc` is
`mixer_path` and `mixer_lo`. -/
def mixerNbr (env : Env) (acc : Option Node × Option Elem) (n : Node) :
    Except Err (Option Node × Option Elem) :=
  if n.head ∈ env.clusters then .ok (some n, acc.2)
  else if n.head ∈ env.los then
    match n.parent with
    | none => .error .valueError
    | some lo => .ok (acc.1, some lo)
  else .ok acc

/-- The neighbours of all nodes of a mixer (1094-1099, 1121-1126). -/
def mixerNbrs (env : Env) (mixer : Elem) : List Node :=
  ((nodes env.graph).filter (fun n => n.parent = some mixer)).flatMap (neighbors env.graph)

/-- `get_module_and_lo_for_mixer` (1120-1159). -/
def mixerLookup (env : Env) (mixer : Elem) : Except Err (Node × Elem) :=
  match (mixerNbrs env mixer).foldlM (mixerNbr env) (none, none) with
  | .error e => .error e
  | .ok (some p, some lo) => .ok (p, lo)
  | .ok _ => .error .runtimeError

/-- `ChannelPath.from_path` (1891-1901): unpacking fails unless there are three parts. -/
def fromPath : Node → Except Err Path
  | .chan c m ch => .ok ⟨c, m, ch, none⟩
  | _ => .error .valueError

/-- The loop over the clocks for a neighbour that is a mixer (1202-1205). -/
def mixerClocks (env : Env) (mixer : Elem) (clocks : List String) (port cluster : String)
    (ref : Nat) (st : St) : St :=
  { st with
    tab := clocks.foldl (fun t clock =>
      Dict.set t (cluster, (port, (opticalClock env mixer clocks).getD clock)) ref) st.tab }

/-- The body of the loop over the neighbours of a port (1170-1205). -/
def nbrStep (env : Env) (port : String) (clocks : List String) (st : St) (nbr : Node) :
    Except Err St :=
  if nbr.head ∈ env.clusters then
    match fromPath nbr with
    | .error e => .error e
    | .ok path => clockLoop env port path st.heap.length clocks { st with heap := st.heap ++ [path] }
  else
    match nbr.parent with
    | none => .ok st
    | some mixer =>
      match mixerLookup env mixer with
      | .error e => .error e
      | .ok (p, lo) =>
        match fromPath p with
        | .error e => .error e
        | .ok path =>
          .ok (mixerClocks env mixer clocks port path.cluster st.heap.length
            { st with
                heap := st.heap ++ [path],
                los := Dict.set st.los (path.cluster, lo) st.heap.length })

/-- The body of the loop over the ports (1167-1205). -/
def portStep (env : Env) (st : St) (e : String × List String) : Except Err St :=
  if Node.plain e.1 ∈ nodes env.graph then
    (neighbors env.graph (.plain e.1)).foldlM (nbrStep env e.1 e.2) st
  else .error .keyError

/-- One step of the loop that fills `port_to_clocks` (1101-1103). -/
def addClock (d : List (String × List String)) (pc : PC) : List (String × List String) :=
  Dict.set d pc.1 ((Dict.get? d pc.1).getD [] ++ [pc.2])

/-- `port_to_clocks` (1101-1103); the set of port-clocks used is a list in any order. -/
def portToClocks (used : List PC) : List (String × List String) := used.foldl addClock []

/-- `_get_all_portclock_to_path_and_lo_name_to_path` (1069-1210). -/
def allPaths (env : Env) (used : List PC) : Except Err St :=
  (portToClocks used).foldlM (portStep env) ⟨[], [], []⟩

/-- Types of modules. -/
inductive ModType where
  | qcm | qrm | qcmRf | qrmRf | qrc | qtm
deriving DecidableEq, Repr

/-- `AllowedChannels` (1231-1246). -/
structure Allowed where
  outs : List Chan
  ins : List Chan
deriving DecidableEq, Repr

/-- `complex_output_i` -/
def co (i : Nat) : Chan := ⟨.complex, .output, i⟩
/-- `complex_input_i` -/
def ci (i : Nat) : Chan := ⟨.complex, .input, i⟩
/-- `real_output_i` -/
def ro (i : Nat) : Chan := ⟨.real, .output, i⟩
/-- `real_input_i` -/
def ri (i : Nat) : Chan := ⟨.real, .input, i⟩
/-- `digital_output_i` -/
def dO (i : Nat) : Chan := ⟨.digital, .output, i⟩
/-- `digital_input_i` -/
def dI (i : Nat) : Chan := ⟨.digital, .input, i⟩

/-- `sequencer_allowed_channels` (1458-1475, 1491-1509, 1556-1567, 1582-1588, 1611-1656,
1682-1706). -/
def allowed : ModType → List (Nat × Allowed)
  | .qcm => (List.range 6).map (fun i =>
      (i, ⟨[co 0, co 1, ro 0, ro 1, ro 2, ro 3, dO 0, dO 1, dO 2, dO 3], []⟩))
  | .qrm => (List.range 6).map (fun i =>
      (i, ⟨[co 0, ro 0, ro 1, dO 0, dO 1, dO 2, dO 3], [ci 0, ri 0, ri 1]⟩))
  | .qcmRf => (List.range 6).map (fun i => (i, ⟨[co 0, co 1, dO 0, dO 1], []⟩))
  | .qrmRf => (List.range 6).map (fun i => (i, ⟨[co 0, co 1, dO 0, dO 1], [ci 0]⟩))
  | .qrc => [(0, ⟨[co 0, co 1, co 2, dO 0], [ci 0, ci 1]⟩), (1, ⟨[co 0, co 1, co 3, dO 0], [ci 0, ci 1]⟩),
      (2, ⟨[co 0, co 1, co 4, dO 0], [ci 0, ci 1]⟩), (3, ⟨[co 0, co 1, co 5, dO 0], [ci 0, ci 1]⟩),
      (4, ⟨[co 0, co 1, co 2, dO 0], [ci 0, ci 1]⟩), (5, ⟨[co 0, co 1, co 3, dO 0], [ci 0, ci 1]⟩),
      (6, ⟨[co 0, co 1, co 4, dO 0], [ci 0, ci 1]⟩), (7, ⟨[co 0, co 1, co 5, dO 0], [ci 0, ci 1]⟩),
      (8, ⟨[co 2, co 3, co 4, co 5, dO 0], []⟩), (9, ⟨[co 2, co 3, co 4, co 5, dO 0], []⟩),
      (10, ⟨[co 2, co 3, co 4, co 5, dO 0], []⟩), (11, ⟨[co 2, co 3, co 4, co 5, dO 0], []⟩)]
  | .qtm => (List.range 8).map (fun i =>
      (i, ⟨(List.range 8).map dO, (List.range 8).map dI⟩))

/-- The condition in `find_sequencer_index` (1280-1295). -/
def fits (a : Allowed) (p : Path) : Bool :=
  match p.measure with
  | none => a.outs.contains p.chan || a.ins.contains p.chan
  | some m => a.outs.contains p.chan && m.all a.ins.contains

/-- `find_sequencer_index` (1276-1303). -/
def findSeq (al : List (Nat × Allowed)) (taken : List Nat) (p : Path) : Option Nat :=
  (al.find? (fun e => decide (e.1 ∉ taken) && fits e.2 p)).map Prod.fst

/-- Reserve a sequencer for each port-clock of a list, one after the other (1308-1316). -/
def reserve (al : List (Nat × Allowed)) :
    List (PC × Path) → List (Nat × PC) → Except Err (List (Nat × PC))
  | [], acc => .ok acc
  | (pc, p) :: rest, acc =>
    match findSeq al (acc.map Prod.fst) p with
    | none => .error .valueError
    | some i => reserve al rest (acc ++ [(i, pc)])

/-- The string of a port-clock. -/
def pcKey (pc : PC) : String := pc.1 ++ "-" ++ pc.2

/-- `_sequencer_to_portclock` (1268-1318): first the port-clocks with an input and an output, then
the others, each sorted by name. -/
def sequencerToPortclock (al : List (Nat × Allowed)) (pcs : List (PC × Path)) :
    Except Err (List (Nat × PC)) :=
  let s := sortBy (fun e => pcKey e.1) pcs
  reserve al (s.filter (fun e => e.2.measure.isSome) ++ s.filter (fun e => !e.2.measure.isSome)) []

/-- Add input channels to the objects of the port-clocks whose channel is in a mode. -/
def addInputs (mode : Mode) (ins : List Chan) (heap : List Path) (refs : List Nat) : List Path :=
  refs.foldl (fun h r =>
    match h[r]? with
    | some p => if p.chan.mode = mode ∧ p.chan.dir = .output then h.set r (ins.foldl Path.add p) else h
    | none => h) heap

/-- The channel names of the port-clocks of a module in a mode and direction (1841-1851). -/
def channelsOf (mode : Mode) (dir : Dir) (heap : List Path) (refs : List Nat) : List Chan :=
  (refs.filterMap (fun r => heap[r]?)).filterMap (fun p =>
    if p.chan.mode = mode ∧ p.chan.dir = dir then some p.chan else none)

/-- `_add_support_input_channel_names` (1830-1875) for a module whose port-clocks have these
objects. -/
def supportInputs (t : ModType) (refs : List Nat) (heap : List Path) : List Path :=
  if t = .qrm ∨ t = .qrmRf then
    let complexIn := channelsOf .complex .input heap refs
    let realIn := channelsOf .real .input heap refs
    if complexIn = [] ∧ realIn = [] then
      addInputs .real [ri 0, ri 1] (addInputs .complex [ci 0] heap refs) refs
    else
      match realIn with
      | [r] =>
        if complexIn = [] ∧ channelsOf .complex .output heap refs = [] then
          addInputs .real [if r.idx = 0 then ri 1 else ri 0] heap refs
        else heap
      | _ => heap
  else heap

/-- `_validate_channel_name_measure` for one port-clock (1477-1485, 1511-1550, 1569-1576,
1590-1605, 1658-1676, 1708-1716). -/
def validateMeasure (t : ModType) (p : Path) : Except Err Unit :=
  match p.measure with
  | none => .ok ()
  | some m =>
    match t with
    | .qcm | .qcmRf => .error .valueError
    | .qrm =>
      let outOk := decide (p.chan.dir = .output ∧ p.chan.mode ≠ .digital)
      match m with
      | [c] => if outOk && decide (c.dir = .input ∧ c.mode ≠ .digital) then .ok () else .error .valueError
      | [_, _] => if outOk && m.contains (ri 0) && m.contains (ri 1) then .ok () else .error .valueError
      | _ => .error .valueError
    | .qrmRf =>
      if decide (p.chan.dir = .output ∧ p.chan.mode = .complex) &&
          m.all (fun c => decide (c.dir = .input ∧ c.mode = .complex)) then .ok ()
      else .error .valueError
    | .qrc =>
      if decide (p.chan.mode = .complex) &&
          m.all (fun c => decide (c.dir = .input ∧ c.mode = .complex)) then .ok ()
      else .error .valueError
    | .qtm => .error .notImplemented

/-- A cluster in the hardware description: its name and the types of its modules. -/
structure Cluster where
  name : String
  modules : List (Nat × ModType)
deriving DecidableEq, Repr

/-- Port-clocks and objects of a cluster: `cfg.portclock_to_path`. -/
def clusterRefs (st : St) (cl : String) : List (PC × Nat) :=
  st.tab.filterMap (fun e => if e.1.1 = cl then some (e.1.2, e.2) else none)

/-- Port-clocks and objects of a module (1808-1810). -/
def moduleRefs (heap : List Path) (refs : List (PC × Nat)) (m : Nat) : List (PC × Nat) :=
  refs.filter (fun e => (heap[e.2]?.map Path.module) = some m)

/-- The modules of a cluster that are used (1040-1050). -/
def usedModules (heap : List Path) (refs : List (PC × Nat)) (mods : List (Nat × ModType)) :
    List (Nat × ModType) :=
  mods.filter (fun e => !(moduleRefs heap refs e.1).isEmpty)

/-- Version 0.1 of the configuration: `_add_support_input_channel_names` for each module of a
cluster (1816-1819). -/
def supportAll (v01 : Bool) (refs : List (PC × Nat)) (mods : List (Nat × ModType))
    (heap : List Path) : List Path :=
  if v01 then mods.foldl (fun h e => supportInputs e.2 ((moduleRefs h refs e.1).map Prod.snd) h) heap
  else heap

/-- The port-clocks of a module with their paths. -/
def modulePaths (heap : List Path) (refs : List (PC × Nat)) (m : Nat) : List (PC × Path) :=
  (moduleRefs heap refs m).filterMap (fun e => heap[e.2]?.map (fun p => (e.1, p)))

/-- `_validate_channel_name_measure` for all port-clocks of a module. -/
def validateAll (t : ModType) : List (PC × Path) → Except Err Unit
  | [] => .ok ()
  | (_, p) :: rest =>
    match validateMeasure t p with
    | .error e => .error e
    | .ok _ => validateAll t rest

/-- A module that is used, with its type and port-clocks. -/
structure Module where
  cluster : String
  idx : Nat
  type : ModType
  pcs : List (PC × Path)
deriving DecidableEq, Repr

/-- Validate the modules of a cluster one after the other. -/
def validateModules : List Module → Except Err Unit
  | [] => .ok ()
  | m :: rest =>
    match validateAll m.type m.pcs with
    | .error e => .error e
    | .ok _ => validateModules rest

/-- `_extract_module_compilation_configs` (1775-1827).  A path whose module is not in the
description raises `KeyError`. -/
def clusterModules (v01 : Bool) (st : St) (c : Cluster) : Except Err (List Module) :=
  let refs := clusterRefs st c.name
  let mods := usedModules st.heap refs c.modules
  let heap := supportAll v01 refs mods st.heap
  if refs.all (fun e => (heap[e.2]?.map Path.module).any (fun m => (Dict.keys mods).contains m)) then
    let ms := mods.map (fun e => (⟨c.name, e.1, e.2, modulePaths heap refs e.1⟩ : Module))
    match validateModules ms with
    | .error e => .error e
    | .ok _ => .ok ms
  else .error .keyError

/-- All clusters, one after the other. -/
def collect (v01 : Bool) (st : St) : List Cluster → Except Err (List Module)
  | [] => .ok []
  | c :: rest =>
    match clusterModules v01 st c with
    | .error e => .error e
    | .ok ms =>
      match collect v01 st rest with
      | .error e => .error e
      | .ok ns => .ok (ms ++ ns)

/-- `_extract_instrument_compilation_configs` (964-1067) with
`_extract_module_compilation_configs`: the modules used and their port-clocks. -/
def extract (v01 : Bool) (env : Env) (cs : List Cluster) (used : List PC) :
    Except Err (List Module) :=
  match allPaths { env with clusters := cs.map Cluster.name } used with
  | .error e => .error e
  | .ok st => collect v01 st cs

/-- `generate_port_clock_to_device_map` (helpers.py:501-538). -/
def deviceMap (ms : List Module) : List (PC × String) :=
  (ms.flatMap (fun m => m.pcs.map (fun e => (e.1, m.cluster)))).foldl
    (fun d e => Dict.set d e.1 e.2) []

/-- Can the module acquire (`supports_acquisition`, instrument_compilers.py:173, 283, 302, 329,
354, 459)? -/
def ModType.acquires : ModType → Bool
  | .qcm | .qcmRf => false
  | _ => true

variable {α : Type}

/-- The `add_op_info` calls of one device, port-clock and operation (helpers.py:775-905). -/
abbrev Log (α : Type) := List (String × PC × α)

/-- `_op_infos[(port, clock)]` of a cluster (instrument_compilers.py:545-560). -/
def opsOf (log : Log α) (cluster : String) (pc : PC) : List α :=
  log.filterMap (fun c => if c.1 = cluster ∧ c.2.1 = pc then some c.2.2 else none)

/-- What is read of an operation: is it an acquisition, is it a latch reset? -/
structure Kind (α : Type) where
  isAcq : α → Bool
  isReset : α → Bool

/-- `ClusterCompiler.distribute_data` and `add_op_info` of a module
(instrument_compilers.py:669-681, compiler_abc.py:1479-1501): acquisitions are refused by modules
that have none. -/
def distributeOk (k : Kind α) (log : Log α) (m : Module) : Bool :=
  m.type.acquires || m.pcs.all (fun e => (opsOf log m.cluster e.1).all (fun o => !k.isAcq o))

/-- Is the port-clock in `_portclocks_with_data` (compiler_abc.py:1503-1521)? -/
def hasData (k : Kind α) (log : Log α) (cluster : String) (pc : PC) : Bool :=
  (opsOf log cluster pc).any (fun o => !k.isReset o)

/-- A sequencer: number, port-clock, channels and operations. -/
structure Seq (α : Type) where
  pc : PC
  path : Path
  ops : List α
deriving DecidableEq, Repr

/-- The number of the sequencer compiler: of a QTM the number of the channel
(instrument_compilers.py:471-504), otherwise the one reserved. -/
def seqNumber (t : ModType) (i : Nat) (p : Path) : Nat :=
  match t with
  | .qtm => p.chan.idx
  | _ => i

/-- The loop in `_construct_all_sequencer_compilers` (compiler_abc.py:1540-1548), with the
operations that `distribute_data` (1559-1577) gives to the sequencer. -/
def construct (k : Kind α) (log : Log α) (m : Module) (res : List (Nat × PC)) :
    List (Nat × Seq α) :=
  res.foldl (fun d e =>
    match Dict.get? m.pcs e.2 with
    | none => d
    | some p =>
      if hasData k log m.cluster e.2 then
        Dict.set d (seqNumber m.type e.1 p) ⟨e.2, p, opsOf log m.cluster e.2⟩
      else d) []

/-- `prepare` of a module: reserve sequencers and give them their operations. -/
def prepareModule (k : Kind α) (log : Log α) (m : Module) :
    Except Err (List (Nat × Seq α)) :=
  if distributeOk k log m then
    match sequencerToPortclock (allowed m.type) m.pcs with
    | .error e => .error e
    | .ok res => .ok (construct k log m res)
  else .error .runtimeError

/-- `prepare` of all modules (compiler_container.py:62-75). -/
def prepareAll (k : Kind α) (log : Log α) :
    List Module → Except Err (List (Module × List (Nat × Seq α)))
  | [] => .ok []
  | m :: rest =>
    match prepareModule k log m with
    | .error e => .error e
    | .ok s =>
      match prepareAll k log rest with
      | .error e => .error e
      | .ok ss => .ok ((m, s) :: ss)

/-- From hardware configuration, port-clocks used and log of operations to the sequencers of all
modules (qblox_backend.py:742-752). -/
def compile (k : Kind α) (v01 : Bool) (env : Env) (cs : List Cluster) (used : List PC)
    (log : Log α) : Except Err (List (Module × List (Nat × Seq α))) :=
  match extract v01 env cs used with
  | .error e => .error e
  | .ok ms => prepareAll k log ms

end Verif.Connect
