/-
Preparing devices of Zurich Instruments (quantify_scheduler/backends/zhinst/settings.py,
backends/zhinst/helpers.py:30-205, backends/zhinst_backend.py:1659-1788, 1945-2187,
instrument_coordinator/components/zhinst.py:40-265, helpers/collections.py:18-52).

Simplifications:
* A node is the list of its segments instead of a string with slashes; the serial number in front is left out.  The data
  server writes to all nodes that a path with `*` matches: a device keeps the list of what was written, and the value of a
  node is the last one that was written to a matching path.
* Numbers are rationals, samples are pairs of integers (I, Q).
* `make_hash` (collections.py:18-52) has no collisions: settings are equal if their dictionaries are.
* A fault is an exception of the data server, the compiler or the file system, after `k` steps of a list of steps; all
  values of a group are sent in one step (`set_values`).
* Logging, waiting for the compiler and time-outs are left out.
* The weights and lengths that the compiler chooses for acquisitions are arguments (they are modelled in `Verif.Zi.Acq`).
-/
import Verif.Common.Dict
import Mathlib.Algebra.Order.Field.Rat

namespace Verif.ZiPrepare

/-- Exceptions. -/
inductive Err where
  | assertion | valueError
deriving DecidableEq, Repr

/-- A segment of a node: a name, a number, or `*`. -/
inductive Seg where
  | name (s : String) | index (n : Nat) | any
deriving DecidableEq, Repr

/-- A node, e.g. `sigouts/*/on`. -/
abbrev Node := List Seg

/-- Values of nodes: numbers, complex numbers, vectors, samples of a waveform, texts. -/
inductive Val where
  | num (q : Rat) | cplx (re im : Rat) | vec (l : List Rat) | wave (l : List (Int × Int)) | text (s : String)
  | samples (l : List (Rat × Rat))
deriving DecidableEq, Repr

/-- `apply_fn` (settings.py:49): `set_value`, `set_vector`, or the function of `with_csv_wave_vector` that does nothing
(settings.py:442-443). -/
inductive Fn where
  | setValue | setVector | void
deriving DecidableEq, Repr

/-- `ZISetting` (settings.py:43-67). -/
structure Daq where
  node : Node
  value : Val
  fn : Fn
deriving DecidableEq, Repr

/-- `ZISettings` (settings.py:70-95): the settings of the device, and the programs of the AWGs by index. -/
structure Settings where
  daq : List Daq
  awg : List (Nat × String)
deriving DecidableEq, Repr

/-- `ZISettingsBuilder` (settings.py:310-360). -/
structure Builder where
  daq : List Daq := []
  awg : List (Nat × String) := []
deriving DecidableEq, Repr

/-- `build` (settings.py:1027-1051): the last program of an AWG. -/
def Builder.build (b : Builder) : Settings :=
  ⟨b.daq, b.awg.foldl (fun d e => Dict.set d e.1 e.2) []⟩

/-- `as_dict` (settings.py:105-130), without the programs. -/
def Settings.dict (s : Settings) : List (Node × Val) := s.daq.foldl (fun d e => Dict.set d e.node e.value) []

/-- Two dictionaries are equal. -/
def sameDict {K V : Type} [DecidableEq K] [DecidableEq V] (a b : List (K × V)) : Bool :=
  a.all (fun e => decide (Dict.get? b e.1 = Dict.get? a e.1)) && b.all (fun e => decide (Dict.get? a e.1 = Dict.get? b e.1))

/-- `__eq__` (settings.py:92-98). -/
def Settings.same (a b : Settings) : Bool := sameDict a.dict b.dict && sameDict a.awg b.awg

/-! ### Devices -/

/-- A file with samples: name of the instrument, index of the AWG, index of the waveform (settings.py:189). -/
structure File where
  instr : String
  awg : Nat
  wave : Nat
deriving DecidableEq, Repr

/-- Files and what is in them. -/
abbrev Dir := List (File × List (Rat × Rat))

/-- A program that was compiled: its source, and the files that were there when it was compiled. -/
structure Prog where
  source : String
  files : Dir
deriving DecidableEq, Repr

/-- A device: what was written to nodes, oldest first; the programs of its AWGs; the directory of its waveforms; the AWGs
that run. -/
structure Hw where
  writes : List (Node × Val) := []
  progs : List (Nat × Prog) := []
  waves : Dir := []
  running : List Nat := []
deriving DecidableEq, Repr

/-- A step of `apply`: the compilation of a program, writing values, writing a vector. -/
inductive Act where
  | compile (awg : Nat) (source : String)
  | sets (l : List (Node × Val))
  | vector (node : Node) (v : Val)
  | nothing
deriving DecidableEq, Repr

/-- The effect of a step (helpers.py:48-205). -/
def act (h : Hw) : Act → Hw
  | .compile a src => { h with progs := Dict.set h.progs a ⟨src, h.waves⟩ }
  | .sets l => { h with writes := h.writes ++ l }
  | .vector n v => { h with writes := h.writes ++ [(n, v)] }
  | .nothing => h

/-- `itertools.groupby` with the settings that are sent together (settings.py:137-163): successive settings with
`set_value` are one step. -/
def groups : List Daq → List Act
  | [] => []
  | d :: rest =>
    match d.fn with
    | .void => .nothing :: groups rest
    | .setVector => .vector d.node d.value :: groups rest
    | .setValue =>
      match groups rest with
      | .sets l :: more => .sets ((d.node, d.value) :: l) :: more
      | more => .sets [(d.node, d.value)] :: more

/-- `apply` (settings.py:132-163): programs first. -/
def Settings.acts (s : Settings) : List Act := s.awg.map (fun e => .compile e.1 e.2) ++ groups s.daq

/-- All steps. -/
def doAll (h : Hw) (l : List Act) : Hw := l.foldl act h

/-- Steps until there is a fault; was there one? -/
def doUntil (fault : Option Nat) (h : Hw) (l : List Act) : Bool × Hw :=
  match fault with
  | some k => if k < l.length then (true, doAll h (l.take k)) else (false, doAll h l)
  | none => (false, doAll h l)

/-! ### Files -/

/-- The path of a waveform: `awgs/a/waveform/waves/w` (settings.py:184-188). -/
def waveOf : Node → Option (Nat × Nat)
  | [.name "awgs", .index a, .name "waveform", .name "waves", .index w] => some (a, w)
  | _ => none

/-- The rows of the file (settings.py:193-203). -/
def csv : Val → List (Rat × Rat)
  | .wave l => l.map (fun p => ((p.1 : Rat) / (2 ^ 15 - 1), (p.2 : Rat) / (2 ^ 15 - 1)))
  | _ => []

/-- The files of `serialize` (settings.py:182-206) in the order in which they are written. -/
def filesOf (name : String) (s : Settings) : Dir :=
  s.daq.filterMap (fun d => (waveOf d.node).map (fun p => (⟨name, p.1, p.2⟩, csv d.value)))

/-- Files that are written over those of a directory. -/
def writeAll (dir : Dir) (files : Dir) : Dir := files.foldl (fun d e => Dict.set d e.1 e.2) dir

/-- Files until there is a fault. -/
def writeUntil (fault : Option Nat) (dir files : Dir) : Bool × Dir :=
  match fault with
  | some k => if k < files.length then (true, writeAll dir (files.take k)) else (false, writeAll dir files)
  | none => (false, writeAll dir files)

/-! ### Components -/

/-- A component with its device; `data` is the data directory (of all instruments). -/
structure Comp where
  name : String
  hw : Hw := {}
  settings : Option Settings := none
  data : Dir := []
deriving DecidableEq, Repr

/-- How `prepare` ends. -/
inductive Outcome where
  | configured | skipped | raised
deriving DecidableEq, Repr

/-- Where an exception is raised: in writing the files, or in applying the settings. -/
structure Fault where
  file : Option Nat := none
  apply : Option Nat := none
deriving DecidableEq, Repr

/-- Settings are equal to the previous ones, if there are any (components/zhinst.py:79-82). -/
def sameAs (s : Settings) : Option Settings → Bool
  | some old => s.same old
  | none => false

/-- `ZIInstrumentCoordinatorComponent.prepare` (components/zhinst.py:58-103). -/
def prepare (f : Fault) (s : Settings) (c : Comp) : Outcome × Comp :=
  if sameAs s c.settings then (.skipped, c)
  else
    let w := writeUntil f.file c.data (filesOf c.name s)
    let c := { c with settings := some s, data := w.2 }
    if w.1 then (.raised, c)
    else
      let r := doUntil f.apply c.hw s.acts
      (if r.1 then .raised else .configured, { c with hw := r.2 })

/-- `awg_indexes` (settings.py:90, 100-103). -/
def Settings.indexes (s : Settings) : List Nat := Dict.keys s.awg

/-- `start` of an HDAWG (components/zhinst.py:144-147): in reverse order; the last one that is started is last. -/
def startHd (c : Comp) : Option Comp :=
  c.settings.map (fun s => { c with hw := { c.hw with running := s.indexes.reverse.foldl (fun r a => r.erase a ++ [a]) c.hw.running } })

/-- `stop` of an HDAWG (components/zhinst.py:149-152). -/
def stopHd (c : Comp) : Option Comp :=
  c.settings.map (fun s => { c with hw := { c.hw with running := c.hw.running.filter (fun a => a ∉ s.indexes) } })

/-- `start` of a UHFQA (components/zhinst.py:182-183). -/
def startUh (c : Comp) : Comp := { c with hw := { c.hw with running := c.hw.running.erase 0 ++ [0] } }

/-- `stop` of a UHFQA (components/zhinst.py:185-186). -/
def stopUh (c : Comp) : Comp := { c with hw := { c.hw with running := c.hw.running.filter (fun a => a ≠ 0) } }

/-- `qas/0/result/<leaf>`. -/
def result (leaf : String) : Node := [.name "qas", .index 0, .name "result", .name leaf]

/-- The reset of the results and the AWG of a UHFQA (components/zhinst.py:214-219). -/
def resetUh (h : Hw) : Hw :=
  { h with
    writes := h.writes ++ [(result "enable", .num 0), (result "reset", .num 1), (result "enable", .num 1)]
    running := h.running.filter (fun a => a ≠ 0) }

/-- The copy of the files of the instrument to the directory of the device (components/zhinst.py:239-246);
`glob(f"{name}*.csv")` finds the files of all instruments whose names start with this name. -/
def copyFiles (c : Comp) : Comp :=
  { c with hw := { c.hw with waves := writeAll c.hw.waves (c.data.filter (fun e => c.name.toList.isPrefixOf e.1.instr.toList)) } }

/-- `UHFQAInstrumentCoordinatorComponent.prepare` (components/zhinst.py:195-260): an exception of the first application is
logged and passed over; `again` is the fault of the second application. -/
def prepareUh (f : Fault) (again : Option Nat) (s : Settings) (c : Comp) : Outcome × Comp :=
  match prepare f s { c with hw := resetUh c.hw } with
  | (.skipped, c) => (.skipped, c)
  | (_, c) =>
    let c := copyFiles c
    match c.settings with
    | none => (.configured, c)
    | some s =>
      let r := doUntil again c.hw s.acts
      (if r.1 then .raised else .configured, { c with hw := r.2 })

/-! ### What the compiler builds -/

/-- One output of an HDAWG that is used: index of its AWG, gains, offsets, command table, program, waveforms. -/
structure HdOut where
  awg : Nat
  gain1 : Rat
  gain2 : Rat
  offI : Rat
  offQ : Rat
  table : String
  seqc : String
  waves : List (Nat × List (Int × Int))
deriving DecidableEq, Repr

/-- An HDAWG: number of AWGs, channel grouping, divisor of the clock, outputs that are used. -/
structure HdCfg where
  awgs : Nat
  grouping : Nat
  clock : Nat
  outs : List HdOut
deriving DecidableEq, Repr

/-- `set_value` of a number. -/
def setNum (n : Node) (q : Rat) : Daq := ⟨n, .num q, .setValue⟩

/-- `sigouts/<c>/on`. -/
def onNode (c : Seg) : Node := [.name "sigouts", c, .name "on"]

/-- `sigouts/<c>/offset`. -/
def offsetNode (c : Nat) : Node := [.name "sigouts", .index c, .name "offset"]

/-- `awgs/<a>/outputs/<o>/gains/<o>` (settings.py:995-1002). -/
def gainNode (a o : Nat) : Node := [.name "awgs", .index a, .name "outputs", .index o, .name "gains", .index o]

/-- `awgs/<a>/<leaf>`. -/
def awgNode (a : Seg) (leaf : String) : Node := [.name "awgs", a, .name leaf]

/-- `awgs/<a>/waveform/waves/<w>`. -/
def waveNode (a w : Nat) : Node := [.name "awgs", .index a, .name "waveform", .name "waves", .index w]

/-- `awgs/<a>/commandtable/data`. -/
def tableNode (a : Nat) : Node := [.name "awgs", .index a, .name "commandtable", .name "data"]

/-- `system/awg/channelgrouping`. -/
def groupingNode : Node := [.name "system", .name "awg", .name "channelgrouping"]

/-- `with_sigouts` (settings.py:912-934). -/
def withSigouts (a : Nat) : List Daq := [setNum (onNode (.index (a * 2))) 1, setNum (onNode (.index (a * 2 + 1))) 1]

/-- `with_gain` (settings.py:969-1002): of the assertion `gain >= -1 <= 1` the second half is always true. -/
def withGain (a : Nat) (g1 g2 : Rat) : Except Err (List Daq) :=
  if g1 < -1 ∨ g2 < -1 then .error .assertion
  else .ok [setNum (gainNode a 0) g1, setNum (gainNode a 1) g2]

/-- `with_awg_time` (settings.py:478-500). -/
def withTime (a k : Nat) : Except Err (List Daq) :=
  if 14 ≤ k then .error .assertion else .ok [setNum (awgNode (.index a) "time") k]

/-- `with_awg_time` of all AWGs (1698-1699). -/
def withTimes (k : Nat) : List Nat → Except Err (List Daq)
  | [] => .ok []
  | a :: rest =>
    match withTime a k with
    | .error e => .error e
    | .ok l =>
      match withTimes k rest with
      | .error e => .error e
      | .ok m => .ok (l ++ m)

/-- The outputs (1719-1739). -/
def outputDaqs : List HdOut → Except Err (List Daq)
  | [] => .ok []
  | o :: rest =>
    match withGain o.awg o.gain1 o.gain2 with
    | .error e => .error e
    | .ok g =>
      match outputDaqs rest with
      | .error e => .error e
      | .ok m => .ok (withSigouts o.awg ++ g ++
          [setNum (offsetNode (o.awg * 2)) o.offI, setNum (offsetNode (o.awg * 2 + 1)) o.offQ] ++ m)

/-- Command tables and waveforms (1744-1786). -/
def tableDaqs (o : HdOut) : List Daq :=
  ⟨tableNode o.awg, .text o.table, .setVector⟩ :: o.waves.map (fun w => ⟨waveNode o.awg w.1, .wave w.2, .setVector⟩)

/-- The builder of `_compile_for_hdawg` (1659-1788). -/
def hdBuilder (c : HdCfg) : Except Err Builder :=
  match withTimes c.clock (List.range c.awgs) with
  | .error e => .error e
  | .ok times =>
    match outputDaqs c.outs with
    | .error e => .error e
    | .ok outs => .ok
        { daq := [setNum (onNode .any) 0, setNum (awgNode .any "single") 1, setNum groupingNode c.grouping] ++ times ++ outs ++
            c.outs.flatMap tableDaqs
          awg := c.outs.map (fun o => (o.awg, o.seqc)) }

/-- A UHFQA: divisor of the clock, offsets, program, waveforms; integration weights (imaginary?, node, weights) in the
order in which they are set; averages and length of the monitor for traces; integration length, number of results and
averages, if there are acquisitions. -/
structure UhCfg where
  clock : Nat
  offI : Rat
  offQ : Rat
  seqc : String
  waves : List (Nat × List (Int × Int))
  monitors : List (Nat × Nat)
  weights : List (Bool × Nat × List Rat)
  acq : Option (Nat × Nat × Nat)
deriving DecidableEq, Repr

/-- `qas/0/integration/weights/<k>/<real or imag>`. -/
def weightNode (imag : Bool) (k : Nat) : Node :=
  [.name "qas", .index 0, .name "integration", .name "weights", .index k, .name (if imag then "imag" else "real")]

/-- `qas/0/<a>/<b>`. -/
def qaNode (a b : String) : Node := [.name "qas", .index 0, .name a, .name b]

/-- `with_qas_integration_weights_real`, `..._imag` (settings.py:690-780). -/
def withWeights : List (Bool × Nat × List Rat) → Except Err (List Daq)
  | [] => .ok []
  | (im, k, l) :: rest =>
    if 4096 < l.length then .error .assertion
    else if 10 ≤ k then .error .valueError
    else
      match withWeights rest with
      | .error e => .error e
      | .ok m => .ok (⟨weightNode im k, .vec l, .setVector⟩ :: m)

/-- Zeros for all weights (1984-1990). -/
def zeroWeights : List Daq :=
  (List.range 10).map (fun k => ⟨weightNode false k, .vec (List.replicate 4096 0), .setVector⟩) ++
    (List.range 10).map (fun k => ⟨weightNode true k, .vec (List.replicate 4096 0), .setVector⟩)

/-- Settings of traces (2104-2107). -/
def monitorDaqs (m : Nat × Nat) : List Daq :=
  [setNum (qaNode "monitor" "enable") 1, setNum (qaNode "monitor" "averages") m.1, setNum (qaNode "monitor" "length") m.2]

/-- Settings of all acquisitions (2162-2176). -/
def acqDaqs (n results averages : Nat) : List Daq :=
  [setNum (qaNode "integration" "mode") 0, setNum (qaNode "integration" "length") n, setNum (result "enable") 0,
    setNum (qaNode "monitor" "enable") 0, setNum [.name "qas", .index 0, .name "delay"] 0, setNum (result "mode") 0,
    setNum (result "source") 7, setNum (result "length") results, setNum (result "enable") 1,
    setNum (result "averages") averages]

/-- Settings of the acquisitions, if there are any; the length of the integration is limited (settings.py:655). -/
def withAcq : Option (Nat × Nat × Nat) → Except Err (List Daq)
  | none => .ok []
  | some (n, r, a) => if 4096 < n then .error .assertion else .ok (acqDaqs n r a)

/-- The builder of `_compile_for_uhfqa` (1945-2187). -/
def uhBuilder (c : UhCfg) : Except Err Builder :=
  match withTime 0 c.clock with
  | .error e => .error e
  | .ok time =>
    match withWeights c.weights with
    | .error e => .error e
    | .ok weights =>
      match withAcq c.acq with
      | .error e => .error e
      | .ok acq => .ok
          { daq := [setNum (awgNode (.index 0) "single") 1,
                ⟨[.name "qas", .index 0, .name "rotations", .any], .cplx 1 1, .setValue⟩,
                setNum [.name "qas", .index 0, .name "integration", .name "sources", .any] 0] ++
              withSigouts 0 ++ time ++ zeroWeights ++ [setNum (offsetNode 0) c.offI, setNum (offsetNode 1) c.offQ] ++
              c.waves.map (fun w => ⟨waveNode 0 w.1, .wave w.2, .void⟩) ++ c.monitors.flatMap monitorDaqs ++ weights ++ acq ++
              [setNum (result "reset") 0, setNum (result "reset") 1, setNum (qaNode "monitor" "reset") 0,
                setNum (qaNode "monitor" "reset") 1]
            awg := [(0, c.seqc)] }

end Verif.ZiPrepare
