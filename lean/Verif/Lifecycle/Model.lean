/-
Model of running a compiled schedule: the component of a cluster
(instrument_coordinator/components/qblox.py:273-460, 990-993, 1638-1641, 2745-2980), the generic component
(components/generic.py), the instrument coordinator (instrument_coordinator.py:66-355, 398-475) and
`ScheduleGettable.get` (gettables.py:140-250).

Modelled: which sequencers are armed, started and stopped, which are synchronised, which data are deleted,
retrieved and merged, and in which order; what stays behind if a step fails.  Loading of modules is
`Prepare/`, formatting of their data is `Retrieve/`.

Simplifications: names of components are those of the instruments (without `ic_`); sequencer `seq{n}` is `n`;
the acquisition channels and the number of repetitions are the same in the programs of all clusters, as
`hardware_compile` (qblox_backend.py:757-767) makes them; a value of the driver's parameter
`reference_source` and of parameters set by the generic component is set always, not only if it changed; the
function call that replaces an unknown parameter in the generic component is not modelled.

The driver (not in /repo) is modelled as its documentation says: `stop_sequencer()` stops all sequencers,
`arm_sequencer(k)` arms one, `start_sequencer()` starts all armed sequencers, a running sequencer adds to
its stored acquisitions, `delete_acquisition_data(k, all=True)` deletes those of a sequencer.
-/
import Verif.Prepare.Model
import Verif.Retrieve.Model

namespace Verif.Lifecycle

open Verif.Connect (ModType)
open Verif.Prepare (Dev Param Val)

set_option autoImplicit false
set_option linter.unusedVariables false

/-- Exceptions. -/
inductive Err where
  | keyError | valueError | runtimeError | typeError | attributeError | timeoutError | assertionError
  | incompatibleBinMode | indexError | zeroDivisionError
deriving DecidableEq, Repr

/-- Exceptions while a module is loaded. -/
def ofPrepare : Prepare.Err → Err
  | .keyError => .keyError
  | .valueError => .valueError

/-- Exceptions while data are read. -/
def ofRetrieve : Retrieve.Err → Err
  | .keyError => .keyError
  | .runtimeError => .runtimeError
  | .incompatibleBinMode => .incompatibleBinMode
  | .assertionError => .assertionError
  | .indexError => .indexError
  | .valueError => .valueError
  | .zeroDivision => .zeroDivisionError

/-- `for name, args in program.items(): self[name].prepare(args)`: the loops of `ClusterComponent.prepare`
(2929-2940) and of `InstrumentCoordinator.prepare` (instrument_coordinator.py:250-252); `KeyError` if there
is no such component. -/
def updateEach {P M : Type} (f : P → M → M × Option Err) :
    List (String × P) → List (String × M) → List (String × M) × Option Err
  | [], ms => (ms, none)
  | (n, p) :: rest, ms =>
    match Dict.get? ms n with
    | none => (ms, some .keyError)
    | some m =>
      match f p m with
      | (m', some e) => (Dict.set ms n m', some e)
      | (m', none) => updateEach f rest (Dict.set ms n m')

/-- `for component in components: ...`, up to the first exception. -/
def forEach {M : Type} (f : String → M → M × Option Err) :
    List (String × M) → List (String × M) × Option Err
  | [] => ([], none)
  | (n, m) :: rest =>
    match f n m with
    | (m', some e) => ((n, m') :: rest, some e)
    | (m', none) =>
      let r := forEach f rest
      ((n, m') :: r.1, r.2)

/-- States of a sequencer (`SequencerStates` of the driver). -/
inductive SeqState where
  | stopped | armed | running
deriving DecidableEq, Repr

/-- `_acquisition_manager` of a readout module (1647-1690). -/
structure Manager where
  chans : Nat → Option Retrieve.Chan
  reps : Nat
  /-- `acq_hardware_mapping`: the acquisition channels of the sequencers -/
  map : List (Nat × List (Nat × Retrieve.Mapping))
  /-- `acquisition_duration` -/
  dur : Nat → Nat

/-- A module of a cluster and its component. -/
structure Module (σ : Type) where
  type : ModType
  /-- the slot, counted from 1 -/
  slot : Nat
  /-- `force_set_parameters()` -/
  force : Bool
  dev : Dev σ
  /-- the sequencers in `_program` -/
  prog : List Nat
  manager : Option Manager
  state : Nat → SeqState
  /-- the runs whose acquisitions are stored for a sequencer -/
  data : Nat → List (Val σ)

/-- The settings of the sequencers in the program of a module. -/
inductive Body (σ : Type) where
  | analog (p : Prepare.Program σ)
  | timetag (seqs : List (Nat × Prepare.Timetag σ))

/-- The program of a module. -/
structure ModProg (σ : Type) where
  body : Body σ
  /-- `acq_hardware_mapping` -/
  acq : Option (List (Nat × List (Nat × Retrieve.Mapping)))

/-- The sequencers of a program. -/
def ModProg.seqs {σ : Type} (p : ModProg σ) : List Nat :=
  match p.body with
  | .analog q => q.seqs.map Prod.fst
  | .timetag l => l.map Prod.fst

/-- The integration length of an analog sequencer, in `acq_duration` (795). -/
def lengthOf {σ : Type} (q : Prepare.Program σ) (k : Nat) : Nat :=
  match Dict.get? q.seqs k with
  | none => 0
  | some s =>
    match s.length with
    | none => 0
    | some n => n.toNat

/-- The duration of the traces of a timetag sequencer (1487). -/
def traceLength {σ : Type} (l : List (Nat × Prepare.Timetag σ)) (k : Nat) : Nat :=
  match Dict.get? l k with
  | none => 0
  | some s =>
    match s.acq.traceDuration with
    | none => 0
    | some n => n.toNat

/-- The acquisition manager that `prepare` creates (796-811, 1489-1502).  A QCM has none. -/
def managerOf {σ : Type} (t : ModType) (chans : Nat → Option Retrieve.Chan) (reps : Nat) (p : ModProg σ) :
    Option Manager :=
  match t with
  | .qcm | .qcmRf => none
  | _ =>
    match p.acq with
    | none => none
    | some m => some ⟨chans, reps, m, match p.body with
      | .analog q => lengthOf q
      | .timetag l => traceLength l⟩

/-- The environment: the driver's calibrations, what the hardware returns for a sequencer after these runs,
what a failed `prepare` leaves of a module, and whether the sequencers of a module finish in time. -/
structure Env (σ : Type) where
  run : Prepare.Run σ
  read : List (Val σ) → Nat → Option Retrieve.HwAcq
  fail : ModProg σ → Module σ → Module σ
  inTime : Module σ → Nat → Bool

/-- The program of an analog module as `Prepare/` has it. -/
def analogProgram {σ : Type} (p : ModProg σ) (q : Prepare.Program σ) : Prepare.Program σ :=
  { q with mapping := p.acq.map (fun m => m.map (fun e => (e.1, e.2.map Prod.fst))) }

/-- The parameters that `prepare` of a module sets. -/
def loadDev {σ : Type} [DecidableEq σ] (env : Env σ) (p : ModProg σ) (m : Module σ) : Except Err (Dev σ) :=
  match p.body with
  | .analog q =>
    if m.type = .qtm then .error .attributeError
    else (Prepare.prepare m.force env.run m.type (analogProgram p q) m.dev).mapError ofPrepare
  | .timetag l =>
    if m.type = .qtm then (Prepare.prepareQtm m.force l m.dev).mapError ofPrepare
    else .error .attributeError

/-- `prepare` of a module (348-357 and `Prepare/`).  `_program` is replaced first. -/
def Module.prepare {σ : Type} [DecidableEq σ] (env : Env σ) (chans : Nat → Option Retrieve.Chan)
    (reps : Nat) (p : ModProg σ) (m : Module σ) : Module σ × Option Err :=
  match loadDev env p m with
  | .error e => (env.fail p m, some e)
  | .ok d => ({ m with dev := d, prog := p.seqs, manager := managerOf m.type chans reps p }, none)

/-- `clear_data` (432-434, 990-993, 1638-1641, 1766-1776). -/
def Module.clear {σ : Type} (m : Module σ) : Module σ :=
  match m.manager with
  | none => m
  | some g => { m with data := fun k => if k ∈ g.map.map Prod.fst then [] else m.data k }

/-- `arm_all_sequencers_in_program` (412-417). -/
def Module.arm {σ : Type} (m : Module σ) : Module σ :=
  { m with state := fun k => if k ∈ m.prog ∧ k < Prepare.numSeqs m.type then .armed else m.state k }

/-- `stop_sequencer()` for all sequencers of a module (driver). -/
def Module.halt {σ : Type} (m : Module σ) : Module σ := { m with state := fun _ => .stopped }

/-- `start_sequencer()` for all armed sequencers of a module (driver): they run what is loaded. -/
def Module.go {σ : Type} (m : Module σ) : Module σ :=
  { m with
    state := fun k => if m.state k = .armed then .running else m.state k
    data := fun k => if m.state k = .armed then m.data k ++ [m.dev.hw (.seq k .sequence)] else m.data k }

/-- `disable_sync` (359-363). -/
def Module.disableSync {σ : Type} [DecidableEq σ] (m : Module σ) : Module σ :=
  { m with dev := Prepare.setAll m.force (Prepare.syncOff m.type) m.dev }

/-! ### Clusters -/

/-- `ExternalTriggerSyncSettings` (types/qblox.py:336-362), without the settings of the trigger itself. -/
structure Trigger where
  slot : Nat
  /-- counted from 1 -/
  channel : Nat
  threshold : Option Rat
deriving DecidableEq, Repr

/-- The program of a cluster (without `acq_channels_data` and `repetitions`). -/
structure ClusterProg (σ : Type) where
  reference : String
  trigger : Option Trigger
  mods : List (String × ModProg σ)

/-- `ClusterComponent`, with the cluster. -/
structure Cluster (σ : Type) where
  force : Bool
  /-- `_cluster_modules` -/
  modules : List (String × Module σ)
  reference : String
  /-- `_program`: the names of the modules, and the trigger -/
  prog : Option (List String × Option Trigger)
  /-- calls of `sync_ext_trigger`, in the order in which they were made -/
  synced : List Trigger

/-- `ClusterComponent.prepare` (2896-2940). -/
def Cluster.prepare {σ : Type} [DecidableEq σ] (env : Env σ) (chans : Nat → Option Retrieve.Chan) (reps : Nat)
    (p : ClusterProg σ) (c : Cluster σ) : Cluster σ × Option Err :=
  let r := updateEach (fun p m => Module.prepare env chans reps p m) p.mods c.modules
  ({ c with reference := p.reference, prog := some (p.mods.map Prod.fst, p.trigger), modules := r.1 }, r.2)

/-- Every module of a cluster. -/
def onAll {σ : Type} (f : Module σ → Module σ) (ms : List (String × Module σ)) : List (String × Module σ) :=
  ms.map fun e => (e.1, f e.2)

/-- Every module in the program. -/
def onProg {σ : Type} (names : List String) (f : Module σ → Module σ) (ms : List (String × Module σ)) :
    List (String × Module σ) :=
  ms.map fun e => (e.1, if e.1 ∈ names then f e.2 else e.2)

/-- The module in a slot. -/
def inSlot {σ : Type} (s : Nat) (ms : List (String × Module σ)) : Option (String × Module σ) :=
  ms.find? fun e => e.2.slot = s

/-- `_sync_on_external_trigger` (2849-2886).  Slot 0 is the cluster itself. -/
def Cluster.syncTrigger {σ : Type} [DecidableEq σ] (t : Trigger) (c : Cluster σ) : Cluster σ × Option Err :=
  if t.slot = 0 then ({ c with synced := c.synced ++ [t] }, none)
  else
    match inSlot t.slot c.modules with
    | none => (c, some .valueError)
    | some (n, m) =>
      if m.type ≠ .qtm then (c, some .valueError)
      else
        let d := Prepare.setParam c.force m.dev (.io (t.channel - 1) .mode, .str "input")
        match t.threshold with
        | none => ({ c with modules := Dict.set c.modules n { m with dev := d } }, some .valueError)
        | some q =>
          ({ c with
             modules := Dict.set c.modules n
               { m with dev := Prepare.setParam c.force d (.io (t.channel - 1) .analogThreshold, .num q) }
             synced := c.synced ++ [t] }, none)

/-- The first part of `ClusterComponent.start` (2828-2841): all sequencers are stopped, those in the program
are armed and their old data deleted. -/
def Cluster.armed {σ : Type} (c : Cluster σ) (names : List String) : Cluster σ :=
  { c with modules := onProg names (fun m => m.clear.arm) (onAll Module.halt c.modules) }

/-- The trigger, if there is one (2844-2845). -/
def Cluster.external {σ : Type} [DecidableEq σ] (c : Cluster σ) : Option Trigger → Cluster σ × Option Err
  | none => (c, none)
  | some t => c.syncTrigger t

/-- `ClusterComponent.start` (2826-2847). -/
def Cluster.start {σ : Type} [DecidableEq σ] (c : Cluster σ) : Cluster σ × Option Err :=
  match c.prog with
  | none => ({ c with modules := onAll Module.halt c.modules }, none)
  | some (names, trigger) =>
    match (c.armed names).external trigger with
    | (c', some e) => (c', some e)
    | (c', none) => ({ c' with modules := onAll Module.go c'.modules }, none)

/-- `ClusterComponent.stop` (2888-2894). -/
def Cluster.stop {σ : Type} [DecidableEq σ] (c : Cluster σ) : Cluster σ :=
  { c with modules := onAll (fun m => m.disableSync.halt) c.modules }

/-! ### Data -/

/-- Kinds of acquisition managers. -/
def kindOf : ModType → Retrieve.Module
  | .qtm => .qtm
  | _ => .qrm

/-- The channels of all sequencers, and what the hardware has for them (1726-1733). -/
def jobsOf {σ : Type} (env : Env σ) (m : Module σ) (g : Manager) :
    List (Retrieve.Seq × Nat × Retrieve.Mapping) :=
  g.map.flatMap fun e => e.2.map fun ch => (⟨env.read (m.data e.1), g.dur e.1⟩, ch)

/-- `retrieve_acquisition` of a module (592-602, 733-746, 1431-1444). -/
def Module.retrieve {σ : Type} (env : Env σ) (m : Module σ) :
    Except Err (Option (List (Nat × Retrieve.Arr))) :=
  match m.manager with
  | none => .ok none
  | some g =>
    match Retrieve.retrieve (kindOf m.type) g.chans g.reps (jobsOf env m g) with
    | .error e => .error (ofRetrieve e)
    | .ok ds => .ok (some ds)

/-- One channel of `check_already_existing_acquisition` and `merge` (utility.py:126-168). -/
def addOne (ds : List (Nat × Retrieve.Arr)) (e : Nat × Retrieve.Arr) : Except Err (List (Nat × Retrieve.Arr)) :=
  match Dict.get? ds e.1 with
  | none => .ok (Dict.set ds e.1 e.2)
  | some cur =>
    if Retrieve.conflict e.2 cur then .error .runtimeError
    else .ok (Dict.set ds e.1 (Retrieve.mergeArr cur e.2))

/-- A dataset is merged with another (2960-2965, instrument_coordinator.py:327-331). -/
def addAll (ds new : List (Nat × Retrieve.Arr)) : Except Err (List (Nat × Retrieve.Arr)) :=
  new.foldlM addOne ds

/-- The data of one more component, if it has some. -/
def addData (ds : List (Nat × Retrieve.Arr)) : Option (List (Nat × Retrieve.Arr)) →
    Except Err (List (Nat × Retrieve.Arr))
  | none => .ok ds
  | some new => addAll ds new

/-- The loop of `ClusterComponent.retrieve_acquisition` (2954-2965). -/
def collect {σ : Type} (env : Env σ) (names : List String) (ds : List (Nat × Retrieve.Arr)) :
    List (String × Module σ) → Except Err (List (Nat × Retrieve.Arr))
  | [] => .ok ds
  | (n, m) :: rest =>
    if n ∈ names then
      match m.retrieve env with
      | .error e => .error e
      | .ok new =>
        match addData ds new with
        | .error e => .error e
        | .ok ds' => collect env names ds' rest
    else collect env names ds rest

/-- `ClusterComponent.retrieve_acquisition` (2942-2967). -/
def Cluster.retrieve {σ : Type} (env : Env σ) (c : Cluster σ) :
    Except Err (Option (List (Nat × Retrieve.Arr))) :=
  match c.prog with
  | none => .ok none
  | some (names, _) =>
    match collect env names [] c.modules with
    | .error e => .error e
    | .ok ds => .ok (if ds = [] then none else some ds)

/-- The timeout of the driver in minutes (298-300). -/
def timeoutMin (sec : Nat) : Nat := if sec / 60 = 0 then 1 else sec / 60

/-- The sequencers that did not get to an end are still running. -/
def Module.finish {σ : Type} (m : Module σ) : Module σ :=
  { m with state := fun k => if m.state k = .running then .stopped else m.state k }

/-- `wait_done` of a module (289-322): the driver raises an exception if a sequencer runs longer. -/
def Module.wait {σ : Type} (env : Env σ) (sec : Nat) (m : Module σ) : Module σ × Option Err :=
  if env.inTime m (timeoutMin sec) then (m.finish, none) else (m, some .timeoutError)

/-! ### The instrument coordinator -/

/-- Components: clusters, the generic component (the values of the parameters of other instruments), and
others, of which `stop` may raise an exception. -/
inductive Comp (σ : Type) where
  | cluster (c : Cluster σ)
  | generic (values : String → Option Rat)
  | other (running : Bool) (stopErr : Option Err)

/-- Compiled instructions for a component. -/
inductive Instr (σ : Type) where
  | cluster (p : ClusterProg σ)
  /-- keys `instrument.parameter` -/
  | generic (params : List (String × Rat))
  | other

/-- A compiled schedule: the instructions for each instrument, and the acquisition channels. -/
structure Compiled (σ : Type) where
  instrs : List (String × Instr σ)
  chans : Nat → Option Retrieve.Chan
  reps : Nat

/-- `InstrumentCoordinator`: `components()` and `_compiled_schedule`. -/
structure Coord (σ : Type) where
  comps : List (String × Comp σ)
  compiled : Option (Compiled σ)

/-- `GenericInstrumentCoordinatorComponent._set_params_to_devices` (generic.py:106-135). -/
def setGeneric : List (String × Rat) → (String → Option Rat) → (String → Option Rat) × Option Err
  | [], f => (f, none)
  | (k, v) :: rest, f =>
    if '.' ∈ k.toList then setGeneric rest (fun n => if n = k then some v else f n)
    else (f, some .keyError)

/-- `prepare` of a component. -/
def Comp.prepare {σ : Type} [DecidableEq σ] (env : Env σ) (s : Compiled σ) (i : Instr σ) (c : Comp σ) :
    Comp σ × Option Err :=
  match c, i with
  | .cluster c, .cluster p => ((c.prepare env s.chans s.reps p).map Comp.cluster id)
  | .generic f, .generic l => ((setGeneric l f).map Comp.generic id)
  | .other r e, .other => (.other r e, none)
  | c, _ => (c, some .typeError)

/-- `InstrumentCoordinator.prepare` (209-252). -/
def Coord.prepare {σ : Type} [DecidableEq σ] (env : Env σ) (s : Compiled σ) (x : Coord σ) :
    Coord σ × Option Err :=
  let r := updateEach (fun i c => Comp.prepare env s i c) s.instrs x.comps
  ({ comps := r.1, compiled := some s }, r.2)

/-- `start` of a component. -/
def Comp.start {σ : Type} [DecidableEq σ] : Comp σ → Comp σ × Option Err
  | .cluster c => c.start.map Comp.cluster id
  | .generic f => (.generic f, none)
  | .other _ e => (.other true e, none)

/-- `InstrumentCoordinator.start` (254-276). -/
def Coord.start {σ : Type} [DecidableEq σ] (x : Coord σ) : Coord σ × Option Err :=
  match x.compiled with
  | none => (x, some .valueError)
  | some s =>
    let r := forEach (fun n c => if n ∈ s.instrs.map Prod.fst then c.start else (c, none)) x.comps
    ({ x with comps := r.1 }, r.2)

/-- `stop` of a component. -/
def Comp.stop {σ : Type} [DecidableEq σ] : Comp σ → Comp σ × Option Err
  | .cluster c => (.cluster c.stop, none)
  | .generic f => (.generic f, none)
  | .other r none => (.other false none, none)
  | .other r (some e) => (.other r (some e), some e)

/-- With `allow_failure`, an `AttributeError` is a warning (294-299). -/
def demote {M : Type} (allow : Bool) (r : M × Option Err) : M × Option Err :=
  if allow = true ∧ r.2 = some .attributeError then (r.1, none) else r

/-- `InstrumentCoordinator.stop` (278-302). -/
def Coord.stop {σ : Type} [DecidableEq σ] (allow : Bool) (x : Coord σ) : Coord σ × Option Err :=
  let r := forEach (fun _ c => demote allow c.stop) x.comps
  ({ x with comps := r.1 }, r.2)

/-- `wait_done` of a component (2969-2980: the modules of a cluster one after the other). -/
def Comp.wait {σ : Type} (env : Env σ) (sec : Nat) : Comp σ → Comp σ × Option Err
  | .cluster c =>
    let r := forEach (fun _ m => m.wait env sec) c.modules
    (.cluster { c with modules := r.1 }, r.2)
  | c => (c, none)

/-- `InstrumentCoordinator.wait_done` (338-353). -/
def Coord.wait {σ : Type} (env : Env σ) (sec : Nat) (x : Coord σ) : Coord σ × Option Err :=
  let r := forEach (fun _ c => c.wait env sec) x.comps
  ({ x with comps := r.1 }, r.2)

/-- `retrieve_acquisition` of a component. -/
def Comp.retrieve {σ : Type} (env : Env σ) : Comp σ → Except Err (Option (List (Nat × Retrieve.Arr)))
  | .cluster c => c.retrieve env
  | _ => .ok none

/-- The loop of `InstrumentCoordinator.retrieve_acquisition` (322-331). -/
def collectComps {σ : Type} (env : Env σ) (cs : List (String × Comp σ)) (ds : List (Nat × Retrieve.Arr)) :
    List String → Except Err (List (Nat × Retrieve.Arr))
  | [] => .ok ds
  | n :: rest =>
    match Dict.get? cs n with
    | none => .error .keyError
    | some c =>
      match c.retrieve env with
      | .error e => .error e
      | .ok new =>
        match addData ds new with
        | .error e => .error e
        | .ok ds' => collectComps env cs ds' rest

/-- `InstrumentCoordinator.retrieve_acquisition` (304-332), with the timeout parameter. -/
def Coord.retrieve {σ : Type} (env : Env σ) (timeout : Nat) (x : Coord σ) :
    Coord σ × Except Err (List (Nat × Retrieve.Arr)) :=
  match x.compiled with
  | none => (x, .error .valueError)
  | some s =>
    match x.wait env timeout with
    | (x', some e) => (x', .error e)
    | (x', none) => (x', collectComps env x'.comps [] (s.instrs.map Prod.fst))

/-! ### Gettables -/

/-- `ScheduleGettable`: `always_initialize` and `is_initialized`. -/
structure Gettable where
  always : Bool
  initialized : Bool
  /-- is `_compiled_schedule` set? -/
  compiled : Bool

/-- `ScheduleGettable.get` (gettables.py:200-250), up to the conversion of the data: `make` evaluates the
parameters and compiles the schedule. -/
def Gettable.get {σ : Type} [DecidableEq σ] (env : Env σ) (timeout : Nat) (make : Except Err (Compiled σ))
    (g : Gettable) (x : Coord σ) : Gettable × Coord σ × Except Err (List (Nat × Retrieve.Arr)) :=
  match x.stop true with
  | (x1, some e) => (g, x1, .error e)
  | (x1, none) =>
    let init : Gettable × Coord σ × Option Err :=
      if g.initialized = false ∨ g.always = true then
        match make with
        | .error e => (g, x1, some e)
        | .ok s =>
          match x1.prepare env s with
          | (x2, some e) => ({ g with compiled := true }, x2, some e)
          | (x2, none) => ({ g with compiled := true, initialized := true }, x2, none)
      else (g, x1, none)
    match init with
    | (g2, x2, some e) => (g2, x2, .error e)
    | (g2, x2, none) =>
      if g2.compiled = false then (g2, x2, .error .runtimeError)
      else
        match x2.start with
        | (x3, some e) => (g2, x3, .error e)
        | (x3, none) =>
          match x3.retrieve env timeout with
          | (x4, .error e) => (g2, x4, .error e)
          | (x4, .ok ds) =>
            match x4.stop false with
            | (x5, some e) => (g2, x5, .error e)
            | (x5, none) => (g2, x5, if ds = [] then .error .runtimeError else .ok ds)

end Verif.Lifecycle
