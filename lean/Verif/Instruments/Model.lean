/-
Which instruments are compiled, with which settings (quantify_scheduler/backends/qblox_backend.py:740-775, 964-1068,
1775-1830; backends/qblox/compiler_container.py; backends/qblox/instrument_compilers.py:140-165, 570-740).

Simplifications:
* Port-clocks are strings; paths of channels are those of `Connect`.  Local oscillators come with the frequency they
  have after `prepare` (modelled in `Freq`), none if none was determined.
* Everything that happens to a single module, from the validation of its settings to its program, is an arbitrary
  function of the resources, the name of the cluster, the slot and the settings of the module.  It may fail.  All
  settings of all modules are made before the first of these functions is called.
* The values of the options are arbitrary; taking them out of the data classes and validating them again does not
  change them.  An option that the user has set to nothing is `none`.
* The names of modules (`cluster0_module1`) are the numbers of their slots, the names of parameters of local oscillators
  (`lo0.frequency`) are pairs.  `sequence_to_file` and debugging are not modelled, nor is the hardware configuration of
  version 0.1.
* Warnings are not modelled.
-/
import Verif.Common.Dict
import Verif.Common.FoldM
import Verif.Connect.Model

namespace Verif.Instruments

open Verif.Connect (Path Chan ModType Mode Dir)

inductive Err where
  | attributeError | keyError | valueError | module
deriving DecidableEq, Repr

section nested

variable {A B V : Type} [DecidableEq A] [DecidableEq B]

/-- `d.setdefault(a, {})[b] = v`. -/
def set2 (d : List (A × List (B × V))) (a : A) (b : B) (v : V) : List (A × List (B × V)) :=
  Dict.set d a (Dict.set ((Dict.get? d a).getD []) b v)

end nested

/-! ### Resources -/

/-- An operation: something played, a loop or conditional around an operation, or a schedule with its resources and its
operations in order. -/
inductive Op (ρ : Type) where
  | leaf
  | flow (body : Op ρ)
  | sched (resources : List (String × ρ)) (ops : List (Op ρ))

/-- `dict.update`. -/
def update {ρ : Type} (d e : List (String × ρ)) : List (String × ρ) := e.foldl (fun d x => Dict.set d x.1 x.2) d

mutual

/-- `_extract_all_resources` (compiler_container.py:188-199). -/
def allResources {ρ : Type} : Op ρ → List (String × ρ)
  | .leaf => []
  | .flow b => allResources b
  | .sched r ops => withInner r ops

/-- The loop over the operations of a schedule. -/
def withInner {ρ : Type} (r : List (String × ρ)) : List (Op ρ) → List (String × ρ)
  | [] => r
  | o :: ops => withInner (update r (allResources o)) ops

end

/-! ### Settings -/

variable {ν : Type}

/-- The options that are set: for each the values by port-clock. -/
abbrev Options (ν : Type) := List (String × List (String × ν))

/-- `ExternalTriggerSyncSettings` (types/qblox.py:336-362), as far as compilation looks at them. -/
structure Sync where
  slot : Nat
  channel : Int
  threshold : Option Rat
deriving DecidableEq, Repr

/-- A cluster of the hardware description, with the paths of the used port-clocks and of the local oscillators.  The
`config` stands for the rest of the settings. -/
structure Cluster where
  modules : List (Nat × ModType)
  sync : Option Sync
  config : String
  paths : List (String × Path)
  los : List (String × Path)

/-- `_ClusterCompilationConfig`. -/
structure ClusterCfg (ν : Type) where
  modules : List (Nat × ModType)
  sync : Option Sync
  config : String
  paths : List (String × Path)
  los : List (String × Path)
  options : Options ν

/-- `options_by_portclock` (qblox_backend.py:1022-1025). -/
def byPortClock (opts : List (String × Option (List (String × ν)))) : Except Err (Options ν) :=
  opts.foldlM (fun d o =>
    match o.2 with
    | none => .error .attributeError
    | some m => .ok (m.foldl (fun d e => set2 d e.1 o.1 e.2) d)) []

/-- The options of one cluster (1027-1037). -/
def clusterOptions (by_pc : Options ν) (paths : List (String × Path)) : Options ν :=
  paths.foldl (fun d p =>
    match Dict.get? by_pc p.1 with
    | none => d
    | some os => os.foldl (fun d o => set2 d o.1 p.1 o.2) d) []

/-- Unused modules are deleted (1039-1050). -/
def usedModules (c : Cluster) : List (Nat × ModType) :=
  c.modules.filter fun m => c.paths.any fun p => p.2.module == m.1

/-- `_extract_instrument_compilation_configs` (964-1068) for the clusters: those without used port-clocks are deleted
(1052-1058). -/
def clusterCfgs (opts : List (String × Option (List (String × ν)))) (clusters : List (String × Cluster)) :
    Except Err (List (String × ClusterCfg ν)) :=
  (byPortClock opts).bind fun b => .ok
    ((clusters.filter fun c => !c.2.paths.isEmpty).map fun c =>
      (c.1, ⟨usedModules c.2, c.2.sync, c.2.config, c.2.paths, c.2.los, clusterOptions b c.2.paths⟩))

/-- `_ClusterModuleCompilationConfig`. -/
structure ModuleCfg (ν : Type) where
  kind : ModType
  options : Options ν
  paths : List (String × Path)
  los : List (String × Path)

/-- One value of an option goes to the module of its port-clock (1796-1802). -/
def giveOption (paths : List (String × Path)) (option : String) (mods : List (Nat × ModuleCfg ν))
    (e : String × ν) : Except Err (List (Nat × ModuleCfg ν)) :=
  match Dict.get? paths e.1 with
  | none => .error .keyError
  | some p =>
    match Dict.get? mods p.module with
    | none => .error .keyError
    | some m => .ok (Dict.set mods p.module { m with options := set2 m.options option e.1 e.2 })

/-- A path goes to its module (1809-1811). -/
def givePath (mods : List (Nat × ModuleCfg ν)) (e : String × Path) : Except Err (List (Nat × ModuleCfg ν)) :=
  match Dict.get? mods e.2.module with
  | none => .error .keyError
  | some m => .ok (Dict.set mods e.2.module { m with paths := Dict.set m.paths e.1 e.2 })

/-- A path of a local oscillator goes to its module (1813-1815). -/
def giveLo (mods : List (Nat × ModuleCfg ν)) (e : String × Path) : Except Err (List (Nat × ModuleCfg ν)) :=
  match Dict.get? mods e.2.module with
  | none => .error .keyError
  | some m => .ok (Dict.set mods e.2.module { m with los := Dict.set m.los e.1 e.2 })

/-- `_extract_module_compilation_configs` (1775-1830). -/
def moduleCfgs (c : ClusterCfg ν) : Except Err (List (Nat × ModuleCfg ν)) :=
  let start : List (Nat × ModuleCfg ν) := c.modules.map fun m => (m.1, ⟨m.2, [], [], []⟩)
  (c.options.foldlM (fun mods (o : String × List (String × ν)) => o.2.foldlM (giveOption c.paths o.1) mods) start).bind fun mods =>
  (c.paths.foldlM givePath mods).bind fun mods => c.los.foldlM giveLo mods

/-- The threshold that the options give for a port-clock, `analog_threshold` (instrument_compilers.py:671-685). -/
def thresholdOf (analog : ν → Option Rat) (c : ClusterCfg ν) (pc : String) : Option (Option Rat) :=
  ((Dict.get? c.options "digitization_thresholds").bind fun d => Dict.get? d pc).map analog

/-- The check of one port-clock (instrument_compilers.py:663-685). -/
def checkPath (analog : ν → Option Rat) (c : ClusterCfg ν) (s : Sync) (e : String × Path) : Except Err Unit :=
  if ¬ (e.2.chan.mode = .digital ∧ e.2.chan.dir = .input) then .error .valueError
  else
    match thresholdOf analog c e.1 with
    | none => if s.threshold = none then .error .valueError else .ok ()
    | some t => if t ≠ s.threshold then .error .valueError else .ok ()

/-- `_validate_external_trigger_sync` (instrument_compilers.py:619-685). -/
def validateSync (analog : ν → Option Rat) (c : ClusterCfg ν) : Except Err Unit :=
  match c.sync with
  | none => .ok ()
  | some s =>
    (match Dict.get? c.modules s.slot with
    | some k => if k ≠ .qtm then .error .valueError else .ok ()
    | none => .ok () : Except Err Unit).bind fun _ =>
    (c.paths.filter fun e => decide (e.2.module = s.slot) && decide ((e.2.chan.idx : Int) = s.channel - 1)).forM
      (checkPath analog c s)

/-! ### Programs -/

/-- The instructions of a component: settings of a cluster, programs of modules, parameters of other instruments, data of
the acquisitions, repetitions. -/
structure Component (π α : Type) where
  settings : Option (String × Option Sync) := none
  modules : List (Nat × List π) := []
  params : List ((String × String) × Rat) := []
  acquisitions : Option α := none
  repetitions : Option Nat := none

/-- A local oscillator: `name`, frequency, power. -/
structure Lo where
  name : String
  freq : Option Rat
  power : Rat

/-- `LocalOscillatorCompiler.compile` (instrument_compilers.py:138-165). -/
def Lo.compile (l : Lo) : Option (List ((String × String) × Rat)) :=
  l.freq.map fun f => [((l.name, "frequency"), f), ((l.name, "power"), l.power)]

/-- `dict.update` of parameters. -/
def setParams (d e : List ((String × String) × Rat)) : List ((String × String) × Rat) :=
  e.foldl (fun d x => Dict.set d x.1 x.2) d

variable {ρ π α : Type}

/-- `ClusterCompiler.compile` (instrument_compilers.py:703-740). -/
def compileCluster (compileModule : Nat → ModuleCfg ν → Except Err (Option (List π))) (c : ClusterCfg ν)
    (mods : List (Nat × ModuleCfg ν)) : Except Err (Component π α) :=
  (mods.foldlM (fun d m => (compileModule m.1 m.2).bind fun p =>
    match p with
    | none => .ok d
    | some l => if l.isEmpty then .ok d else .ok (Dict.set d m.1 l)) []).bind fun l =>
  .ok { settings := some (c.config, c.sync), modules := l }

/-- The programs of the local oscillators (compiler_container.py:108-118). -/
def addLo (d : List (String × Component π α)) (l : Lo) : List (String × Component π α) :=
  match l.compile with
  | none => d
  | some e =>
    let g := (Dict.get? d "generic").getD {}
    Dict.set d "generic" { g with params := setParams g.params e }

/-- The end of `hardware_compile` (qblox_backend.py:763-772). -/
def finish (acq : α) (reps : Nat) (d : List (String × Component π α)) : List (String × Component π α) :=
  d.map fun e => if e.1 ≠ "generic" then (e.1, { e.2 with acquisitions := some acq, repetitions := some reps }) else e

/-- `hardware_compile` from the container on (qblox_backend.py:740-775) with `CompilerContainer.from_hardware_cfg`,
`prepare` and `compile`: the compiled instructions. -/
def hwCompile (analog : ν → Option Rat)
    (compileModule : List (String × ρ) → String → Nat → ModuleCfg ν → Except Err (Option (List π)))
    (schedule : Op ρ) (opts : List (String × Option (List (String × ν)))) (clusters : List (String × Cluster))
    (los : List Lo) (acq : α) (reps : Nat) : Except Err (List (String × Component π α)) :=
  (clusterCfgs opts clusters).bind fun cfgs =>
  (cfgs.mapM fun c => (moduleCfgs c.2).map fun m => (c, m)).bind fun built =>
  (built.forM fun c => validateSync analog c.1.2).bind fun _ =>
  (built.foldlM (fun d c => (compileCluster (compileModule (allResources schedule) c.1.1) c.1.2 c.2).map
    fun p => Dict.set d c.1.1 p) []).bind fun d =>
  .ok (finish acq reps (los.foldl addLo d))

end Verif.Instruments
