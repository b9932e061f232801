/-
From circuit to device: quantify_scheduler/backends/circuit_to_device.py.

Simplifications:
* A schedule is the list of its schedulables, each with its operation (in the code: the key of an
  operation in a dict; equal operations are compiled once, with the same result) and its timing
  constraint.
* Values of parameters are numbers, lists (or tuples) and others; a factory function is any function
  from keyword arguments (a partial function from names to values) to an operation or an exception.
* The name of an edge, `f"{parent}_{child}"`, is the pair (names of device elements have no underscore,
  device_under_test/device_element.py).
* Exceptions are distinguished by type; warnings are left out. Depth of recursion is limited, as in
  Python.
-/
import Verif.Common.Dict
import Mathlib.Algebra.Order.Field.Rat
import Mathlib.Data.List.Dedup

namespace Verif.Circuit

open Verif

/-- Exceptions. -/
inductive Err where
  | configKeyError | multipleKeysError | keyError | indexError | typeError | assertionError | valueError
  | runtimeError | recursionError | other
deriving DecidableEq, Repr

/-- Values of parameters. -/
inductive V where
  | num (x : Rat)
  | list (l : List V)
  | other (n : Nat)

/-- Keyword arguments, gate information, overrides. -/
abbrev Kw := List (String × V)

/-- `gate_info` of an operation, and whether it is a `Measure` (gate_library.py). -/
structure Gate where
  elements : List String
  type : String
  symmetric : Bool := false
  measure : Bool := false
  applyDelay : Bool := true
  info : Kw := []
  overrides : Kw := []

/-- Settings of a `PulseCompensation` (pulse_compensation_library.py:47-110): device elements, or
maximal amplitudes, grid and sampling rate. -/
inductive Comp where
  | gate (elements : List String)
  | device (amps : List (String × Rat)) (grid rate : Option Rat)
deriving DecidableEq, Repr

/-- Timing constraint of a schedulable: the user's (of type `U`), none (after the schedulable before), or at
the start of the schedulable with this index. -/
inductive Tc (U : Type) where
  | user (u : U)
  | next
  | withStart (i : Nat)
deriving DecidableEq, Repr

/-- A frequency, or NaN. -/
abbrev Freq := Option Rat

/-- Data of a schedule: `next_operation_delay`, `gate_info.device_overrides` (if any) and resources with
their frequency, if they have one. -/
structure SData where
  delay : Option Rat := none
  overrides : Kw := []
  resources : List (String × Option Freq) := []

/-- Operations. `P`: entries of `pulse_info` and `acquisition_info`; `C`: control flow. -/
inductive Op (P U C : Type) where
  /-- an operation with its gate, if any, and its pulse and acquisition entries -/
  | leaf (gate : Option Gate) (pulses acqs : List P)
  /-- inline assembly, with its clock -/
  | asm (clock : String) (c : C)
  | sched (data : SData) (items : List (Op P U C × Tc U))
  | ctrl (c : C) (body : Op P U C)
  | comp (c : Comp) (body : Op P U C)

variable {P U C : Type}

/-- `OperationCompilationConfig` (graph_compilation.py:78-118). -/
structure OpCfg (P U C : Type) where
  factory : Option ((String → Option V) → Except Err (Op P U C))
  kwargs : Kw
  gateKeys : Option (List String)

/-- `DeviceCompilationConfig` (graph_compilation.py:121-225). -/
structure Cfg (P U C : Type) where
  elements : List (String × List (String × OpCfg P U C))
  edges : List ((String × String) × List (String × OpCfg P U C))
  clocks : List (String × Freq)

/-- `{**a, **b}`. The keys of `b` are distinct, so the order of the updates makes no difference to the
result. -/
def merge (a b : Kw) : Kw := b.foldr (fun e d => Dict.set d e.1 e.2) a

/-- `data["gate_info"]["device_overrides"]`, `{}` if missing. -/
def ownOverrides : Op P U C → Kw
  | .leaf (some g) _ _ => g.overrides
  | .sched d _ => d.overrides
  | _ => []

/-- `factory_kwargs["next_operation_delay"] = -factory_kwargs["acq_delay"]` for a `Measure` without
acquisition delay (circuit_to_device.py:747-751, 794-798). -/
def setDelay (g : Gate) (kw : Kw) : Except Err Kw :=
  if g.measure = true ∧ g.applyDelay = false then
    match Dict.get? kw "acq_delay" with
    | none => .error .keyError
    | some (.num x) => .ok (Dict.set kw "next_operation_delay" (.num (-x)))
    | some _ => .error .typeError
  else .ok kw

/-- Parameters from the gate (circuit_to_device.py:754-756). -/
def addInfo (g : Gate) : List String → Kw → Except Err Kw
  | [], kw => .ok kw
  | k :: ks, kw =>
    match Dict.get? g.info k with
    | none => .error .keyError
    | some v => addInfo g ks (Dict.set kw k v)

/-- The parameter of one device element: `gate_info[mux_idx]` if it is a list or tuple. -/
def selectMux (mux : Nat) : V → Except Err V
  | .list l => match l[mux]? with
    | none => .error .indexError
    | some v => .ok v
  | v => .ok v

/-- Parameters from the gate, multiplexed (circuit_to_device.py:779-792). -/
def addInfoMux (g : Gate) (mux : Nat) : List String → Kw → Except Err Kw
  | [], kw => .ok kw
  | k :: ks, kw =>
    match Dict.get? g.info k with
    | none => .error .keyError
    | some v =>
      match selectMux mux v with
      | .error e => .error e
      | .ok w => addInfoMux g mux ks (Dict.set kw k w)

/-- An override of a parameter that exists. -/
def override (e : String × V) (kw : Kw) : Kw :=
  if (Dict.get? kw e.1).isSome then Dict.set kw e.1 e.2 else kw

/-- Overrides of parameters that exist (circuit_to_device.py:758-761, 800-803). The names are distinct, so
their order makes no difference. -/
def applyOverrides (ov kw : Kw) : Kw := ov.foldr override kw

/-- Calling the factory function. -/
def callFactory (o : OpCfg P U C) (kw : Kw) : Except Err (Op P U C) :=
  match o.factory with
  | none => .error .assertionError
  | some f => f (Dict.get? kw)

/-- `_get_device_repr_from_cfg` (circuit_to_device.py:736-764). -/
def deviceRepr (g : Gate) (o : OpCfg P U C) (ov : Kw) : Except Err (Op P U C) := do
  let kw ← setDelay g o.kwargs
  let kw ← addInfo g (o.gateKeys.getD []) kw
  callFactory o (applyOverrides ov kw)

/-- `_get_device_repr_from_cfg_multiplexed` (circuit_to_device.py:767-806). -/
def deviceReprMux (g : Gate) (o : OpCfg P U C) (mux : Nat) (ov : Kw) : Except Err (Op P U C) := do
  let kw ← addInfoMux g mux (o.gateKeys.getD []) o.kwargs
  let kw ← setDelay g kw
  callFactory o (applyOverrides ov kw)

/-- The settings for a gate on an element: `ConfigKeyError` if element or operation is missing
(circuit_to_device.py:576-589, 487-501). -/
def elementCfg (cfg : Cfg P U C) (el ty : String) : Except Err (OpCfg P U C) :=
  match Dict.get? cfg.elements el with
  | none => .error .configKeyError
  | some e =>
    match Dict.get? e ty with
    | none => .error .configKeyError
    | some o => .ok o

/-- The edge of a gate on two elements (circuit_to_device.py:623-644). The set of permutations of two
elements has one element if they are equal. -/
def findEdge (cfg : Cfg P U C) (g : Gate) (a b : String) : Except Err (String × String) :=
  if (Dict.get? cfg.edges (a, b)).isSome then .ok (a, b)
  else if g.symmetric then
    let valid := ([(a, b), (b, a)].dedup).filter (fun e => (Dict.get? cfg.edges e).isSome)
    match valid with
    | [] => .error .configKeyError
    | [e] => .ok e
    | _ => .error .multipleKeysError
  else .error .configKeyError

/-- The settings for a gate on two elements (circuit_to_device.py:646-653). -/
def edgeCfg (cfg : Cfg P U C) (g : Gate) (a b : String) : Except Err (OpCfg P U C) := do
  let e ← findEdge cfg g a b
  match Dict.get? cfg.edges e with
  | none => .error .keyError
  | some m =>
    match Dict.get? m g.type with
    | none => .error .configKeyError
    | some o => .ok o

/-- `pulse_info` and `acquisition_info` of an operation that is not a schedule. -/
def infoOf : Op P U C → List P × List P
  | .leaf _ p a => (p, a)
  | _ => ([], [])

/-- `add_device_representation` (operation.py:229-268). -/
def addRepr (g : Gate) (p a : List P) (d : Op P U C) : Op P U C :=
  .leaf (some g) (p ++ (infoOf d).1) (a ++ (infoOf d).2)

/-- `del subschedule.data["next_operation_delay"]` -/
def dropDelay : Op P U C → Op P U C
  | .sched d items => .sched { d with delay := none } items
  | op => op

/-- `data["next_operation_delay"]` of a schedule. -/
def delayOf : Op P U C → Option Rat
  | .sched d _ => d.delay
  | _ => none

/-- `min` -/
def minDelay : List Rat → Option Rat
  | [] => none
  | x :: xs => some (xs.foldl min x)

/-- The inner schedule of a multiplexed gate (circuit_to_device.py:525-559): the gate itself, if it has
pulses, and the schedules of its elements, all at the start of the first. -/
def muxSchedule (g : Gate) (p a : List P) (has : Bool) (subs : List (Op P U C)) : Op P U C :=
  let all := (if has then [(Op.leaf (some g) p a : Op P U C)] else []) ++ subs.map dropDelay
  .sched { delay := minDelay (subs.filterMap delayOf) }
    ((List.range all.length).zip all |>.map (fun x => (x.2, if x.1 = 0 then Tc.next else Tc.withStart 0)))

/-- The loop of `_compile_multiplexed` (circuit_to_device.py:486-523): the gate's pulses and acquisitions,
whether there are any, and the schedules; with the function that compiles schedules. -/
def muxLoop (cfg : Cfg P U C) (rec : Kw → Op P U C → Except Err (Op P U C)) (g : Gate) (ov : Kw) :
    List String → Nat → Except Err (List P × List P × Bool × List (Op P U C))
  | [], _ => .ok ([], [], false, [])
  | el :: els, mux => do
    let o ← elementCfg cfg el g.type
    let d ← deviceReprMux g o mux ov
    match d with
    | .sched _ _ => do
      let s ← rec (merge (ownOverrides d) ov) d
      let (p, a, has, subs) ← muxLoop cfg rec g ov els (mux + 1)
      .ok (p, a, has, s :: subs)
    | _ => do
      let (p, a, _, subs) ← muxLoop cfg rec g ov els (mux + 1)
      .ok ((infoOf d).1 ++ p, (infoOf d).2 ++ a, true, subs)

/-- `_compile_multiplexed` (circuit_to_device.py:471-561) of a gate without pulses. -/
def compileMux (cfg : Cfg P U C) (rec : Kw → Op P U C → Except Err (Op P U C)) (g : Gate) (ov : Kw) :
    Except Err (Op P U C) := do
  let (p, a, has, subs) ← muxLoop cfg rec g ov g.elements 0
  if subs.isEmpty then .ok (.leaf (some g) p a) else .ok (muxSchedule g p a has subs)

/-- The end of `_compile_single_device_element` and `_compile_two_device_elements`
(circuit_to_device.py:597-608, 659-670). -/
def finish (rec : Kw → Op P U C → Except Err (Op P U C)) (g : Gate) (ov : Kw) (d : Op P U C) :
    Except Err (Op P U C) :=
  match d with
  | .sched _ _ => rec (merge (ownOverrides d) ov) d
  | _ => .ok (addRepr g [] [] d)

/-- A gate without pulses and acquisitions (circuit_to_device.py:124-164). -/
def compileGate (cfg : Cfg P U C) (rec : Kw → Op P U C → Except Err (Op P U C)) (g : Gate) (ov : Kw) :
    Except Err (Op P U C) :=
  match g.elements with
  | [el] => do
    let o ← elementCfg cfg el g.type
    let d ← deviceRepr g o ov
    finish rec g ov d
  | [a, b] =>
    match Dict.get? cfg.elements a with
    | none => .error .keyError
    | some e =>
      if (Dict.get? e g.type).isNone then do
        let o ← edgeCfg cfg g a b
        let d ← deviceRepr g o ov
        finish rec g ov d
      else compileMux cfg rec g ov
  | _ => compileMux cfg rec g ov

/-- A parameter from `factory_kwargs`. -/
def number (kw : Kw) (k : String) : Except Err Rat :=
  match Dict.get? kw k with
  | some (.num x) => .ok x
  | some _ => .error .typeError
  | none => .error .keyError

/-- Ports of the settings for pulse compensation: the setting is the port's number here. -/
abbrev PortOf := Kw → Except Err String

/-- The loop over device elements (circuit_to_device.py:684-719). -/
def compLoop (cfg : Cfg P U C) (port : PortOf) : List String → List (String × Rat) → Option Rat → Option Rat →
    Except Err (List (String × Rat) × Option Rat × Option Rat)
  | [], amps, grid, rate => .ok (amps, grid, rate)
  | el :: els, amps, grid, rate =>
    match (Dict.get? cfg.elements el).bind (fun e => Dict.get? e "pulse_compensation") with
    | none => compLoop cfg port els amps grid rate
    | some o =>
      if o.factory.isSome then .error .valueError
      else do
        let g ← number o.kwargs "time_grid"
        if grid ≠ none ∧ grid ≠ some g then .error .valueError
        else do
          let r ← number o.kwargs "sampling_rate"
          if rate ≠ none ∧ rate ≠ some r then .error .valueError
          else do
            let p ← port o.kwargs
            let x ← number o.kwargs "max_compensation_amp"
            compLoop cfg port els (Dict.set amps p x) (some g) (some r)

/-- The settings of a compiled `PulseCompensation` (circuit_to_device.py:673-733). -/
def compileComp (cfg : Cfg P U C) (port : PortOf) : Comp → Except Err Comp
  | .gate els => do
    let (amps, grid, rate) ← compLoop cfg port els [] none none
    .ok (.device amps grid rate)
  | c => .ok c

/-- `_compile_circuit_to_device` (circuit_to_device.py:74-166). -/
def compile (cfg : Cfg P U C) (port : PortOf) : Nat → Kw → Op P U C → Except Err (Op P U C)
  | 0, _, _ => .error .recursionError
  | n + 1, ov, op =>
    let ov' := merge (ownOverrides op) ov
    match op with
    | .sched d items => do
      let items' ← items.mapM (fun i => do
        let o ← compile cfg port n ov' i.1
        pure (o, i.2))
      .ok (.sched d items')
    | .ctrl c body => do
      let b ← compile cfg port n ov' body
      .ok (.ctrl c b)
    | .comp c body => do
      let c' ← compileComp cfg port c
      let b ← compile cfg port n ov' body
      .ok (.comp c' b)
    | .asm clock c => .ok (.asm clock c)
    | .leaf g p a =>
      if p.isEmpty && a.isEmpty then
        match g with
        | none => .error .keyError
        | some g => compileGate cfg (compile cfg port n) g ov'
      else .ok (.leaf g p a)

/-! ### Clocks -/

/-- `freq != all_clock_freqs[clock]`: NaN differs from itself. -/
def freqNe : Freq → Freq → Bool
  | some x, some y => decide (x ≠ y)
  | _, _ => true

/-- The loop over the resources of a schedule (circuit_to_device.py:238-247). -/
def addFreqs : List (String × Option Freq) → List (String × Freq) → Except Err (List (String × Freq))
  | [], all => .ok all
  | (_, none) :: rs, all => addFreqs rs all
  | (c, some f) :: rs, all =>
    match Dict.get? all c with
    | none => addFreqs rs (Dict.set all c f)
    | some f' => if freqNe f f' then .error .valueError else addFreqs rs (Dict.set all c f)

mutual
/-- `_extract_clock_freqs` (circuit_to_device.py:232-249). -/
def extract : Op P U C → List (String × Freq) → Except Err (List (String × Freq))
  | .sched d items, all => do
    let all ← extractItems items all
    addFreqs d.resources all
  | .ctrl _ body, all => extract body all
  | _, all => .ok all
/-- The loop over the operations of a schedule (circuit_to_device.py:236-237). -/
def extractItems : List (Op P U C × Tc U) → List (String × Freq) → Except Err (List (String × Freq))
  | [], all => .ok all
  | (op, _) :: items, all => do
    let all ← extract op all
    extractItems items all
end

/-- All frequencies: those of the device configuration where the schedule has none
(circuit_to_device.py:216-222; the comparison with the device configuration only warns). -/
def addDevice : List (String × Freq) → List (String × Freq) → List (String × Freq)
  | [], all => all
  | (c, f) :: cs, all => addDevice cs (if (Dict.get? all c).isSome then all else Dict.set all c f)

/-- One clock: the resources of the enclosing schedule and the clocks seen
(circuit_to_device.py:326-334, 339-384). -/
def oneClock (all : List (String × Freq)) (c : String) (st : List (String × Option Freq) × List String) :
    Except Err (List (String × Option Freq) × List String) :=
  if c ∈ st.2 then .ok st
  else if (Dict.get? st.1 c).isSome then .ok (st.1, st.2 ++ [c])
  else match Dict.get? all c with
    | none => .error .valueError
    | some none => .error .valueError
    | some (some f) => .ok (Dict.set st.1 c (some (some f)), st.2 ++ [c])

/-- The loop over the clocks of an operation (circuit_to_device.py:326-334). -/
def clockLoop (all : List (String × Freq)) : List String → List (String × Option Freq) × List String →
    Except Err (List (String × Option Freq) × List String)
  | [], st => .ok st
  | c :: cs, st => do
    let st ← oneClock all c st
    clockLoop all cs st

mutual
/-- `_set_pulse_and_acquisition_clock` (circuit_to_device.py:277-336), with the resources of the enclosing
schedule and the clocks seen. The clocks of an operation are a set; the order matters only for the order of
the resources. -/
def setClock (clock : P → String) (all : List (String × Freq)) :
    Op P U C → List (String × Option Freq) × List String →
    Except Err (Op P U C × (List (String × Option Freq) × List String))
  | .sched d items, st => do
    let (items', st') ← setClocks clock all items (d.resources, [])
    .ok (.sched { d with resources := st'.1 } items', st)
  | .ctrl c body, st => do
    let (b, st') ← setClock clock all body st
    .ok (.ctrl c b, st')
  | .comp c body, st => do
    let (b, st') ← setClock clock all body st
    .ok (.comp c b, st')
  | .asm clk c, st => do
    let st' ← clockLoop all [clk] st
    .ok (.asm clk c, st')
  | .leaf g p a, st =>
    if p.isEmpty && a.isEmpty then .error .runtimeError
    else do
      let st' ← clockLoop all ((p ++ a).map clock).dedup st
      .ok (.leaf g p a, st')
/-- The loop over the operations of a schedule (circuit_to_device.py:307-314). -/
def setClocks (clock : P → String) (all : List (String × Freq)) :
    List (Op P U C × Tc U) → List (String × Option Freq) × List String →
    Except Err (List (Op P U C × Tc U) × (List (String × Option Freq) × List String))
  | [], st => .ok ([], st)
  | (op, tc) :: items, st => do
    let (op', st) ← setClock clock all op st
    let (items', st) ← setClocks clock all items st
    .ok ((op', tc) :: items', st)
end

/-- `set_pulse_and_acquisition_clock` (circuit_to_device.py:169-229). -/
def setPulseAndAcquisitionClock (clock : P → String) (cfg : Cfg P U C) (s : Op P U C) :
    Except Err (Op P U C) := do
  let defs ← extract s []
  let (s', _) ← setClock clock (addDevice cfg.clocks defs) s ([], [])
  .ok s'

end Verif.Circuit
