/-
What circuit-to-device compilation must do (C43, C44), stated without the compiler.
-/
import Verif.Circuit.Model

namespace Verif.Circuit

variable {P U C : Type}

/-- Overrides of device parameters, by name. -/
abbrev Ov := String → Option V

/-- Overrides from outside win over the operation's own. -/
def Ov.over (outer own : Ov) : Ov := fun k => (outer k).or (own k)

/-- The overrides an operation brings along: those of the gate, or of the schedule. -/
def own : Op P U C → Ov
  | .leaf (some g) _ _ => fun k => Dict.get? g.overrides k
  | .sched d _ => fun k => Dict.get? d.overrides k
  | _ => fun _ => none

/-- The pulses of an operation that is not a schedule. -/
def pulsesOf : Op P U C → List P
  | .leaf _ p _ => p
  | _ => []

/-- The acquisitions of an operation that is not a schedule. -/
def acqsOf : Op P U C → List P
  | .leaf _ _ a => a
  | _ => []

/-- The delay that a schedule asks for. -/
def delayAfter : Op P U C → Option Rat
  | .sched d _ => d.delay
  | _ => none

/-- The same operation without its delay. -/
def withoutDelay : Op P U C → Op P U C
  | .sched d items => .sched { delay := none, overrides := d.overrides, resources := d.resources } items
  | op => op

/-- A number that a parameter has. -/
def IsNum (a : Option V) (x : Rat) : Prop := a = some (.num x)

/-- `args` are the arguments with which the factory function is called for a gate on one element, or on an
edge: an override for a parameter that exists; else what the gate says, for the parameters it sets; else,
for a measurement without acquisition delay, minus the *configured* delay as `next_operation_delay`; else what
the configuration says. The gate must have all the parameters it sets. -/
structure ArgsSingle (g : Gate) (o : OpCfg P U C) (ov : Ov) (args : String → Option V) : Prop where
  has : ∀ k ∈ o.gateKeys.getD [], (Dict.get? g.info k).isSome
  delay : g.measure = true → g.applyDelay = false → ∃ x, IsNum (Dict.get? o.kwargs "acq_delay") x
  arg : ∀ k, args k =
    let base : Option V :=
      if k ∈ o.gateKeys.getD [] then Dict.get? g.info k
      else if g.measure = true ∧ g.applyDelay = false ∧ k = "next_operation_delay" then
        match Dict.get? o.kwargs "acq_delay" with
        | some (.num x) => some (.num (-x))
        | _ => none
      else Dict.get? o.kwargs k
    if base.isSome then (ov k).or base else none

/-- One element's part of a parameter: lists have one entry per element, everything else is shared. -/
def part (i : Nat) : V → Option V
  | .list l => l[i]?
  | v => some v

/-- The arguments for the `i`-th element of a gate on several elements. The delay is that of the gate, if it
sets it. -/
structure ArgsMux (g : Gate) (o : OpCfg P U C) (i : Nat) (ov : Ov) (args : String → Option V) : Prop where
  has : ∀ k ∈ o.gateKeys.getD [], ∃ v w, Dict.get? g.info k = some v ∧ part i v = some w
  delay : g.measure = true → g.applyDelay = false → ∃ x,
    IsNum (if "acq_delay" ∈ o.gateKeys.getD [] then (Dict.get? g.info "acq_delay").bind (part i)
      else Dict.get? o.kwargs "acq_delay") x
  arg : ∀ k, args k =
    let set : String → Option V := fun k =>
      if k ∈ o.gateKeys.getD [] then (Dict.get? g.info k).bind (part i) else Dict.get? o.kwargs k
    let base : Option V :=
      if g.measure = true ∧ g.applyDelay = false ∧ k = "next_operation_delay" then
        match set "acq_delay" with
        | some (.num x) => some (.num (-x))
        | _ => none
      else set k
    if base.isSome then (ov k).or base else none

/-- The configuration of an operation of an element. -/
def OnElement (cfg : Cfg P U C) (el ty : String) (o : OpCfg P U C) : Prop :=
  ∃ ops, Dict.get? cfg.elements el = some ops ∧ Dict.get? ops ty = some o

/-- The configuration of an operation of the edge between two elements; the other direction is used if the
gate is symmetric and there is no edge in this direction. -/
def OnEdge (cfg : Cfg P U C) (g : Gate) (a b : String) (o : OpCfg P U C) : Prop :=
  (∃ ops, Dict.get? cfg.edges (a, b) = some ops ∧ Dict.get? ops g.type = some o) ∨
  (g.symmetric = true ∧ Dict.get? cfg.edges (a, b) = none ∧
    ∃ ops, Dict.get? cfg.edges (b, a) = some ops ∧ Dict.get? ops g.type = some o)

/-- The device-level operation that the configuration gives for a gate on one element, or on an edge. -/
def Single (cfg : Cfg P U C) (g : Gate) (ov : Ov) (d : Op P U C) : Prop :=
  ∃ o f args, o.factory = some f ∧ ArgsSingle g o ov args ∧ f args = .ok d ∧
    ((∃ el, g.elements = [el] ∧ OnElement cfg el g.type o) ∨
     (∃ a b, g.elements = [a, b] ∧ (∃ ops, Dict.get? cfg.elements a = some ops ∧ Dict.get? ops g.type = none) ∧
        OnEdge cfg g a b o))

/-- A gate that acts on each of its elements separately. -/
def IsMux (cfg : Cfg P U C) (g : Gate) : Prop :=
  g.elements.length ≠ 1 ∧
  ∀ a b, g.elements = [a, b] → ∃ ops, Dict.get? cfg.elements a = some ops ∧ (Dict.get? ops g.type).isSome

/-- The device-level operation for the `i`-th element. -/
def Part (cfg : Cfg P U C) (g : Gate) (ov : Ov) (i : Nat) (el : String) (d : Op P U C) : Prop :=
  ∃ o f args, OnElement cfg el g.type o ∧ o.factory = some f ∧ ArgsMux g o i ov args ∧ f args = .ok d

/-- Whether an operation is a schedule. -/
def IsSched : Op P U C → Prop
  | .sched _ _ => True
  | _ => False

instance (op : Op P U C) : Decidable (IsSched op) := by
  cases op <;> simp only [IsSched] <;> infer_instance

/-- The pulses of those parts of a multiplexed gate that are not schedules. -/
def partPulses (ds : List (Op P U C)) : List P := (ds.filter (fun d => ¬ IsSched d)).flatMap (pulsesOf)

/-- The acquisitions of those parts of a multiplexed gate that are not schedules. -/
def partAcqs (ds : List (Op P U C)) : List P := (ds.filter (fun d => ¬ IsSched d)).flatMap (acqsOf)

/-- `s` plays `parts` all at once: the first one is placed first, the others at its start; and the delay after it
is the smallest of the parts' delays, which they lose. -/
structure AtOnce (parts : List (Op P U C)) (s : Op P U C) : Prop where
  ex : ∃ (d : SData) (items : List (Op P U C × Tc U)), s = .sched d items ∧ items.length = parts.length ∧
    (∀ i : Nat, (items[i]?).map Prod.fst = (parts[i]?).map withoutDelay) ∧
    (∀ i : Nat, 0 < i → i < items.length → (items[i]?).map Prod.snd = some (Tc.withStart 0)) ∧
    (0 < items.length → (items[0]?).map Prod.snd = some Tc.next) ∧
    d.overrides = [] ∧ d.resources = [] ∧
    (d.delay = none ↔ ∀ p ∈ parts, delayAfter p = none) ∧
    (∀ x, d.delay = some x → (∃ p ∈ parts, delayAfter p = some x) ∧
      ∀ p ∈ parts, ∀ y, delayAfter p = some y → x ≤ y)

/-- The settings of a pulse compensation on device elements: those of its elements that have settings agree on
the grid and the sampling rate, and each contributes its port. -/
structure CompSettings (cfg : Cfg P U C) (port : PortOf) (els : List String) (amps : List (String × Rat))
    (grid rate : Option Rat) : Prop where
  empty : (∀ el ∈ els, ∀ o, ¬ OnElement cfg el "pulse_compensation" o) → amps = [] ∧ grid = none ∧ rate = none
  agree : ∀ el ∈ els, ∀ o, OnElement cfg el "pulse_compensation" o → o.factory.isNone ∧
    (∃ x, IsNum (Dict.get? o.kwargs "max_compensation_amp") x) ∧
    (∃ g, IsNum (Dict.get? o.kwargs "time_grid") g ∧ grid = some g) ∧
    (∃ r, IsNum (Dict.get? o.kwargs "sampling_rate") r ∧ rate = some r) ∧
    (∃ p, port o.kwargs = .ok p ∧ (Dict.get? amps p).isSome)
  amp : ∀ p x, Dict.get? amps p = some x → ∃ pre el post o, els = pre ++ el :: post ∧
    OnElement cfg el "pulse_compensation" o ∧ port o.kwargs = .ok p ∧
    IsNum (Dict.get? o.kwargs "max_compensation_amp") x ∧
    ∀ el' ∈ post, ∀ o', OnElement cfg el' "pulse_compensation" o' → port o'.kwargs ≠ .ok p

/-- `Impl cfg port ov op out`: `out` is what `op` must become, under the overrides `ov` from outside. -/
inductive Impl (cfg : Cfg P U C) (port : PortOf) : Ov → Op P U C → Op P U C → Prop where
  /-- schedules keep their data, their operations in order and the timing constraints -/
  | sched {ov d items items'} :
      items'.length = items.length →
      (∀ (i : Nat) (h : i < items.length) (h' : i < items'.length), items'[i].2 = items[i].2) →
      (∀ (i : Nat) (h : i < items.length) (h' : i < items'.length),
        Impl cfg port (Ov.over ov (own (.sched d items))) items[i].1 items'[i].1) →
      Impl cfg port ov (.sched d items) (.sched d items')
  | ctrl {ov c body body'} : Impl cfg port ov body body' → Impl cfg port ov (.ctrl c body) (.ctrl c body')
  | compGate {ov els amps grid rate body body'} :
      CompSettings cfg port els amps grid rate → Impl cfg port ov body body' →
      Impl cfg port ov (.comp (.gate els) body) (.comp (.device amps grid rate) body')
  | compDevice {ov amps grid rate body body'} : Impl cfg port ov body body' →
      Impl cfg port ov (.comp (.device amps grid rate) body) (.comp (.device amps grid rate) body')
  | asm {ov clock c} : Impl cfg port ov (.asm clock c) (.asm clock c)
  /-- what has pulses or acquisitions stays -/
  | device {ov g p a} : ¬ (p = [] ∧ a = []) → Impl cfg port ov (.leaf g p a) (.leaf g p a)
  /-- a gate whose factory gives pulses gets those pulses -/
  | pulses {ov g d} : Single cfg g (Ov.over ov (own (.leaf (some g) [] [] : Op P U C))) d → ¬ IsSched d →
      Impl cfg port ov (.leaf (some g) [] []) (.leaf (some g) (pulsesOf d) (acqsOf d))
  /-- a gate whose factory gives a schedule becomes that schedule, compiled -/
  | expand {ov g d out} : Single cfg g (Ov.over ov (own (.leaf (some g) [] [] : Op P U C))) d → IsSched d →
      Impl cfg port (Ov.over ov (own (.leaf (some g) [] [] : Op P U C))) d out →
      Impl cfg port ov (.leaf (some g) [] []) out
  /-- a gate on several elements, if no part is a schedule, gets the pulses of all parts -/
  | muxPulses {ov g} {ds : List (Op P U C)} : IsMux cfg g → ds.length = g.elements.length →
      (∀ (i : Nat) (h : i < g.elements.length) (h' : i < ds.length),
        Part cfg g (Ov.over ov (own (.leaf (some g) [] [] : Op P U C))) i g.elements[i] ds[i]) →
      (∀ d ∈ ds, ¬ IsSched d) →
      Impl cfg port ov (.leaf (some g) [] []) (.leaf (some g) (partPulses ds) (partAcqs ds))
  /-- else it becomes a schedule which plays at once the gate with the pulses of those parts that are not schedules
  (if there are such parts), and the compiled schedules -/
  | muxExpand {ov g} {ds outs : List (Op P U C)} {out} : IsMux cfg g → ds.length = g.elements.length →
      (∀ (i : Nat) (h : i < g.elements.length) (h' : i < ds.length),
        Part cfg g (Ov.over ov (own (.leaf (some g) [] [] : Op P U C))) i g.elements[i] ds[i]) →
      (∃ d ∈ ds, IsSched d) →
      outs.length = (ds.filter (fun d => IsSched d)).length →
      (∀ (i : Nat) (h : i < (ds.filter (fun d => IsSched d)).length) (h' : i < outs.length),
        Impl cfg port (Ov.over ov (own (.leaf (some g) [] [] : Op P U C)))
          (ds.filter (fun d => IsSched d))[i] outs[i]) →
      AtOnce ((if ∃ d ∈ ds, ¬ IsSched d then [.leaf (some g) (partPulses ds) (partAcqs ds)] else []) ++ outs) out →
      Impl cfg port ov (.leaf (some g) [] []) out

/-! ### Device level -/

/-- Every operation has pulses or acquisitions, or is assembly. -/
inductive DeviceLevel : Op P U C → Prop where
  | leaf {g p a} : ¬ (p = [] ∧ a = []) → DeviceLevel (.leaf g p a)
  | asm {clock c} : DeviceLevel (.asm clock c)
  | sched {d items} : (∀ i ∈ items, DeviceLevel i.1) → DeviceLevel (.sched d items)
  | ctrl {c body} : DeviceLevel body → DeviceLevel (.ctrl c body)
  | comp {amps grid rate body} : DeviceLevel body → DeviceLevel (.comp (.device amps grid rate) body)

/-- The factories of a configuration give pulses, acquisitions or schedules, and the gates have elements. -/
def Productive (cfg : Cfg P U C) : Prop :=
  ∀ o : OpCfg P U C, ((∃ el ty, OnElement cfg el ty o) ∨ ∃ g a b, OnEdge cfg g a b o) →
    ∀ f args d, o.factory = some f → f args = .ok d →
      IsSched d ∨ ∃ g p a, d = .leaf g p a ∧ ¬ (p = [] ∧ a = [])

end Verif.Circuit
