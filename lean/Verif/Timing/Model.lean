/-
Model of the absolute-timing pass of quantify-scheduler
(`/repo/quantify_scheduler/compilation.py`, lines 116-406).

Simplifications (whole file):
* Python floats are exact rationals.
* The labels of schedulables are elements of an arbitrary type `κ` with decidable equality.
* The `operations` dict is only read for the duration and the optional
  `next_operation_delay` of each schedulable's operation; both are stored in `Item`.
  (`dur` is `operation.duration` when `time_unit == "physical"` and `depth` or 1 when "ideal".)
* `rel_time` is never `None` (`Schedule.add` and `add_timing_constraint` default it to 0).
* `networkx.topological_sort` is an external library.  `topoSort` is a model of it that lists
  a generation at a time; theorems about the pass are proved for every topological order.
-/
import Mathlib.Data.Rat.Defs
import Mathlib.Algebra.Order.Ring.Rat

namespace Verif.Timing

/-- `Literal["start", "center", "end"]`; `other` stands for any other string
(compilation.py:365-391 raise `NotImplementedError` on it). -/
inductive RefPt where
  | start | center | stop | other
deriving DecidableEq, Repr

/-- `SchedulingStrategy` (enums.py; used in compilation.py:192-196). -/
inductive Strategy where
  | asap | alap
deriving DecidableEq, Repr

/-- The Python exceptions the pass raises. -/
inductive Err where
  | valueError | typeError | notImplemented | assertion | keyError | indexError
deriving DecidableEq, Repr

/-- `TimingConstraint` (schedules/schedule.py:966-976). -/
structure Constraint (κ : Type) where
  ref : Option κ
  refPt : Option RefPt
  refPtNew : Option RefPt
  rel : Rat
deriving DecidableEq, Repr

/-- A `Schedulable` with the facts read from its operation (schedules/schedule.py:854-942).
`abs` is `data["abs_time"]` when present. -/
structure Item (κ : Type) where
  key : κ
  dur : Rat
  delay : Option Rat
  cons : List (Constraint κ)
  abs : Option Rat
deriving DecidableEq, Repr

variable {κ : Type} [DecidableEq κ]

/-- `_determine_default_ref_pt` (compilation.py:296-303). -/
def defaultRefPt : Strategy → RefPt
  | .asap => .stop
  | .alap => .start

/-- `_determine_default_ref_pt_new` (compilation.py:306-315). -/
def defaultRefPtNew : Strategy → RefPt
  | .asap => .start
  | .alap => .stop

/-- `_determine_default_ref_schedulables_by_schedulable` (compilation.py:318-335):
the previous (ASAP) or next (ALAP) schedulable; `None` for the first (ASAP) or last (ALAP). -/
def defaultRefs (strat : Strategy) (s : List (Item κ)) : List (Option κ) :=
  match strat with
  | .asap => none :: (s.map (fun it => some it.key)).dropLast
  | .alap => (s.map (fun it => some it.key)).tail ++ [none]

/-- `_make_timing_constraints_explicit_for_schedulable` (compilation.py:268-293).
Only the first constraint is made explicit. -/
def makeExplicitOne (strat : Strategy) (it : Item κ) (dflt : Option κ) :
    Except Err (Item κ) :=
  if strat = .alap ∧ it.cons.length ≠ 1 then .error .notImplemented
  else
    match it.cons with
    | [] => .error .indexError
    | c :: cs =>
      .ok { it with
        cons := { ref := c.ref.or dflt
                  refPt := c.refPt.or (some (defaultRefPt strat))
                  refPtNew := c.refPtNew.or (some (defaultRefPtNew strat))
                  rel := c.rel } :: cs }

/-- The loop of `_make_timing_constraints_explicit` (compilation.py:248-265). -/
def makeExplicitAux (strat : Strategy) : List (Item κ) → List (Option κ) →
    Except Err (List (Item κ))
  | it :: its, d :: ds =>
    match makeExplicitOne strat it d with
    | .error e => .error e
    | .ok it' =>
      match makeExplicitAux strat its ds with
      | .error e => .error e
      | .ok its' => .ok (it' :: its')
  | _, _ => .ok []

/-- `_make_timing_constraints_explicit` (compilation.py:248-265). -/
def makeExplicit (strat : Strategy) (s : List (Item κ)) : Except Err (List (Item κ)) :=
  makeExplicitAux strat s (defaultRefs strat s)

/-- Predecessors of a schedulable in the graph of `_populate_references_graph`
(compilation.py:227-245). -/
def Item.refs (it : Item κ) : List κ := it.cons.filterMap (·.ref)

/-- dict lookup `schedule.schedulables[name]`. -/
def findItem (s : List (Item κ)) (k : κ) : Option (Item κ) :=
  s.find? (fun it => it.key = k)

/-- `networkx.topological_sort` by generations (called in compilation.py:160): the nodes whose
predecessors are all done, then the rest; `none` when no node is free (a cycle).
`fuel` bounds the number of generations by the number of nodes. -/
def topoAux (preds : κ → List κ) : Nat → List κ → Option (List κ)
  | _, [] => some []
  | 0, _ :: _ => none
  | fuel + 1, rem@(_ :: _) =>
    let ready := rem.filter (fun k => (preds k).all (fun p => p ∉ rem))
    if ready = [] then none
    else
      match topoAux preds fuel (rem.filter (fun k => k ∉ ready)) with
      | none => none
      | some l => some (ready ++ l)

/-- See `topoAux`. -/
def topoSort (preds : κ → List κ) (nodes : List κ) : Option (List κ) :=
  topoAux preds nodes.length nodes

/-- Predecessors by name. -/
def predsOf (s : List (Item κ)) (k : κ) : List κ :=
  match findItem s k with
  | none => []
  | some it => it.refs

/-- Offset of a reference point in an operation of duration `d`
(compilation.py:363-371 and 384-391); `none` is `NotImplementedError`. -/
def offset (d : Rat) : RefPt → Except Err Rat
  | .start => .ok 0
  | .center => .ok (d / 2)
  | .stop => .ok d
  | .other => .error .notImplemented

/-- `_get_start_time` (compilation.py:338-392). `abs` gives the `abs_time` entries so far. -/
def getStartTime (s : List (Item κ)) (abs : κ → Option Rat) (c : Constraint κ) (dur : Rat) :
    Except Err Rat :=
  match c.ref with
  | none => .error .assertion
  | some r =>
    match findItem s r with
    | none => .error .keyError
    | some ri =>
      match abs r with
      | none => .error .keyError
      | some t =>
        match offset ri.dur (c.refPt.getD .stop) with
        | .error e => .error e
        | .ok o =>
          match offset dur (c.refPtNew.getD .start) with
          | .error e => .error e
          | .ok o' => .ok (t + o + c.rel - o')

/-- State threaded through the main loop: the `abs_time` entries, the `delays` dict of
`_apply_operation_delays` and the constraint lists it mutates. -/
structure St (κ : Type) where
  abs : κ → Option Rat
  delays : κ → Option Rat
  cons : κ → List (Constraint κ)

/-- dict assignment. -/
def upd {α : Type} (f : κ → α) (k : κ) (v : α) : κ → α := fun x => if x = k then v else f x

/-- The update of one constraint in `_apply_operation_delays` (compilation.py:221-223). -/
def addDelay (delays : κ → Option Rat) (c : Constraint κ) : Constraint κ :=
  match c.ref with
  | none => c
  | some r =>
    match delays r with
    | none => c
    | some d => { c with rel := c.rel + d }

/-- `delays[schedulable_name] = ...` in `_apply_operation_delays` (compilation.py:219-220). -/
def noteDelay (delays : κ → Option Rat) (k : κ) : Option Rat → κ → Option Rat
  | none => delays
  | some d => upd delays k (some d)

/-- The inner loop over constraints under ASAP (compilation.py:174-178). -/
def asapFold (s : List (Item κ)) (abs : κ → Option Rat) (dur : Rat) :
    List (Constraint κ) → Option Rat → Except Err (Option Rat)
  | [], cur => .ok cur
  | c :: cs, cur =>
    match getStartTime s abs c dur with
    | .error e => .error e
    | .ok t =>
      asapFold s abs dur cs
        (match cur with
         | none => some t
         | some a => if t > a then some t else some a)

/-- One iteration of the main loop (compilation.py:161-182), with the iteration of the
generator `_apply_operation_delays` (compilation.py:212-224) that feeds it. `first` is `i == 0`. -/
def step (strat : Strategy) (s : List (Item κ)) (first : Bool) (st : St κ) (k : κ) :
    Except Err (St κ) :=
  match findItem s k with
  | none => .error .keyError
  | some it =>
    let delays := noteDelay st.delays k it.delay
    let cs := (st.cons k).map (addDelay delays)
    let st' : St κ := { abs := st.abs, delays := delays, cons := upd st.cons k cs }
    if first then .ok { st' with abs := upd st.abs k (some 0) }
    else
      match strat with
      | .asap =>
        match asapFold s st.abs it.dur cs (st.abs k) with
        | .error e => .error e
        | .ok a => .ok { st' with abs := upd st.abs k a }
      | .alap =>
        match cs with
        | [] => .error .indexError
        | c :: _ =>
          match getStartTime s st.abs c it.dur with
          | .error e => .error e
          | .ok t => .ok { st' with abs := upd st.abs k (some t) }

/-- The main loop over the topological order (compilation.py:164-182). -/
def run (strat : Strategy) (s : List (Item κ)) : Bool → St κ → List κ → Except Err (St κ)
  | _, st, [] => .ok st
  | first, st, k :: ks =>
    match step strat s first st k with
    | .error e => .error e
    | .ok st' => run strat s false st' ks

/-- Initial state: whatever `abs_time` entries are already present, no delays. -/
def initSt (s : List (Item κ)) : St κ where
  abs k := (findItem s k).bind (·.abs)
  delays _ := none
  cons k := match findItem s k with
    | none => []
    | some it => it.cons

/-- The schedulables after the loop. -/
def writeBack (s : List (Item κ)) (st : St κ) : List (Item κ) :=
  s.map (fun it => { it with cons := st.cons it.key, abs := st.abs it.key })

/-- `_normalize_absolute_timing` (compilation.py:394-406). The minimum over the `abs_time`s
(entries are all present at this point; a missing entry is a `KeyError`). -/
def minAbs : List (Item κ) → Except Err Rat
  | [] => .error .valueError
  | [it] => match it.abs with
    | none => .error .keyError
    | some a => .ok a
  | it :: its =>
    match it.abs, minAbs its with
    | some a, .ok m => .ok (min a m)
    | none, _ => .error .keyError
    | _, .error e => .error e

/-- `_normalize_absolute_timing` (compilation.py:394-406). -/
def normalize (s : List (Item κ)) : Except Err (List (Item κ)) :=
  match minAbs s with
  | .error e => .error e
  | .ok m =>
    if m < 0 then .ok (s.map (fun it => { it with abs := it.abs.map (· - m) }))
    else .ok s

/-- The part of `_determine_absolute_timing_schedule` after the constraints were made explicit
and validated, for a given topological order (compilation.py:160-184). -/
def timeWith (strat : Strategy) (s : List (Item κ)) (order : List κ) :
    Except Err (List (Item κ)) :=
  match run strat s true (initSt s) order with
  | .error e => .error e
  | .ok st => normalize (writeBack s st)

/-- `_validate_schedulable_references` (compilation.py:199-209), first half:
every node of the graph is a schedulable. -/
def refsClosed (s : List (Item κ)) : Bool :=
  s.all (fun it => it.refs.all (fun r => (s.map (·.key)).contains r))

/-- `_determine_absolute_timing_schedule` (compilation.py:116-184) on one level:
operations that are schedules or control flow already carry their duration. -/
def timing (strat : Strategy) (s : List (Item κ)) : Except Err (List (Item κ)) :=
  if s = [] then .error .valueError
  else
    match makeExplicit strat s with
    | .error e => .error e
    | .ok s' =>
      if refsClosed s' then
        match topoSort (predsOf s') (s'.map (·.key)) with
        | none => .error .typeError
        | some order => timeWith strat s' order
      else .error .valueError

/-- `get_schedule_duration` (schedules/schedule.py:623-647) before the multiplication by the
repetitions: the latest end, starting the maximum from 0. -/
def latestEnd (s : List (Item κ)) : Rat :=
  s.foldl (fun m it => max m (it.abs.getD 0 + it.dur)) 0

/-- `get_schedule_duration` (schedules/schedule.py:623-647). -/
def scheduleDuration (s : List (Item κ)) (repetitions : Nat) : Rat :=
  latestEnd s * repetitions

end Verif.Timing
