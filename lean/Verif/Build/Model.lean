/-
Building a schedule: `Schedule.add`, `add_resource`, the repetitions and (de)serialisation state
(quantify_scheduler/schedules/schedule.py).

Simplifications: an operation or sub-schedule is an object with an identity (a number) and a
content, which a user may change after adding the object; the content is a value of an arbitrary
type `C`; the hash (`make_hash` of the content) is an arbitrary function `H`; the random label of
`add(label=None)` is given by the caller.
-/
import Verif.Common.Dict
import Mathlib.Data.Rat.Floor

namespace Verif.Build

/-- Exceptions. -/
inductive Err where
  | valueError
deriving DecidableEq, Repr

/-- Reference points. -/
inductive Pt where
  | start | center | stop
deriving DecidableEq, Repr

/-- `TimingConstraint` (schedule.py:965-976). -/
structure Constraint where
  ref : Option String
  refPt : Option Pt
  refPtNew : Option Pt
  rel : Rat
deriving DecidableEq, Repr

/-- `Schedulable` (schedule.py:854-889). -/
structure Schedulable (K : Type) where
  name : String
  opId : K
  constraints : List Constraint
deriving DecidableEq, Repr

/-- The data of a `Schedule` (schedule.py:713-737).  `opDict` maps hashes to objects. -/
structure Sched (K : Type) where
  opDict : List (K × Nat)
  schedulables : List (String × Schedulable K)
  resources : List (String × Nat)
  repetitions : Int
deriving DecidableEq, Repr

/-- A reference operation: `Schedulable | str | None`. -/
inductive Ref (K : Type) where
  | none
  | name (s : String)
  | schedulable (s : Schedulable K)
deriving DecidableEq, Repr

/-- `str(ref_schedulable)` (schedule.py:930-932, 952-953). -/
def Ref.str {K : Type} : Ref K → Option String
  | .none => Option.none
  | .name s => some s
  | .schedulable s => some s.name

/-- What is passed as `operation`: an object (its identity), or something that is neither an
operation nor a schedule. -/
inductive Arg where
  | obj (o : Nat)
  | notAnOperation
deriving DecidableEq, Repr

/-- The arguments of `add`. -/
structure AddArgs (K : Type) where
  operation : Arg
  rel : Rat
  ref : Ref K
  refPt : Option Pt
  refPtNew : Option Pt
  label : Option String
  /-- the value of `uuid4()`, used if `label` is `None` -/
  uuid : String
deriving DecidableEq, Repr

variable {K C : Type} [DecidableEq K]

/-- The label used (schedule.py:804-805). -/
def AddArgs.label' (a : AddArgs K) : String := a.label.getD a.uuid

/-- `_add` (schedule.py:815-835) for an object with content `c`. -/
def addRaw (H : C → K) (s : Sched K) (a : AddArgs K) (o : Nat) (c : C) : Sched K :=
  { s with
    opDict := Dict.set s.opDict (H c) o
    schedulables := Dict.set s.schedulables a.label'
      ⟨a.label', H c, [] ++ [⟨a.ref.str, a.refPt, a.refPtNew, a.rel⟩]⟩ }

/-- `add` (schedule.py:755-813) with `_validate_add_arguments` (837-851): the schedule afterwards,
and the exception if there is one. -/
def add (H : C → K) (heap : Nat → C) (s : Sched K) (a : AddArgs K) : Sched K × Except Err Unit :=
  match a.operation with
  | .notAnOperation => (s, .error .valueError)
  | .obj o =>
    if a.label' ∈ Dict.keys s.schedulables then (s, .error .valueError)
    else if a.label' ∈ Dict.keys s.schedulables then (s, .error .valueError)
    else (addRaw H s a o (heap o), .ok ())

/-- `add_resource` (schedule.py:744-753); `none`: not a `Resource`. -/
def addResource (s : Sched K) (r : Option (String × Nat)) : Sched K × Except Err Unit :=
  match r with
  | none => (s, .error .valueError)
  | some (n, v) =>
    if n ∈ Dict.keys s.resources then (s, .error .valueError)
    else ({ s with resources := Dict.set s.resources n v }, .ok ())

/-- Python's `int(x)` for a float: truncation. -/
def pyInt (x : Rat) : Int := if 0 ≤ x then ⌊x⌋ else ⌈x⌉

/-- The `repetitions` setter (schedule.py:109-116). -/
def setRepetitions (s : Sched K) (v : Rat) : Sched K × Except Err Unit :=
  if v ≤ 0 then (s, .error .valueError) else ({ s with repetitions := pyInt v }, .ok ())

/-- `Schedule.__init__` (schedule.py:713-735): the two resources that are always present. -/
def new (repetitions : Int) (baseband digital : Nat) : Sched K :=
  ⟨[], [], [("cl0.baseband", baseband), ("digital", digital)], repetitions⟩

/-- What a user does. -/
inductive Cmd (K C : Type) where
  | add (a : AddArgs K)
  | resource (r : Option (String × Nat))
  | repetitions (v : Rat)
  /-- an object is changed in place, or created -/
  | change (o : Nat) (c : C)

/-- The objects and the schedule. -/
structure World (K C : Type) where
  heap : Nat → C
  sched : Sched K

/-- One call. -/
def exec (H : C → K) (w : World K C) : Cmd K C → World K C × Except Err Unit
  | .add a => (⟨w.heap, (add H w.heap w.sched a).1⟩, (add H w.heap w.sched a).2)
  | .resource r => (⟨w.heap, (addResource w.sched r).1⟩, (addResource w.sched r).2)
  | .repetitions v => (⟨w.heap, (setRepetitions w.sched v).1⟩, (setRepetitions w.sched v).2)
  | .change o c => (⟨fun x => if x = o then c else w.heap x, w.sched⟩, .ok ())

/-- A history of calls. -/
def execAll (H : C → K) (w : World K C) : List (Cmd K C) → World K C
  | [] => w
  | c :: cs => execAll H (exec H w c).1 cs

/-- The operation object of a schedulable: `schedule.operations[schedulable["operation_id"]]`. -/
def Sched.object (s : Sched K) (label : String) : Option Nat :=
  (Dict.get? s.schedulables label).bind (fun x => Dict.get? s.opDict x.opId)

/-- What the schedulable will play: the content of its operation now. -/
def World.content (w : World K C) (label : String) : Option C :=
  (w.sched.object label).map w.heap

/-- The serialised state: the data with the schedulables as a list of pairs
(`__getstate__`, schedule.py:658-666). -/
structure State (K : Type) where
  opDict : List (K × Nat)
  schedulables : List (String × Schedulable K)
  resources : List (String × Nat)
  repetitions : Int

/-- `__getstate__` (schedule.py:658-666). -/
def getState (s : Sched K) : State K := ⟨s.opDict, s.schedulables, s.resources, s.repetitions⟩

/-- `{k: v for k, v in pairs}`. -/
def dictOf {V : Type} (l : List (String × V)) : List (String × V) :=
  l.foldl (fun d e => Dict.set d e.1 e.2) []

/-- `__setstate__` (schedule.py:668-677). -/
def setState (st : State K) : Sched K :=
  ⟨st.opDict, dictOf st.schedulables, st.resources, st.repetitions⟩

end Verif.Build
