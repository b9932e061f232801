/-
Model of the JSON serialisation of schedules, operations and what they contain:
`SchedulerJSONEncoder`, `SchedulerJSONDecoder` and the `__getstate__`/`__setstate__` pairs.

Python values are trees (`Val`), JSON documents are trees (`Json`); writing a JSON tree as text and
parsing it back is Python's own `json` library and is trusted.  Floats are rationals (finite
floats; Python writes them so that they are read back exactly).
-/
import Verif.Common.Dict
import Mathlib.Algebra.Order.Field.Rat

namespace Verif.Json

/-- Dictionary keys: strings, string enumeration members, integers, booleans, `None`, floats,
numpy integers, tuples of strings.  Simplification: no other hashable objects. -/
inductive Key
  | str (s : String)
  | senum (cls s : String)
  | int (i : Int)
  | bool (b : Bool)
  | none
  | flt (q : Rat)
  | npint (wide : Bool) (i : Int)
  | tup (l : List String)
deriving DecidableEq

/-- The classes with a serialisation of their own: `Operation` and its subclasses
(operation.py:106-126), `Schedule` (schedule.py:658-676), `CompiledSchedule` (1131-1175),
`Schedulable` (955-962), `Resource` (resources.py:66-73), `TimingConstraint` (schedule.py:989-996),
`ReferenceMagnitude` (pulse_library.py:39-46), `AcquisitionChannelData` (schedule.py:999-1016, which
has none and is written as its `__dict__`). -/
inductive Kind
  | operation | schedule | compiled | schedulable | resource | timing | refmag | acqdata
deriving DecidableEq

/-- Class objects. -/
inductive Cls
  /-- one of `DEFAULT_TYPES` (json_utils.py:38-49), by `__name__` -/
  | builtin (name : String)
  /-- a class of the module `quantify_scheduler.enums`, by `__name__` -/
  | enum (name : String)
  /-- a class of one of the kinds above, by its qualified name -/
  | user (k : Kind) (qual : String)
  /-- any other class, by its qualified name -/
  | other (qual : String)
deriving DecidableEq

/-- Python values.
* `senum c s`: a member of a subclass of `enums.StrEnum` (enums.py:9-15) with value `s`;
* `enum c s`: a member of an `Enum` that is no string, with `str(o) = s`;
* `cplx np re im`: `complex`, or `np.complex128` if `np`;
* `npint wide i`: `np.int64` if `wide`, else `np.int32`;
* `npother name q`: any other numpy scalar (`np.float32`, `np.uint32`, `np.bool_`, ...);
* `array l`: `np.ndarray` with at least one axis, by the list of its items along the first axis;
* `array0 q`: `np.ndarray` with no axis;
* `obj k qual data dur`: an object of class `qual` with the attribute `data` (for
  `ReferenceMagnitude` and `AcquisitionChannelData` the attributes); `dur` is the cached
  `_duration` of an `Operation`, 0 for the others. -/
inductive Val
  | none
  | bool (b : Bool)
  | int (i : Int)
  | flt (q : Rat)
  | str (s : String)
  | senum (cls s : String)
  | enum (cls s : String)
  | cplx (np : Bool) (re im : Rat)
  | npint (wide : Bool) (i : Int)
  | npother (name : String) (q : Rat)
  | array0 (q : Rat)
  | cls (c : Cls)
  | list (l : List Val)
  | tuple (l : List Val)
  | array (l : List Val)
  | dict (d : List (Key × Val))
  | obj (k : Kind) (qual : String) (data : List (Key × Val)) (dur : Rat)

/-- JSON documents. -/
inductive Json
  | null
  | bool (b : Bool)
  | int (i : Int)
  | flt (q : Rat)
  | str (s : String)
  | arr (l : List Json)
  | obj (d : List (String × Json))

/-- How Python writes numbers as text (`str`, `repr`) and reads them (`int(..)`, `complex(..)`). -/
structure Text where
  int : Int → String
  flt : Rat → String
  cplx : Rat → Rat → String
  readInt : String → Option Int
  readCplx : String → Option (Rat × Rat)
  /-- what is written is read back -/
  readInt_int : ∀ i, readInt (int i) = some i
  readCplx_cplx : ∀ re im, readCplx (cplx re im) = some (re, im)

/-- What the decoder finds outside of the document. -/
structure Env extends Text where
  /-- `import_python_object_from_string` (importers.py:10-30); `none` for the exceptions caught at
  json_utils.py:295 -/
  imports : String → Option Cls
  /-- `_get_type_from_string_deprecated` (json_utils.py:308-358) -/
  legacy : String → Option Cls
  /-- `c(s)` for an enumeration class `c` of `quantify_scheduler.enums`: is there such a member? -/
  member : String → String → Bool
  /-- Python ≥ 3.11: every object has `__getstate__` -/
  py311 : Bool

inductive Err
  | typeError | keyError | attributeError | valueError
  | unknownType (name : String)
  /-- a constructor call or an operand that is not modelled -/
  | unmodelled
deriving DecidableEq

instance : DecidableEq (Except Err Unit)
  | .ok _, .ok _ => isTrue rfl
  | .error a, .error b => if h : a = b then isTrue (h ▸ rfl) else isFalse (fun e => h (by cases e; rfl))
  | .ok _, .error _ => isFalse (fun e => nomatch e)
  | .error _, .ok _ => isFalse (fun e => nomatch e)

abbrev DT : String := "deserialization_type"

/-- `__name__` of a class from its qualified name. -/
def lastName (qual : String) : String := ((qual.splitOn ".").getLast?).getD qual

/-! ### Encoding -/

/-- The text of a key in a JSON object (Python's `json`): tuples and numpy integers are refused. -/
def keyText (T : Text) : Key → Except Err String
  | .str s => .ok s
  | .senum _ s => .ok s
  | .int i => .ok (T.int i)
  | .bool b => .ok (if b then "true" else "false")
  | .none => .ok "null"
  | .flt q => .ok (T.flt q)
  | .npint _ _ => .error .typeError
  | .tup _ => .error .typeError

/-- json_utils.py:396-400 for scalars: `{"deserialization_type": name, "mode": "__init__",
"data": str(o)}`. -/
def initText (name text : String) : Json :=
  .obj [(DT, .str name), ("mode", .str "__init__"), ("data", .str text)]

/-- `__name__` of the numpy integer types. -/
def intName (wide : Bool) : String := if wide then "int64" else "int32"

/-- `__name__` of the complex types. -/
def cplxName (np : Bool) : String := if np then "complex128" else "complex"

/-- A key as a value of its own, encoded (`list(d.items())`, schedule.py:662; `dict(key=k, ..)`,
1149-1151). -/
def encKey (T : Text) : Key → Json
  | .str s => .str s
  | .senum _ s => .str s
  | .int i => .int i
  | .bool b => .bool b
  | .none => .null
  | .flt q => .flt q
  | .npint w i => initText (intName w) (T.int i)
  | .tup l => .arr (l.map .str)

/-- json_utils.py:428-430. -/
def unserializable (qual : String) : Json :=
  .obj [("unserializable_object", .bool true), ("type", .str (lastName qual))]

/-- `{"deserialization_type": .., "data": ..}`, the `__getstate__` of operations, schedules,
schedulables, resources and timing constraints. -/
def state (qual : String) (data : List (String × Json)) : Json :=
  .obj [(DT, .str qual), ("data", .obj data)]

/-- The encoding of a class object (json_utils.py:402-404 and 413-419).  The `__name__` of a class
of `DEFAULT_TYPES` is its name; for the other classes the qualified name goes into `"data"`. -/
def encCls : Cls → Json
  | .builtin n => .obj [(DT, .str n), ("mode", .str "type")]
  | .enum n => .obj [(DT, .str "type"), ("mode", .str "type"),
      ("data", .str ("quantify_scheduler.enums." ++ n))]
  | .user _ q => .obj [(DT, .str "type"), ("mode", .str "type"), ("data", .str q)]
  | .other q => .obj [(DT, .str "type"), ("mode", .str "type"), ("data", .str q)]

/-- Does `data["schedulables"].items()` exist? (schedule.py:662).  Simplification: only `dict`. -/
def hasSchedulables (data : List (Key × Val)) : Bool :=
  match Dict.get? data (.str "schedulables") with
  | some (.dict _) => true
  | _ => false

/-- Does `component["acq_channels_data"].items()` exist, if the component has that key?
(schedule.py:1137-1151) -/
def componentOk : Val → Bool
  | .dict c => match Dict.get? c (.str "acq_channels_data") with
    | some (.dict _) => true
    | some _ => false
    | none => true
  | _ => true

/-- Does the `__getstate__` of a `CompiledSchedule` (schedule.py:1131-1156) raise no exception? -/
def hasInstructions (data : List (Key × Val)) : Bool :=
  match Dict.get? data (.str "compiled_instructions") with
  | some (.dict c) => c.all (fun e => componentOk e.2)
  | _ => false

mutual
/-- `json.dumps(v, cls=SchedulerJSONEncoder)`: the built-in cases of Python's `json` (a `StrEnum` is
a `str`, so that it never reaches `default`), and `SchedulerJSONEncoder.default`
(json_utils.py:372-430) with the `__getstate__` of the class followed by the encoding of the
result. An exception in `default` gives the fallback of lines 428-430.
Simplification: `o in DEFAULT_TYPES` (line 402) is true exactly for the classes of that list. -/
def enc (E : Env) : Val → Except Err Json
  | .none => .ok .null
  | .bool b => .ok (.bool b)
  | .int i => .ok (.int i)
  | .flt q => .ok (.flt q)
  | .str s => .ok (.str s)
  | .senum _ s => .ok (.str s)
  | .enum c s => .ok (initText c s)
  | .cplx np re im => .ok (initText (cplxName np) (E.cplx re im))
  | .npint w i => .ok (initText (intName w) (E.int i))
  | .npother _ q => .ok (if E.py311 then .null
      else .obj [("string_representation", .str (E.flt q))])
  | .array0 _ => .ok (unserializable "ndarray")
  | .cls c => .ok (encCls c)
  | .list l => do .ok (.arr (← encList E l))
  | .tuple l => do .ok (.arr (← encList E l))
  | .array l => do
      .ok (.obj [(DT, .str "ndarray"), ("mode", .str "__init__"), ("data", .arr (← encList E l))])
  | .dict d => do .ok (.obj (← encDict E d))
  | .obj .schedule q data _ =>
      if hasSchedulables data then do .ok (state q (← encSchedule E data))
      else .ok (unserializable q)
  | .obj .compiled q data _ =>
      if hasSchedulables data && hasInstructions data then do
        .ok (state q (← encCompiled E data))
      else .ok (unserializable q)
  | .obj .refmag q attrs _ => do .ok (.obj ((← encDict E attrs) ++ [(DT, .str q)]))
  | .obj .acqdata _ attrs _ => do .ok (.obj (← encDict E attrs))
  | .obj .operation q data _ => do .ok (state q (← encDict E data))
  | .obj .schedulable q data _ => do .ok (state q (← encDict E data))
  | .obj .resource q data _ => do .ok (state q (← encDict E data))
  | .obj .timing q data _ => do .ok (state q (← encDict E data))

/-- The items of a sequence. -/
def encList (E : Env) : List Val → Except Err (List Json)
  | [] => .ok []
  | v :: l => do
    let j ← enc E v
    let r ← encList E l
    .ok (j :: r)

/-- The members of a dictionary. -/
def encDict (E : Env) : List (Key × Val) → Except Err (List (String × Json))
  | [] => .ok []
  | (k, v) :: d => do
    let s ← keyText E.toText k
    let j ← enc E v
    let r ← encDict E d
    .ok ((s, j) :: r)

/-- `list(d.items())` (schedule.py:662). -/
def encItems (E : Env) : List (Key × Val) → Except Err (List Json)
  | [] => .ok []
  | (k, v) :: d => do
    let j ← enc E v
    let r ← encItems E d
    .ok (.arr [encKey E.toText k, j] :: r)

/-- The data of a `Schedule`, with the list of pairs in place of the dictionary of schedulables
(schedule.py:658-666). -/
def encSchedule (E : Env) : List (Key × Val) → Except Err (List (String × Json))
  | [] => .ok []
  | (.str "schedulables", .dict s) :: d => do
    let j ← encItems E s
    let r ← encSchedule E d
    .ok (("schedulables", .arr j) :: r)
  | (k, v) :: d => do
    let s ← keyText E.toText k
    let j ← enc E v
    let r ← encSchedule E d
    .ok ((s, j) :: r)

/-- The acquisition channels of a component as a list of dictionaries (schedule.py:1149-1151). -/
def encChannels (E : Env) : List (Key × Val) → Except Err (List Json)
  | [] => .ok []
  | (k, v) :: d => do
    let j ← enc E v
    let r ← encChannels E d
    .ok (.obj [("key", encKey E.toText k), ("value", j)] :: r)

/-- One component of the compiled instructions (schedule.py:1137-1155). -/
def encComponent (E : Env) : List (Key × Val) → Except Err (List (String × Json))
  | [] => .ok []
  | (.str "acq_channels_data", .dict a) :: d => do
    let j ← encChannels E a
    let r ← encComponent E d
    .ok (("acq_channels_data", .arr j) :: r)
  | (k, v) :: d => do
    let s ← keyText E.toText k
    let j ← enc E v
    let r ← encComponent E d
    .ok ((s, j) :: r)

/-- The compiled instructions (schedule.py:1137-1155). Simplification: a component that is no `dict`
is left as it is. -/
def encComponents (E : Env) : List (Key × Val) → Except Err (List (String × Json))
  | [] => .ok []
  | (k, .dict c) :: d => do
    let s ← keyText E.toText k
    let j ← encComponent E c
    let r ← encComponents E d
    .ok ((s, .obj j) :: r)
  | (k, v) :: d => do
    let s ← keyText E.toText k
    let j ← enc E v
    let r ← encComponents E d
    .ok ((s, j) :: r)

/-- The data of a `CompiledSchedule` (schedule.py:1131-1156). -/
def encCompiled (E : Env) : List (Key × Val) → Except Err (List (String × Json))
  | [] => .ok []
  | (.str "schedulables", .dict s) :: d => do
    let j ← encItems E s
    let r ← encCompiled E d
    .ok (("schedulables", .arr j) :: r)
  | (.str "compiled_instructions", .dict c) :: d => do
    let j ← encComponents E c
    let r ← encCompiled E d
    .ok (("compiled_instructions", .obj j) :: r)
  | (k, v) :: d => do
    let s ← keyText E.toText k
    let j ← enc E v
    let r ← encCompiled E d
    .ok ((s, j) :: r)
end

/-! ### Decoding -/

/-- `__name__` of the classes of `DEFAULT_TYPES` (json_utils.py:38-49). -/
def defaultNames : List String :=
  ["complex", "float", "int", "bool", "str", "ndarray", "complex128", "int32", "uint32", "int64"]

/-- The classes defined in `quantify_scheduler.enums` (enums.py), `get_classes(enums)`
(json_utils.py:190). -/
def enumNames : List String :=
  ["StrEnum", "BinMode", "TimeSource", "TimeRef", "TriggerCondition",
   "DualThresholdedTriggerCountLabels", "SchedulingStrategy"]

/-- `_get_type_from_string` (json_utils.py:260-305), for a decoder without extra modules. -/
def resolve (E : Env) (s : String) : Except Err Cls :=
  if s ∈ defaultNames then .ok (.builtin s)
  else if s ∈ enumNames then .ok (.enum s)
  else match E.imports s with
    | some c => .ok c
    | none => match E.legacy s with
      | some c => .ok c
      | none => .error (.unknownType s)

/-- `class_type(data)` (json_utils.py:217-223), for the classes the encoder writes. -/
def construct (E : Env) (c : Cls) (data : Val) : Except Err Val :=
  match c, data with
  | .builtin "ndarray", .list l => .ok (.array l)
  | .builtin "complex", .str s => match E.readCplx s with
    | some (re, im) => .ok (.cplx false re im)
    | none => .error .valueError
  | .builtin "complex128", .str s => match E.readCplx s with
    | some (re, im) => .ok (.cplx true re im)
    | none => .error .valueError
  | .builtin "int32", .str s => match E.readInt s with
    | some i => .ok (.npint false i)
    | none => .error .valueError
  | .builtin "int64", .str s => match E.readInt s with
    | some i => .ok (.npint true i)
    | none => .error .valueError
  | .enum c, .str s => if E.member c s then .ok (.senum c s) else .error .valueError
  | _, _ => .error .unmodelled

/-- A number in a computation. -/
def num : Val → Option Rat
  | .int i => some i
  | .flt q => some q
  | .npint _ i => some i
  | .bool b => some (if b then 1 else 0)
  | _ => none

/-- `info["t0"] + info["duration"]` (operation.py:134-136). -/
def infoEnd : Val → Except Err Rat
  | .dict d => match Dict.get? d (.str "t0"), Dict.get? d (.str "duration") with
    | some a, some b => match num a, num b with
      | some x, some y => .ok (x + y)
      | _, _ => .error .typeError
    | _, _ => .error .keyError
  | _ => .error .typeError

/-- `max(.., default=0)`. -/
def maxDefault : List Rat → Rat
  | [] => 0
  | x :: l => l.foldl max x

/-- `Operation._update` (operation.py:131-142): the new `_duration`. -/
def updateDuration (data : List (Key × Val)) : Except Err Rat :=
  match Dict.get? data (.str "pulse_info"), Dict.get? data (.str "acquisition_info") with
  | some (.list p), some (.list a) => do
    let ends ← (p ++ a).mapM infoEnd
    .ok (maxDefault ends)
  | some _, some _ => .error .typeError
  | _, _ => .error .keyError

/-- The handling of legacy data in `Operation.__setstate__` (operation.py:114-124): as in the code,
`gate_info["device_elements"] = qubits` is written to the dictionary that is thrown away. -/
def legacyGateInfo (data : List (Key × Val)) : Except Err (List (Key × Val)) :=
  match Dict.get? data (.str "gate_info") with
  | none => .ok data
  | some .none => .ok data
  | some (.dict g) => match Dict.get? g (.str "qubits") with
    | none => .ok data
    | some .none => .ok data
    | some _ => .ok (Dict.set data (.str "gate_info")
        (.dict (g.filter (fun e => e.1 != .str "qubits"))))
  | some _ => .error .attributeError

/-- `state["data"]` as a dictionary. -/
def stateData (st : List (Key × Val)) : Except Err (List (Key × Val)) :=
  match Dict.get? st (.str "data") with
  | some (.dict d) => .ok d
  | some _ => .error .typeError
  | none => .error .keyError

/-- `Operation.__setstate__` (operation.py:112-126). -/
def setOperation (q : String) (st : List (Key × Val)) : Except Err Val := do
  let data ← stateData st
  let data ← legacyGateInfo data
  let dur ← updateDuration data
  .ok (.obj .operation q data dur)

/-- A value as a dictionary key; lists, dictionaries and arrays are unhashable. -/
def asKey : Val → Except Err Key
  | .none => .ok .none
  | .bool b => .ok (.bool b)
  | .int i => .ok (.int i)
  | .flt q => .ok (.flt q)
  | .str s => .ok (.str s)
  | .senum c s => .ok (.senum c s)
  | .npint w i => .ok (.npint w i)
  | .list _ => .error .typeError
  | .dict _ => .error .typeError
  | .array _ => .error .typeError
  | _ => .error .unmodelled

/-- `for k, v in ..` of one element. Simplification: only lists of two elements. -/
def asPair : Val → Except Err (Key × Val)
  | .list [k, v] => do .ok (← asKey k, v)
  | _ => .error .valueError

/-- A dictionary from its items: the last value of a key wins, at its first position. -/
def ofItems (l : List (Key × Val)) : List (Key × Val) :=
  l.foldl (fun d e => Dict.set d e.1 e.2) []

/-- The schedulables of a schedule (schedule.py:672-675). -/
def setSchedulables (data : List (Key × Val)) : Except Err (List (Key × Val)) :=
  match Dict.get? data (.str "schedulables") with
  | some (.list l) => do
    let items ← l.mapM asPair
    .ok (Dict.set data (.str "schedulables") (.dict (ofItems items)))
  | some _ => .ok data
  | none => .error .keyError

/-- `ScheduleBase.__setstate__` (schedule.py:668-676). -/
def setSchedule (k : Kind) (q : String) (st : List (Key × Val)) : Except Err Val := do
  let data ← if (Dict.get? st (.str "data")).isSome then stateData st else .ok st
  let data ← setSchedulables data
  .ok (.obj k q data 0)

/-- The attributes of `AcquisitionChannelData` (schedule.py:1000-1016). -/
def acqFields : List Key :=
  [.str "acq_index_dim_name", .str "protocol", .str "bin_mode", .str "coords"]

/-- The attributes of `TimingConstraint` (schedule.py:967-975). -/
def timingFields : List Key :=
  [.str "ref_schedulable", .str "ref_pt", .str "ref_pt_new", .str "rel_time"]

/-- `C(**d)` for a dataclass with these attributes: each is given, and no other. -/
def fromKwargs (fields : List Key) (d : List (Key × Val)) : Except Err (List (Key × Val)) :=
  if (Dict.keys d).all (fun k => decide (k ∈ fields)) then
    fields.mapM (fun f => match Dict.get? d f with
      | some v => .ok (f, v)
      | none => .error .typeError)
  else .error .typeError

/-- The qualified name of `AcquisitionChannelData`. -/
abbrev acqQual : String := "quantify_scheduler.schedules.schedule.AcquisitionChannelData"

/-- `_acq_channel_data` (schedule.py:1162-1165). -/
def acqValue : Val → Except Err Val
  | .obj .acqdata q d r => .ok (.obj .acqdata q d r)
  | .dict d => do .ok (.obj .acqdata acqQual (← fromKwargs acqFields d) 0)
  | _ => .error .typeError

/-- One element of the list of acquisition channels (schedule.py:1170-1173). -/
def setChannel : Val → Except Err (Key × Val)
  | .dict e => match Dict.get? e (.str "key"), Dict.get? e (.str "value") with
    | some k, some v => do
      let k ← asKey k
      let v ← acqValue v
      .ok (k, v)
    | _, _ => .error .keyError
  | _ => .error .typeError

/-- One component (schedule.py:1168-1174). -/
def setComponent : Val → Except Err Val
  | .dict c => match Dict.get? c (.str "acq_channels_data") with
    | none => .ok (.dict c)
    | some (.list l) => do
      let items ← l.mapM setChannel
      .ok (.dict (Dict.set c (.str "acq_channels_data") (.dict (ofItems items))))
    | some _ => .error .typeError
  | v => .ok v

/-- `CompiledSchedule.__setstate__` (schedule.py:1158-1175). -/
def setCompiled (q : String) (st : List (Key × Val)) : Except Err Val := do
  let data ← stateData st
  match Dict.get? data (.str "compiled_instructions") with
  | some (.dict c) => do
    let c ← c.mapM (fun e => do .ok (e.1, ← setComponent e.2))
    let data := Dict.set data (.str "compiled_instructions") (.dict c)
    let data ← setSchedulables data
    .ok (.obj .compiled q data 0)
  | some _ => .error .attributeError
  | none => .error .keyError

/-- `ReferenceMagnitude.__setstate__` (pulse_library.py:39-41). -/
def setRefMag (q : String) (st : List (Key × Val)) : Except Err Val :=
  match Dict.get? st (.str "value"), Dict.get? st (.str "unit") with
  | some v, some u => .ok (.obj .refmag q [(.str "value", v), (.str "unit", u)] 0)
  | _, _ => .error .keyError

/-- `class_type.__new__(class_type)` followed by `__setstate__` (json_utils.py:228-235). -/
def setState (c : Cls) (st : List (Key × Val)) : Except Err Val :=
  match c with
  | .user .operation q => setOperation q st
  | .user .schedule q => setSchedule .schedule q st
  | .user .compiled q => setCompiled q st
  | .user .schedulable q => do .ok (.obj .schedulable q (← stateData st) 0)
  | .user .resource q => do .ok (.obj .resource q (← stateData st) 0)
  | .user .timing q => do .ok (.obj .timing q (← fromKwargs timingFields (← stateData st)) 0)
  | .user .refmag q => setRefMag q st
  | .user .acqdata _ => .error .attributeError
  | .builtin _ => .error .attributeError
  | .enum _ => .error .attributeError
  | .other _ => .error .unmodelled

/-- `SchedulerJSONDecoder.decode_dict` (json_utils.py:193-238). -/
def decodeDict (E : Env) (d : List (Key × Val)) : Except Err Val :=
  match Dict.get? d (.str DT) with
  | none => .ok (.dict d)
  | some (.str t) => do
    let c ← resolve E t
    match Dict.get? d (.str "mode") with
    | some (.str "__init__") => match Dict.get? d (.str "data") with
      | some data => construct E c data
      | none => .error .keyError
    | some (.str "type") => .ok (.cls c)
    | _ => setState c d
  | some _ => .error .typeError

mutual
/-- `json.loads(.., cls=SchedulerJSONDecoder)`: Python's `json` builds the dictionary of a JSON object
(the last of equal keys wins) and replaces it by the result of the hook, from the inside out. -/
def dec (E : Env) : Json → Except Err Val
  | .null => .ok .none
  | .bool b => .ok (.bool b)
  | .int i => .ok (.int i)
  | .flt q => .ok (.flt q)
  | .str s => .ok (.str s)
  | .arr l => do .ok (.list (← decList E l))
  | .obj d => do decodeDict E (ofItems (← decMembers E d))

/-- The items of an array. -/
def decList (E : Env) : List Json → Except Err (List Val)
  | [] => .ok []
  | j :: l => do
    let v ← dec E j
    let r ← decList E l
    .ok (v :: r)

/-- The members of an object. -/
def decMembers (E : Env) : List (String × Json) → Except Err (List (Key × Val))
  | [] => .ok []
  | (s, j) :: d => do
    let v ← dec E j
    let r ← decMembers E d
    .ok ((.str s, v) :: r)
end

/-- `from_json(to_json(v))` (json_utils.py:465-475, 523-541). -/
def roundTrip (E : Env) (v : Val) : Except Err Val := do
  let j ← enc E v
  dec E j

end Verif.Json
