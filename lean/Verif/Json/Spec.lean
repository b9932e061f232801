/-
Specification of the JSON round trip: which values can be written and read back, and what comes back.
-/
import Verif.Json.Model

namespace Verif.Json.Spec

/-- A string enumeration member comes back as its string. -/
def listifyKey : Key → Key
  | .senum _ s => .str s
  | k => k

mutual
/-- What comes back: tuples as lists, members of string enumerations as the strings they equal;
all the rest as it was. -/
def listify : Val → Val
  | .senum _ s => .str s
  | .tuple l => .list (listifyL l)
  | .list l => .list (listifyL l)
  | .array l => .array (listifyL l)
  | .dict d => .dict (listifyD d)
  | .obj k q d r => .obj k q (listifyD d) r
  | .none => .none
  | .bool b => .bool b
  | .int i => .int i
  | .flt q => .flt q
  | .str s => .str s
  | .enum c s => .enum c s
  | .cplx np re im => .cplx np re im
  | .npint w i => .npint w i
  | .npother n q => .npother n q
  | .array0 q => .array0 q
  | .cls c => .cls c

/-- The items of a sequence. -/
def listifyL : List Val → List Val
  | [] => []
  | v :: l => listify v :: listifyL l

/-- The items of a dictionary. -/
def listifyD : List (Key × Val) → List (Key × Val)
  | [] => []
  | (k, v) :: d => (listifyKey k, listify v) :: listifyD d
end

/-- A dictionary with distinct string keys, none of which is the reserved one. -/
def StrKeys (d : List (Key × Val)) : Prop :=
  (∀ e ∈ d, ∃ s, e.1 = .str s ∧ s ≠ "deserialization_type") ∧ (d.map Prod.fst).Nodup

/-- The names under which the decoder always finds something else. -/
def reserved : List String :=
  ["complex", "float", "int", "bool", "str", "ndarray", "complex128", "int32", "uint32", "int64",
   "StrEnum", "BinMode", "TimeSource", "TimeRef", "TriggerCondition",
   "DualThresholdedTriggerCountLabels", "SchedulingStrategy"]

/-- The class can be imported under its qualified name. -/
def Known (E : Env) (k : Kind) (q : String) : Prop :=
  q ∉ reserved ∧ E.imports q = some (.user k q)

/-- A number, with its value. -/
inductive Number : Val → Rat → Prop
  | int (i : Int) : Number (.int i) i
  | flt (q : Rat) : Number (.flt q) q
  | npint (w : Bool) (i : Int) : Number (.npint w i) i

/-- The end time of the entry of a pulse or of an acquisition. -/
def EndOf (v : Val) (x : Rat) : Prop :=
  ∃ I a b t u, v = .dict I ∧ (Key.str "t0", a) ∈ I ∧ (Key.str "duration", b) ∈ I ∧
    Number a t ∧ Number b u ∧ x = t + u

/-- The largest of the numbers, 0 if there is none. -/
def Largest (l : List Rat) (r : Rat) : Prop :=
  (l = [] ∧ r = 0) ∨ (r ∈ l ∧ ∀ x ∈ l, x ≤ r)

/-- The data of an operation whose duration is `r`: the latest end of its pulses and acquisitions;
no legacy entry `"qubits"`. -/
def OpData (d : List (Key × Val)) (r : Rat) : Prop :=
  (∀ g, (Key.str "gate_info", g) ∈ d →
    g = .none ∨ ∃ G, g = .dict G ∧ ∀ v, (Key.str "qubits", v) ∈ G → v = .none) ∧
  ∃ P A ends, (Key.str "pulse_info", Val.list P) ∈ d ∧
    (Key.str "acquisition_info", Val.list A) ∈ d ∧
    List.Forall₂ EndOf (P ++ A) ends ∧ Largest ends r

/-- The acquisition channels of a component: any keys but tuples, one object with the four attributes
for each. -/
def Channels (A : List (Key × Val)) : Prop :=
  (∀ x ∈ A, ∀ l, x.1 ≠ .tup l) ∧ (A.map (fun x => listifyKey x.1)).Nodup ∧
  ∀ x ∈ A, ∃ n p b c, x.2 = .obj .acqdata
    "quantify_scheduler.schedules.schedule.AcquisitionChannelData"
    [(.str "acq_index_dim_name", n), (.str "protocol", p), (.str "bin_mode", b),
     (.str "coords", c)] 0

/-- The values that can be written and read back. -/
inductive Ok (E : Env) : Val → Prop
  | none : Ok E .none
  | bool (b) : Ok E (.bool b)
  | int (i) : Ok E (.int i)
  | flt (q) : Ok E (.flt q)
  | str (s) : Ok E (.str s)
  | senum (c s) : Ok E (.senum c s)
  | cplx (np re im) : Ok E (.cplx np re im)
  | npint (w i) : Ok E (.npint w i)
  | builtin (n) : n ∈ ["complex", "float", "int", "bool", "str", "ndarray", "complex128", "int32",
      "uint32", "int64"] → Ok E (.cls (.builtin n))
  | list (l) : (∀ v ∈ l, Ok E v) → Ok E (.list l)
  | tuple (l) : (∀ v ∈ l, Ok E v) → Ok E (.tuple l)
  | array (l) : (∀ v ∈ l, Ok E v) → Ok E (.array l)
  | dict (d) : StrKeys d → (∀ e ∈ d, Ok E e.2) → Ok E (.dict d)
  | operation (q d r) : Known E .operation q → StrKeys d → OpData d r → (∀ e ∈ d, Ok E e.2) →
      Ok E (.obj .operation q d r)
  | schedule (q d) : Known E .schedule q → StrKeys d →
      (∃ S, (Key.str "schedulables", Val.dict S) ∈ d) → (∀ e ∈ d, Ok E e.2) →
      Ok E (.obj .schedule q d 0)
  | schedulable (q d) : Known E .schedulable q → StrKeys d → (∀ e ∈ d, Ok E e.2) →
      Ok E (.obj .schedulable q d 0)
  | resource (q d) : Known E .resource q → StrKeys d → (∀ e ∈ d, Ok E e.2) →
      Ok E (.obj .resource q d 0)
  | timing (q a b c t) : Known E .timing q → Ok E a → Ok E b → Ok E c → Ok E t →
      Ok E (.obj .timing q [(.str "ref_schedulable", a), (.str "ref_pt", b),
        (.str "ref_pt_new", c), (.str "rel_time", t)] 0)
  | refmag (q v u) : Known E .refmag q → Ok E v → Ok E u →
      Ok E (.obj .refmag q [(.str "value", v), (.str "unit", u)] 0)
  | compiled (q d C) : Known E .compiled q → StrKeys d →
      (∃ S, (Key.str "schedulables", Val.dict S) ∈ d) →
      (Key.str "compiled_instructions", Val.dict C) ∈ d → StrKeys C →
      (∀ e ∈ d, e.1 ≠ .str "compiled_instructions" → Ok E e.2) →
      (∀ c ∈ C, (∀ D, c.2 ≠ .dict D) → Ok E c.2) →
      (∀ c ∈ C, ∀ D, c.2 = .dict D → StrKeys D) →
      (∀ c ∈ C, ∀ D, c.2 = .dict D → ∀ e ∈ D, e.1 ≠ .str "acq_channels_data" → Ok E e.2) →
      (∀ c ∈ C, ∀ D, c.2 = .dict D → ∀ v, (Key.str "acq_channels_data", v) ∈ D →
        ∃ A, v = .dict A ∧ Channels A) →
      (∀ c ∈ C, ∀ D, c.2 = .dict D → ∀ A, (Key.str "acq_channels_data", Val.dict A) ∈ D →
        ∀ x ∈ A, ∀ q f r, x.2 = .obj .acqdata q f r → ∀ y ∈ f, Ok E y.2) →
      Ok E (.obj .compiled q d 0)

/-- No tuple and no string enumeration member in it: such a value comes back as it was. -/
inductive Plain : Val → Prop
  | leaf (v) : (∀ c s, v ≠ .senum c s) → (∀ l, v ≠ .list l) → (∀ l, v ≠ .tuple l) →
      (∀ l, v ≠ .array l) → (∀ d, v ≠ .dict d) → (∀ k q d r, v ≠ .obj k q d r) → Plain v
  | list (l) : (∀ v ∈ l, Plain v) → Plain (.list l)
  | array (l) : (∀ v ∈ l, Plain v) → Plain (.array l)
  | dict (d) : (∀ e ∈ d, Plain e.2) → (∀ e ∈ d, ∀ c s, e.1 ≠ .senum c s) → Plain (.dict d)
  | obj (k q d r) : (∀ e ∈ d, Plain e.2) → (∀ e ∈ d, ∀ c s, e.1 ≠ .senum c s) →
      Plain (.obj k q d r)

end Verif.Json.Spec
