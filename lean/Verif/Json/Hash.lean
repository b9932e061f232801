/-
`make_hash` (helpers/collections.py:18-56) and equality of operations.
-/
import Verif.Json.Lemmas4
import Verif.Build.Model

set_option linter.unusedSimpArgs false
set_option linter.unusedVariables false

namespace Verif.Json
open Spec

/-- The hash functions of Python that are not modelled further: those of strings, tuples, frozen
sets (which ignore the order), arrays, complex numbers, class objects. -/
structure Hashes where
  str : String → Int
  none : Int
  tuple : List Int → Int
  set : List (Key × Int) → Int
  array : List Int → Int
  cplx : Rat → Rat → Int
  cls : Cls → Int
  enum : String → String → Int
  /-- the inverse modulo `2 ^ 61 - 1`, by which CPython hashes fractions -/
  inv : Nat → Nat
  set_perm : ∀ l l' : List (Key × Int), l.Perm l' → set l = set l'

/-- CPython's hash of a number, an `int` or a `float` alike (`_PyHASH_MODULUS = 2 ^ 61 - 1`; the value
-1 is reserved for errors and replaced by -2): from the documentation of Python, "Hashing of numeric
types". -/
def numHash (inv : Nat → Nat) (q : Rat) : Int :=
  let m : Int := ((q.num.natAbs * (if q.den = 1 then 1 else inv q.den)) % (2 ^ 61 - 1) : Nat)
  let h : Int := if q.num < 0 then -m else m
  if h = -1 then -2 else h

mutual
/-- `make_hash` (collections.py:18-56); `hash` of an operation, a schedule, a schedulable, a resource or
a timing constraint is `make_hash` of its data (operation.py:128-129, schedule.py:173-174, 944-945,
986-987, resources.py:75-76), that of a `ReferenceMagnitude` is that of the pair
(pulse_library.py:36-37).
Simplification: objects that cannot be hashed, and the `TypeError` of sorting keys of different
types, are left out. -/
def makeHash (H : Hashes) : Val → Int
  | .none => H.none
  | .bool b => numHash H.inv (if b then 1 else 0)
  | .int i => numHash H.inv i
  | .flt q => numHash H.inv q
  | .npint _ i => numHash H.inv i
  | .npother _ q => numHash H.inv q
  | .array0 q => numHash H.inv q
  | .str s => H.str s
  | .senum _ s => H.str s
  | .enum c s => H.enum c s
  | .cplx _ re im => H.cplx re im
  | .cls c => H.cls c
  | .list l => H.tuple (makeHashL H l)
  | .tuple l => H.tuple (makeHashL H l)
  | .array l => H.array (makeHashL H l)
  | .dict d => H.set (makeHashD H d)
  | .obj .refmag _ d _ => H.tuple (makeHashV H d)
  | .obj .operation _ d _ => H.set (makeHashD H d)
  | .obj .schedule _ d _ => H.set (makeHashD H d)
  | .obj .compiled _ d _ => H.set (makeHashD H d)
  | .obj .schedulable _ d _ => H.set (makeHashD H d)
  | .obj .resource _ d _ => H.set (makeHashD H d)
  | .obj .timing _ d _ => H.set (makeHashD H d)
  | .obj .acqdata _ d _ => H.set (makeHashD H d)

/-- The hashes of the elements (collections.py:36-37). -/
def makeHashL (H : Hashes) : List Val → List Int
  | [] => []
  | v :: l => makeHash H v :: makeHashL H l

/-- `(key, make_hash(val))` of the items (collections.py:46-48). -/
def makeHashD (H : Hashes) : List (Key × Val) → List (Key × Int)
  | [] => []
  | (k, v) :: d => (listifyKey k, makeHash H v) :: makeHashD H d

/-- The hashes of the values. -/
def makeHashV (H : Hashes) : List (Key × Val) → List Int
  | [] => []
  | (_, v) :: d => makeHash H v :: makeHashV H d
end

/-- `Operation.__eq__` (operation.py:78-92). -/
def opEq (H : Hashes) (a b : Val) : Bool := decide (makeHash H a = makeHash H b)

end Verif.Json
