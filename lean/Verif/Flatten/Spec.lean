/-
What the operation list of a sequencer must be: the nested structure of the schedule.
-/
import Verif.Flatten.Model

namespace Verif.Flatten

open Verif.StableSort (sortBy)

variable {D : Type}

/-- A sequence of things, some of which are bracketed: `node b body e` is `b`, the body, `e`. -/
inductive Forest (α : Type) where
  | nil
  | leaf (a : α) (rest : Forest α)
  | node (b : α) (body : Forest α) (e : α) (rest : Forest α)
deriving DecidableEq, Repr

variable {α : Type}

/-- Written out in order, brackets included. -/
def Forest.flatten : Forest α → List α
  | .nil => []
  | .leaf a f => a :: f.flatten
  | .node b g e f => b :: (g.flatten ++ e :: f.flatten)

/-- Put unbracketed elements in front. -/
def leaves : List α → Forest α → Forest α
  | [], f => f
  | a :: l, f => .leaf a (leaves l f)

/-- Is a pulse for the sequencer of this port-clock?  If it is on this port-clock, or if it is on
no port and concerns the clock, or every sequencer (latch reset). -/
def pulseFor (pc : PC) (name : String) (q : Piece D) : Bool :=
  match q.port with
  | some p => some p = some pc.1 ∧ q.clock = some pc.2
  | none => name = "LatchReset" ∨ q.clock = some pc.2

/-- The acquisitions of an operation for a port-clock, numbered from `i`. -/
def acqInfos (idx : Label × Nat → Option (List Int)) (pc : PC) (name : String) (n : Int)
    (label : Label) : Nat → List (Piece D) → List (Info D)
  | _, [] => []
  | i, q :: qs =>
    (if q.port = some pc.1 ∧ q.clock = some pc.2 then
      [⟨name, .acq q.data (idx (label, i)), startAt n q.t0, n⟩] else []) ++
      acqInfos idx pc name n label (i + 1) qs

/-- What a plain operation that starts at `n` ns does on a port-clock. -/
def plainInfos (idx : Label × Nat → Option (List Int)) (pc : PC) (p : Plain D) (n : Int)
    (label : Label) : List (Info D) :=
  if p.window then []
  else
    (if p.asm = some pc then [⟨p.name, .asm, startAt n 0, n⟩] else []) ++
    ((p.pulses.filter (pulseFor pc p.name)).map
      (fun q => ⟨p.name, .pulse q.data, startAt n q.t0, n⟩)) ++
    acqInfos idx pc p.name n label 0 p.acqs

mutual
/-- The content of a schedule for one port-clock: every operation at the sum of the start times of
what it is nested in; a loop or conditional brackets its content, from its start to its start plus
the duration of the body, if something in its body uses the port-clock. `k` is what follows. -/
def content (idx : Label × Nat → Option (List Int)) (pc : PC) :
    Op D → Rat → Label → Forest (Info D) → Forest (Info D)
  | .plain p, off, label, k => leaves (plainInfos idx pc p (ns off) label) k
  | .sched items, off, label, k => itemContent idx pc items off label k
  | .ctl c dur body, off, label, k =>
    if pc ∈ body.used then
      .node ⟨c.name, .loopStart c.data, startAt (ns off) c.t0, ns off⟩
        (content idx pc body off (label ++ [none]) .nil)
        ⟨"ControlFlowReturn", .loopStop, startAt (ns (off + dur)) 0, ns (off + dur)⟩ k
    else content idx pc body off (label ++ [none]) k
/-- The content of the schedulables, in the order in which they were added. -/
def itemContent (idx : Label × Nat → Option (List Int)) (pc : PC) :
    Items D → Rat → Label → Forest (Info D) → Forest (Info D)
  | .nil, _, _, k => k
  | .cons name abs op rest, off, label, k =>
    content idx pc op (off + abs) (label ++ [some name]) (itemContent idx pc rest off label k)
end

/-- Key of the order of a sequencer's operations: time in ns, then the start of the operation it
belongs to. -/
def Info.key (i : Info D) : Int ×ₗ Int := toLex (ns i.timing, i.start)

/-- An element of a body: a single operation or a bracketed one. -/
inductive Elem (α : Type) where
  | one (a : α)
  | many (b : α) (body : Forest α) (e : α)

/-- All there is in an element. -/
def Elem.all : Elem α → List α
  | .one a => [a]
  | .many b f e => b :: (f.flatten ++ [e])

/-- The first thing of an element. -/
def Elem.head : Elem α → α
  | .one a => a
  | .many b _ _ => b

/-- Is it a loop or conditional? -/
def Elem.bracketed : Elem α → Bool
  | .one _ => false
  | .many _ _ _ => true

/-- The elements of a body. -/
def Forest.elems : Forest α → List (Elem α)
  | .nil => []
  | .leaf a f => .one a :: f.elems
  | .node b g e f => .many b g e :: f.elems

/-- The body with these elements. -/
def ofElems : List (Elem α) → Forest α
  | [] => .nil
  | .one a :: l => .leaf a (ofElems l)
  | .many b f e :: l => .node b f e (ofElems l)

variable {K : Type} [LinearOrder K]

/-- The elements of a body, with the bodies inside in order. -/
def Forest.innerOrdered (key : α → K) : Forest α → List (Elem α)
  | .nil => []
  | .leaf a f => .one a :: f.innerOrdered key
  | .node b g e f =>
    .many b (ofElems (sortBy (fun x => key x.head) (g.innerOrdered key))) e ::
      f.innerOrdered key

/-- Every body in order of the key, a bracketed element being a unit that stands at its first
bracket; equal keys in the order they were in. -/
def Forest.order (key : α → K) (f : Forest α) : Forest α :=
  ofElems (sortBy (fun x => key x.head) (f.innerOrdered key))

/-- An element with its body in order. -/
def Elem.inner (key : α → K) : Elem α → Elem α
  | .one a => .one a
  | .many b g e => .many b (g.order key) e

/-- Brackets are kept apart: in every body, everything is between the brackets of the body, and a
bracketed element overlaps no other element: what was written first is not later than the other,
or else is strictly later. -/
def Forest.Apart (key : α → K) : Forest α → Prop
  | .nil => True
  | .leaf a f =>
    (∀ x ∈ f.elems, x.bracketed = true → StableSort.Apart key [a] x.all) ∧ f.Apart key
  | .node b g e f =>
    (key b ≤ key e ∧ ∀ x ∈ g.flatten, key b ≤ key x ∧ key x ≤ key e) ∧ g.Apart key ∧
    (∀ x ∈ f.elems, StableSort.Apart key (Elem.many b g e).all x.all) ∧ f.Apart key

mutual
/-- Nothing in the operation concerns the port-clock. -/
def Quiet (pc : PC) : Op D → Prop
  | .plain p => p.window = true ∨
    (p.asm ≠ some pc ∧ (∀ q ∈ p.pulses, pulseFor pc p.name q = false) ∧
      ∀ q ∈ p.acqs, ¬ (q.port = some pc.1 ∧ q.clock = some pc.2))
  | .sched items => ItemsQuiet pc items
  | .ctl _ _ body => Quiet pc body ∧ pc ∉ body.used
/-- The same for all schedulables. -/
def ItemsQuiet (pc : PC) : Items D → Prop
  | .nil => True
  | .cons _ _ op rest => Quiet pc op ∧ ItemsQuiet pc rest
end

mutual
/-- A schedule in which what concerns the port-clock was added in order of time: `Sequential op w`
says that the content of `op` on the port-clock is in the window from its start to `w` later. -/
def Sequential (pc : PC) : Op D → Rat → Prop
  | .plain p, w =>
    0 ≤ w ∧ (p.window = false →
      (p.asm = some pc → p.pulses = [] ∧ p.acqs = []) ∧
      ((p.pulses.filter (pulseFor pc p.name)) ++
        p.acqs.filter (fun q => q.port = some pc.1 ∧ q.clock = some pc.2)).Pairwise
          (fun q r => q.t0 ≤ r.t0) ∧
      ∀ q ∈ (p.pulses.filter (pulseFor pc p.name)) ++
        p.acqs.filter (fun q => q.port = some pc.1 ∧ q.clock = some pc.2), 0 ≤ q.t0 ∧ q.t0 ≤ w)
  | .sched items, w => ItemsSequential pc items 0 w
  | .ctl c dur body, w => c.t0 = 0 ∧ Sequential pc body dur ∧ dur ≤ w
/-- The schedulables that concern the port-clock one after the other, the first not before
`cursor`. -/
def ItemsSequential (pc : PC) : Items D → Rat → Rat → Prop
  | .nil, cursor, w => cursor ≤ w
  | .cons _ abs op rest, cursor, w =>
    (Quiet pc op ∧ ItemsSequential pc rest cursor w) ∨
    (cursor ≤ abs ∧ ∃ d, Sequential pc op d ∧ ItemsSequential pc rest (abs + d) w)
end

end Verif.Flatten
