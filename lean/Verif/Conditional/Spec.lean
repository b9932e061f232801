/-
What conditional playback must look like.
-/
import Verif.Conditional.Model

namespace Verif.Conditional

/-! ### Labels and addresses -/

/-- A place where a feedback label is used: an acquisition that sends a trigger, or a conditional
that reads it. -/
inductive Act where
  | acq (q : AcqInfo)
  | cond (c : Cond)
deriving DecidableEq, Repr

/-- Is it an acquisition with a feedback label?  The first entry tells. -/
def sends (infos : List AcqInfo) : Bool :=
  match infos.head? with
  | some q => decide (q.label ≠ none ∨ q.labels ≠ [])
  | none => false

/-- Acquisitions that are given an address: all but the weighted thresholded ones, see
`weighted_gets_no_address`. -/
def addressed (q : AcqInfo) : Bool :=
  match q.proto with
  | .weightedThresholded => false
  | .other => false
  | _ => true

mutual
/-- The places in a schedule, in the order in which operations were added; not within the bodies of
conditionals. -/
def acts : Op → List Act
  | .plain infos =>
    if sends infos then (infos.filter addressed).map .acq else []
  | .latch _ => []
  | .cond c _ => [.cond c]
  | .loop _ _ body => acts body
  | .sched items => itemActs items
/-- The same for the operations of a schedule. -/
def itemActs : Items → List Act
  | .nil => []
  | .cons _ op rest => acts op ++ itemActs rest
end

/-- The labels used at a place, each with the address that was filled in. -/
def Act.uses : Act → List (Label × Option Nat)
  | .acq q => match q.proto with
    | .dual => (q.labels.zip q.addresses).filter (fun e => e.1.isSome)
    | _ => [(q.label, q.address)]
  | .cond c => [(c.label, c.address)]

/-- The labels used at a place. -/
def Act.labels : Act → List Label
  | .acq q => match q.proto with
    | .dual => q.labels.filter Option.isSome
    | _ => [q.label]
  | .cond c => [c.label]

/-- Trigger settings that the readers of a label need, as told by an acquisition: a QRM sends one
trigger for each count, so the reader compares with the threshold; a QTM sends a trigger if the
condition is met. -/
def Act.demands (modType : PC → Option ModType) : Act → List (Label × Bool × Nat)
  | .acq q => match q.proto, modType (q.port, q.clock) with
    | .trigCount (some less) threshold, some .qrm => [(q.label, less, threshold)]
    | .trigCount (some _) _, some .qtm => [(q.label, false, 1)]
    | .dual, _ => (q.labels.filter Option.isSome).map (fun l => (l, false, 1))
    | _, _ => []
  | .cond _ => []

/-- Is the acquisition possible on its module? -/
def Act.possible (modType : PC → Option ModType) : Act → Prop
  | .acq q => match q.proto with
    | .trigCount none _ => False
    | .trigCount (some _) _ => modType (q.port, q.clock) ≠ none
    | .dual => (∃ l ∈ q.labels, l ≠ none) → modType (q.port, q.clock) = some .qtm
    | _ => True
  | .cond _ => True

/-- Without what the compiler fills in. -/
def AcqInfo.blank (q : AcqInfo) : AcqInfo := { q with address := none, addresses := [] }
/-- Without what the compiler fills in. -/
def Cond.blank (c : Cond) : Cond := { c with address := none, invert := none, count := none }
/-- Without what the compiler fills in. -/
def Act.blank : Act → Act
  | .acq q => .acq q.blank
  | .cond c => .cond c.blank

/-! ### Order in time -/

/-- What happens when the schedule is executed. -/
inductive Happening where
  | acq (infos : List AcqInfo)
  | cond (c : Cond)
  | latch (pc : PC)
deriving DecidableEq, Repr

mutual
/-- What happens in an operation that starts at `t`, with its time: loops are unrolled. -/
def happens : Op → Rat → List (Rat × Happening)
  | .plain infos, t => if sends infos then [(t, .acq infos)] else []
  | .latch pc, t => [(t, .latch pc)]
  | .cond c _, t => [(t, .cond c)]
  | .loop reps dur body, t => (List.range reps).flatMap (fun i : Nat => happens body (t + (i : Rat) * dur))
  | .sched items, t => itemsHappen items t
/-- The same for the operations of a schedule that starts at `t`. -/
def itemsHappen : Items → Rat → List (Rat × Happening)
  | .nil, _ => []
  | .cons abs op rest, t => happens op (t + abs) ++ itemsHappen rest t
end

/-- A label is written by an acquisition or read by a conditional. -/
inductive Tag where
  | acq (labels : List Label)
  | cond (label : Label)
deriving DecidableEq, Repr

/-- The labels that an acquisition writes: those of its first entry. -/
def writes (infos : List AcqInfo) : List Label :=
  match infos.head? with
  | none => []
  | some q => if q.proto = .dual then (q.labels.filter (fun l => decide (l ≠ none))).dedup
    else [q.label]

/-- The tags of a happening; acquisitions without labels have none. -/
def Happening.tags : Happening → List Tag
  | .acq infos => if writes infos = [] then [] else [.acq (writes infos)]
  | .cond c => [.cond c.label]
  | .latch _ => []

/-- All tags in the order of time; at the same time, in the order in which they were added. -/
def tagsInTime (op : Op) : List Tag :=
  ((Verif.StableSort.sortBy Prod.fst (happens op 0)).map Prod.snd).flatMap Happening.tags

/-- An acquisition and the conditionals that use it. -/
structure Block where
  labels : List Label
  conds : List Label

/-- In order. -/
def Block.tags (b : Block) : List Tag := .acq b.labels :: b.conds.map .cond

/-- A sequence of acquisitions, each followed by conditionals that use labels of it, each label at
most once, and, unless it is the last acquisition, all of them. -/
def Alternates (l : List Tag) : Prop :=
  ∃ blocks : List Block, l = blocks.flatMap Block.tags ∧
    (∀ b ∈ blocks, b.conds.Nodup ∧ ∀ c ∈ b.conds, c ∈ b.labels) ∧
    ∀ b ∈ blocks.dropLast, ∀ c ∈ b.labels, c ∈ b.conds

/-! ### Latch resets -/

/-- The port-clocks on which conditionals with this label are played. -/
def readers (op : Op) (l : Label) : List PC :=
  ((acts op).flatMap (fun a => match a with
    | .cond c => if c.label = l then c.portclocks else []
    | .acq _ => [])).dedup

/-- The latch resets wanted for an acquisition that starts at `t`: 4 ns after its start, on each
port-clock that reads one of its labels. -/
def wantedOne (op : Op) (t : Rat) (q : AcqInfo) : List (Rat × PC) :=
  match q.proto with
  | .thresholded => if q.label = none then [] else (readers op q.label).map (fun pc => (t + q.t0 + 4, pc))
  | .trigCount _ _ =>
    if q.label = none then [] else (readers op q.label).map (fun pc => (t + q.t0 + 4, pc))
  | .dual => (((q.labels.filter Option.isSome).flatMap (readers op)).dedup).map
      (fun pc => (t + q.t0 + 4, pc))
  | _ => []

/-- The latch resets wanted because of something that happens, and those of the user. -/
def wanted (op : Op) (e : Rat × Happening) : List (Rat × PC) :=
  match e.2 with
  | .acq infos => infos.flatMap (wantedOne op e.1)
  | .cond _ => []
  | .latch pc => [(e.1, pc)]

/-- Latch resets that happen. -/
def latches (l : List (Rat × Happening)) : List (Rat × PC) :=
  l.filterMap (fun e => match e.2 with
    | .latch pc => some (e.1, pc)
    | _ => none)

/-- Everything else, without what the compiler fills in. -/
def others (l : List (Rat × Happening)) : List (Rat × Happening) :=
  l.filterMap (fun e => match e.2 with
    | .latch _ => none
    | .acq infos => some (e.1, .acq (infos.map AcqInfo.blank))
    | .cond c => some (e.1, .cond c.blank))

mutual
/-- The body of each loop is a schedule, and dual thresholded acquisitions start on a whole
nanosecond of the schedule they are in; `abs` is the time of the operation in that schedule. -/
def Regular : Op → Rat → Prop
  | .plain infos, abs => ∀ q ∈ infos, q.proto = .dual → ∃ n : Int, abs + q.t0 = n
  | .latch _, _ => True
  | .cond _ _, _ => True
  | .loop _ _ body, abs => (∃ items, body = .sched items) ∧ Regular body abs
  | .sched items, _ => RegularItems items
/-- The same for the operations of a schedule. -/
def RegularItems : Items → Prop
  | .nil => True
  | .cons abs op rest => Regular op abs ∧ RegularItems rest
end

end Verif.Conditional
