/-
What a user expects of a circuit diagram.
-/
import Verif.CircuitDiagram.Model

namespace Verif.CircuitDiagram

mutual
/-- The operations of a schedule with their times, in the order in which they were added. -/
def leaves : Rat → Node → List (Rat × Op)
  | t, .op o => [(t, o)]
  | t, .loop _ b => leaves t b
  | t, .cond _ _ b => leaves t b
  | t, .sched _ its => leavesItems t its
/-- The operations of schedulables. -/
def leavesItems : Rat → Items → List (Rat × Op)
  | _, .nil => []
  | t, .cons u n rest => leaves (t + u) n ++ leavesItems t rest
end

/-- The times. -/
def times (l : List (Rat × Op)) : List Rat := l.map Prod.fst

/-- A use of control flow: the operations that come before it, the control flow, the operations inside. -/
structure Use where
  before : List (Rat × Op)
  flow : Node
  inside : List (Rat × Op)

mutual
/-- The uses of control flow in a schedule. -/
def flows : List (Rat × Op) → Rat → Node → List Use
  | _, _, .op _ => []
  | pre, t, .loop r b => ⟨pre, .loop r b, leaves t b⟩ :: flows pre t b
  | pre, t, .cond l buf b => ⟨pre, .cond l buf b, leaves t b⟩ :: flows pre t b
  | pre, t, .sched _ its => flowsItems pre t its
/-- The uses of control flow in schedulables. -/
def flowsItems : List (Rat × Op) → Rat → Items → List Use
  | _, _, .nil => []
  | pre, t, .cons u n rest => flows pre (t + u) n ++ flowsItems (pre ++ leaves (t + u) n) t rest
end

/-- Not control flow. -/
def NotFlow : Node → Prop
  | .op _ => True
  | .sched _ _ => True
  | _ => False

mutual
/-- The body of control flow is an operation or a schedule. -/
def Simple : Node → Prop
  | .op _ => True
  | .loop _ b => NotFlow b ∧ Simple b
  | .cond _ _ b => NotFlow b ∧ Simple b
  | .sched _ its => SimpleItems its
/-- The same for schedulables. -/
def SimpleItems : Items → Prop
  | .nil => True
  | .cons _ n rest => Simple n ∧ SimpleItems rest
end

/-- An operation is a gate or pulses and acquisitions, not both. -/
def Pure (s : Node) : Prop := ∀ x ∈ leaves 0 s, x.2.gate ≠ none → x.2.pulses = [] ∧ x.2.acqs = []

/-! ### Lines -/

/-- A device element: a gate acts on it. -/
def IsElement (s : Node) (e : String) : Prop :=
  ∃ x ∈ leaves 0 s, ∃ g, x.2.gate = some g ∧ e ∈ g.elems

/-- A port: an operation that is not a gate has a pulse or an acquisition on it. -/
def IsPort (s : Node) (p : String) : Prop :=
  ∃ x ∈ leaves 0 s, x.2.gate = none ∧ ((∃ q ∈ x.2.pulses, q.port = some p) ∨ ∃ a ∈ x.2.acqs, a.port = p)

/-- The name before the first colon. -/
def Prefix (p e : String) : Prop :=
  ':' ∉ e.toList ∧ (p = e ∨ ∃ rest, p.toList = e.toList ++ ':' :: rest)

/-- A port that belongs to a device element. -/
def Owned (s : Node) (p : String) : Prop := ∃ e, Prefix p e ∧ IsElement s e

/-- A port that belongs to no device element. -/
def Foreign (s : Node) (p : String) : Prop := IsPort s p ∧ ¬ Owned s p

/-- The number of device elements before `e` in the alphabet. -/
def Rank (s : Node) (e : String) (k : Nat) : Prop :=
  ∃ l : List String, l.Nodup ∧ (∀ e', e' ∈ l ↔ IsElement s e' ∧ e' < e) ∧ k = l.length

/-- The line of a device element: in alphabetical order, with a line 0 for other ports if there are any. -/
def ElemLine (s : Node) (e : String) (n : Nat) : Prop :=
  IsElement s e ∧ ∃ k, Rank s e k ∧ (((∃ p, Foreign s p) ∧ n = k + 1) ∨ (¬ (∃ p, Foreign s p) ∧ n = k))

/-- The line of a port, as it should be: that of its device element, or line 0. -/
def PortLine (s : Node) (p : String) (n : Nat) : Prop :=
  IsPort s p ∧ ((¬ Owned s p ∧ n = 0) ∨ ∃ e, Prefix p e ∧ ElemLine s e n)

/-- The line of a port, as it is drawn: ports that the code comes across before the first that belongs to no device element
miss the line that is added for it. -/
def DrawnLine (order : List String) (s : Node) (p : String) (n : Nat) : Prop :=
  IsPort s p ∧ ((¬ Owned s p ∧ n = 0) ∨
    ∃ e k, Prefix p e ∧ IsElement s e ∧ Rank s e k ∧
      (((∃ a q b, order = a ++ p :: b ∧ q ∈ a ∧ Foreign s q) ∧ n = k + 1) ∨
       (¬ (∃ a q b, order = a ++ p :: b ∧ q ∈ a ∧ Foreign s q) ∧ n = k)))

/-- The number of lines. -/
def LineCount (s : Node) (n : Nat) : Prop :=
  ∃ l : List String, l.Nodup ∧ (∀ e, e ∈ l ↔ IsElement s e) ∧
    (((∃ p, Foreign s p) ∧ n = l.length + 1) ∨ (¬ (∃ p, Foreign s p) ∧ n = l.length))

/-- A possible order of the set of ports. -/
def IsOrder (order : List String) (s : Node) : Prop := order.Nodup ∧ ∀ p, p ∈ order ↔ IsPort s p

/-! ### Columns -/

/-- An operation at `t` starts after everything before it. -/
def Later (before : List Rat) (t : Rat) : Prop := 0 < t ∧ ∀ u ∈ before, u < t

instance (before : List Rat) (t : Rat) : Decidable (Later before t) := by unfold Later; infer_instance

/-- The number of times at which something starts after everything before it; `pre` comes before. -/
def stepsFrom (pre : List Rat) : List Rat → Nat
  | [] => 0
  | t :: rest => (if Later pre t then 1 else 0) + stepsFrom (pre ++ [t]) rest

/-- The number of times at which something starts after everything before it. -/
def steps (ts : List Rat) : Nat := stepsFrom [] ts

/-- The column in which the code draws an operation at `t`. -/
def column (before : List Rat) (t : Rat) : Rat := if Later before t then (steps before : Rat) + 1 else t

/-! ### What is drawn -/

/-- What is drawn for a gate at `x`, with the lines `E` of the device elements. -/
inductive GateDue (E : String → Nat → Prop) (g : Gate) (x : Rat) : Glyph → Prop where
  | box {e l} : g.plot = .gateBox → e ∈ g.elems → E e l → GateDue E g x (.mark (.box g.tex) x l)
  | reset {e l} : g.plot = .reset → e ∈ g.elems → E e l → GateDue E g x (.mark (.resetBox g.tex) x l)
  | meter {e l} : g.plot = .meter → e ∈ g.elems → E e l → GateDue E g x (.mark .meter x l)
  | acq {e l} : g.plot = .acqMeter ∨ g.plot = .acqMeterText → e ∈ g.elems → E e l → GateDue E g x (.mark .acqMeter x l)
  | acqText {e l} : g.plot = .acqMeterText → e ∈ g.elems → E e l → (∀ e' ∈ g.elems, ∀ l', E e' l' → l' ≤ l) →
      GateDue E g x (.mark (.text g.tex) x l)
  | baseband {e l} : g.plot = .pulseBaseband → e ∈ g.elems → E e l → GateDue E g x (.mark .baseband x l)
  | modulated {e l} : g.plot = .pulseModulated → e ∈ g.elems → E e l → GateDue E g x (.mark .modulated x l)
  | pulseText {e l} : g.plot = .pulseBaseband ∨ g.plot = .pulseModulated → e ∈ g.elems → E e l →
      GateDue E g x (.mark (.text g.tex) x l)
  | link {e e' l l'} : g.plot = .cnot ∨ g.plot = .cz → g.elems = [e, e'] → E e l → E e' l' → GateDue E g x (.link x l l')
  | plus {e e' l'} : g.plot = .cnot → g.elems = [e, e'] → E e' l' → GateDue E g x (.mark .plus x l')

/-- What is drawn for an operation at `x`, with the lines of the device elements and of the ports. -/
inductive Due (E P : String → Nat → Prop) (res : List (String × Rat)) (o : Op) (x : Rat) : Glyph → Prop where
  | gate {g y} : o.gate = some g → GateDue E g x y → Due E P res o x y
  | baseband {p q port l} : o.gate = none → p ∈ o.pulses → (p.clock, 0) ∈ res → q ∈ o.pulses → q.port = some port →
      P port l → Due E P res o x (.mark .baseband x l)
  | modulated {p q port l f} : o.gate = none → p ∈ o.pulses → (p.clock, f) ∈ res → f ≠ 0 → q ∈ o.pulses →
      q.port = some port → P port l → Due E P res o x (.mark .modulated x l)
  | name {q port l} : o.gate = none → q ∈ o.pulses → q.port = some port → P port l →
      Due E P res o x (.mark (.text o.name) x l)
  | acq {a l} : o.gate = none → o.pulses = [] → a ∈ o.acqs → P a.port l → Due E P res o x (.mark .acqMeter x l)

/-- An operation that can be drawn. -/
def Drawable (res : List (String × Rat)) (o : Op) : Prop :=
  match o.gate with
  | some g => (g.plot = .acqMeterText → g.elems ≠ []) ∧ (g.plot = .cnot ∨ g.plot = .cz → g.elems.length = 2) ∧
      (g.label ≠ none → g.elems ≠ [])
  | none => (o.pulses ≠ [] ∨ o.acqs ≠ []) ∧ ∀ p ∈ o.pulses, ∃ f, (p.clock, f) ∈ res

/-- The line is that of something inside. -/
def Involved (E P : String → Nat → Prop) (inside : List (Rat × Op)) (l : Nat) : Prop :=
  ∃ x ∈ inside, (∃ g e, x.2.gate = some g ∧ e ∈ g.elems ∧ E e l) ∨
    (∃ p port, p ∈ x.2.pulses ∧ p.port = some port ∧ P port l) ∨ (∃ a, a ∈ x.2.acqs ∧ P a.port l)

/-- What is drawn for a loop on `n` lines: one pair of brackets around all lines if something happens on all of them,
and one pair for each line otherwise. -/
inductive LoopDue (I : Nat → Prop) (n reps first last : Nat) : Glyph → Prop where
  | all : (∀ l < n, I l) →
      LoopDue I n reps first last (.brackets reps (first - 35 / 100) (last + 35 / 100) (-(3 / 10)) ((n : Rat) - 7 / 10))
  | single {l} : ¬ (∀ l < n, I l) → I l →
      LoopDue I n reps first last (.brackets reps (first - 35 / 100) (last + 35 / 100) (l - 3 / 10) (l + 3 / 10))

/-- The latest acquisition with a label: its column and its line. -/
def Measured (E P : String → Nat → Prop) (before : List (Rat × Op)) (label : String) (col line : Nat) : Prop :=
  ∃ pre x post, before = pre ++ x :: post ∧ col = steps (times (pre ++ [x])) ∧ HasLabel x.2 line ∧
    ∀ y ∈ post, ∀ l, ¬ HasLabel y.2 l
where
  /-- The operation is an acquisition or a gate with the label, on the line. -/
  HasLabel (o : Op) (line : Nat) : Prop :=
    (∃ a rest, o.acqs = a :: rest ∧ a.label = some label ∧ P a.port line) ∨
    (∃ g e rest, o.gate = some g ∧ g.label = some label ∧ g.elems = e :: rest ∧ E e line)

/-- What is drawn for a conditional operation: arrows from the measurement to the operation, or to a box around the
operations. -/
inductive CondDue (I : Nat → Prop) (n mcol mline first last : Nat) : Bool → Glyph → Prop where
  | op {l} : I l → CondDue I n mcol mline first last false (.arrow mcol (mline + 25 / 100) first (l + 25 / 100))
  | allRect : (∀ l < n, I l) → CondDue I n mcol mline first last true
      (.rect (first - 45 / 100) (-(45 / 100)) (last - first + 9 / 10) ((n : Rat) - 5 / 100))
  | allArrow : (∀ l < n, I l) → CondDue I n mcol mline first last true
      (.arrow mcol (mline + 25 / 100) (first - 45 / 100) ((n : Rat) - 6 / 10))
  | rect {l} : ¬ (∀ l < n, I l) → I l → CondDue I n mcol mline first last true
      (.rect (first - 45 / 100) (l - 45 / 100) (last - first + 9 / 10) (95 / 100))
  | arrow {l} : ¬ (∀ l < n, I l) → I l → CondDue I n mcol mline first last true
      (.arrow mcol (mline + 25 / 100) (first - 45 / 100) (l + 4 / 10))

/-- The body is a schedule. -/
def isSched : Node → Bool
  | .sched _ _ => true
  | _ => false

/-! ### Schedules in which each operation comes after or together with the one before -/

mutual
/-- Each operation is added at the end or at the start of the one before it. -/
def Seq : Node → Prop
  | .op _ => True
  | .loop _ b => Seq b
  | .cond _ _ b => Seq b
  | .sched _ its => SeqItems none its
/-- The same for schedulables; `prev` is the start and the end of the one before. -/
def SeqItems : Option (Rat × Rat) → Items → Prop
  | _, .nil => True
  | none, .cons t n rest => t = 0 ∧ Seq n ∧ SeqItems (some (t, t + depth n)) rest
  | some (a, b), .cons t n rest => (t = a ∨ t = b) ∧ Seq n ∧ SeqItems (some (t, t + depth n)) rest
end

mutual
/-- Gates only; nothing in it is repeated or has a buffer time; no schedule is empty. -/
def Plain : Node → Prop
  | .op o => o.dur = 0
  | .loop r b => r = 1 ∧ Plain b
  | .cond _ buf b => buf = 0 ∧ Plain b
  | .sched r its => r = 1 ∧ its ≠ .nil ∧ PlainItems its
/-- The same for schedulables. -/
def PlainItems : Items → Prop
  | .nil => True
  | .cons _ n rest => Plain n ∧ PlainItems rest
end

/-- A schedule whose only repetitions and buffer times are those of itself and of control flow that it directly
contains. -/
def PlainTop : Node → Prop
  | .sched _ its => PlainTopItems its
  | _ => False
where
  /-- The schedulables. -/
  PlainTopItems : Items → Prop
    | .nil => True
    | .cons _ (.loop _ b) rest => Plain b ∧ PlainTopItems rest
    | .cons _ (.cond _ _ b) rest => Plain b ∧ PlainTopItems rest
    | .cons _ n rest => Plain n ∧ PlainTopItems rest

end Verif.CircuitDiagram
