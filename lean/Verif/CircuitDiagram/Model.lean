/-
Circuit diagrams (quantify_scheduler/schedules/_visualization/circuit_diagram.py).

Simplifications:
* Floats are rationals.
* A schedule is given after `_determine_absolute_timing(deepcopy(schedule), "ideal")` (635): every schedulable has its
  absolute time.  The operations of a schedule are those of its schedulables.
* matplotlib is left out: a diagram is the list of what is drawn, with lines of device elements as y coordinates; colours,
  fonts, title, size of the figure are left out.
* A Python set of lines is a list without duplicates; the order in which the set of ports is iterated is an argument.
* `ScheduleBase` events of the walk, which are passed over (695-696), are left out.
* `plot_func` is one of the functions of this file.
-/
import Verif.Common.Dict
import Mathlib.Algebra.Order.Field.Rat
import Mathlib.Data.List.Dedup

namespace Verif.CircuitDiagram

/-- Exceptions. -/
inductive Err where
  | keyError | valueError | indexError | zeroDivision
deriving DecidableEq, Repr

/-- The plot functions of the gates (gate_library.py:69, 303, 597, 647, 705, 771, 880; nv_native_library.py:41, 114;
shared_native_library.py:34; spin_library.py:35). -/
inductive Plot where
  | gateBox | pulseBaseband | pulseModulated | meter | acqMeter | acqMeterText | cnot | cz | reset
deriving DecidableEq, Repr

/-- `gate_info`. -/
structure Gate where
  plot : Plot
  elems : List String
  tex : String
  label : Option String := none
deriving DecidableEq, Repr

/-- An entry of `pulse_info`. -/
structure Pulse where
  port : Option String
  clock : String
deriving DecidableEq, Repr

/-- An entry of `acquisition_info`. -/
structure Acq where
  port : String
  label : Option String := none
deriving DecidableEq, Repr

/-- An operation that is not control flow. -/
structure Op where
  name : String
  gate : Option Gate := none
  pulses : List Pulse := []
  acqs : List Acq := []
  dur : Rat := 0
deriving DecidableEq, Repr

mutual
/-- An operation, a loop, a conditional operation or a schedule. -/
inductive Node where
  | op (o : Op)
  | loop (reps : Nat) (body : Node)
  | cond (label : String) (buffer : Rat) (body : Node)
  | sched (reps : Nat) (items : Items)
/-- Schedulables with their absolute times. -/
inductive Items where
  | nil
  | cons (t : Rat) (n : Node) (rest : Items)
end

mutual
/-- Durations with ideal timing (operations/operation.py:150-157, control_flow_library.py:103-107, 199-204,
schedules/schedule.py:623-647): a schedule has the cached result of `get_schedule_duration` (compilation.py:186). -/
def duration : Node → Rat
  | .op o => o.dur
  | .loop r b => r * duration b
  | .cond _ buf b => duration b + buf
  | .sched r its => latest 0 its * r
/-- The latest end (635-644). -/
def latest : Rat → Items → Rat
  | m, .nil => m
  | m, .cons t n rest => latest (max (t + duration n) m) rest
end

/-- `get("depth", 1)` (compilation.py:187-188). -/
def ownDepth : Node → Rat
  | .sched r its => duration (.sched r its) + 1
  | _ => 1

/-- The duration that ideal timing uses (compilation.py:351-358). -/
def depth : Node → Rat
  | .loop _ b => ownDepth b
  | .cond _ _ b => ownDepth b
  | n => ownDepth n

/-- What `_walk_schedule` yields. -/
inductive Event where
  | op (t : Rat) (o : Op)
  | loop (reps : Nat) (body : Node)
  | cond (label : String) (body : Node)
  | loopEnd
  | condEnd

mutual
/-- `_walk_schedule` (304-330). -/
def walk : Rat → Node → List Event
  | t, .op o => [.op t o]
  | t, .loop r b => .loop r b :: (walkBody t b ++ [.loopEnd])
  | t, .cond l _ b => .cond l b :: (walkBody t b ++ [.condEnd])
  | t, .sched _ its => walkItems t its
/-- The body of control flow: only a schedule is walked (314-317, 321-324). -/
def walkBody : Rat → Node → List Event
  | t, .sched _ its => walkItems t its
  | t, .op o => [.op t o]
  | _, .loop r b => [.loop r b]
  | _, .cond l _ b => [.cond l b]
/-- The schedulables (307-311). -/
def walkItems : Rat → Items → List Event
  | _, .nil => []
  | t, .cons u n rest => walk (t + u) n ++ walkItems t rest
end

mutual
/-- `_walk_schedule_only_operations` (333-349). -/
def onlyOps : Node → List Op
  | .op o => [o]
  | .loop _ b => bodyOps b
  | .cond _ _ b => bodyOps b
  | .sched _ its => itemsOps its
/-- The body of control flow; control flow that is not in a schedule has no gate, pulse or acquisition of its own
(340-343).  These are also the operations that `_get_indices` (411-437) looks at. -/
def bodyOps : Node → List Op
  | .sched _ its => itemsOps its
  | .op o => [o]
  | _ => []
/-- The operations of a schedule (337-338). -/
def itemsOps : Items → List Op
  | .nil => []
  | .cons _ n rest => onlyOps n ++ itemsOps rest
end

/-- `port.split(":")[0]` (591). -/
def owner (port : String) : String := String.ofList (port.toList.takeWhile (fun c => c != ':'))

/-- The device elements of a gate (418, 575). -/
def elemsOf (o : Op) : List String := match o.gate with | some g => g.elems | none => []

/-- The device elements of the gates (574-576). -/
def gateElems (ops : List Op) : List String := ops.flatMap elemsOf

/-- The ports of operations that are not gates (577-581). -/
def opPorts (ops : List Op) : List String :=
  ops.flatMap (fun o => match o.gate with
    | some _ => []
    | none => o.pulses.filterMap (·.port) ++ o.acqs.map (·.port))

/-- Insertion into a sorted list without duplicates. -/
def insertSorted (e : String) : List String → List String
  | [] => [e]
  | a :: rest => if e < a then e :: a :: rest else if e = a then a :: rest else a :: insertSorted e rest

/-- `sorted(device_elements)` (584). -/
def sortedSet : List String → List String
  | [] => []
  | e :: rest => insertSorted e (sortedSet rest)

/-- `enumerate` (583-585). -/
def enumFrom : Nat → List String → List (String × Nat)
  | _, [] => []
  | k, e :: rest => (e, k) :: enumFrom (k + 1) rest

/-- `device_element_map`, `port_map`, `added_other` (583-588). -/
structure Maps where
  elems : List (String × Nat)
  ports : List (String × Nat)
  other : Bool

/-- One port (589-601). -/
def mapPort (elements : List String) (m : Maps) (port : String) : Maps :=
  if owner port ∈ elements then
    { m with ports := Dict.set m.ports port ((Dict.get? m.elems (owner port)).getD 0) }
  else if !m.other then
    { elems := Dict.set (m.elems.map (fun e => (e.1, e.2 + 1))) "other" 0
      ports := Dict.set m.ports port 0
      other := true }
  else { m with ports := Dict.set m.ports port ((Dict.get? m.elems "other").getD 0) }

/-- `_get_device_element_and_port_map_from_schedule` (569-602); `order` is the order in which the set of ports is
iterated. -/
def maps (order : List String) (s : Node) : Maps :=
  let els := gateElems (onlyOps s)
  order.foldl (mapPort els) ⟨enumFrom 0 (sortedSet els), [], false⟩

/-- What is drawn at a point of a line. -/
inductive Kind where
  | box (text : String) | resetBox (text : String) | meter | acqMeter | baseband | modulated | text (s : String) | plus
deriving DecidableEq, Repr

/-- What is drawn: a mark at (x, line), a vertical link between two lines with a dot on both, a pair of brackets with the
number of repetitions, a rectangle (lower left corner, width, height), an arrow. -/
inductive Glyph where
  | mark (k : Kind) (x : Rat) (line : Nat)
  | link (x : Rat) (a b : Nat)
  | brackets (reps : Nat) (left right : Rat) (bottom top : Rat)
  | rect (x y w h : Rat)
  | arrow (fromX fromY toX toY : Rat)
deriving DecidableEq, Repr

/-- `d[k]`. -/
def find {V : Type} (d : List (String × V)) (k : String) : Except Err V :=
  match Dict.get? d k with
  | some v => .ok v
  | none => .error .keyError

/-- `d[k]` for all `k`. -/
def findAll (d : List (String × Nat)) : List String → Except Err (List Nat)
  | [] => .ok []
  | k :: rest =>
    match find d k with
    | .error e => .error e
    | .ok v =>
      match findAll d rest with
      | .error e => .error e
      | .ok vs => .ok (v :: vs)

/-- The marks of a pulse on a line (69-93, 96-124). -/
def pulseMarks (modulated : Bool) (text : String) (x : Rat) (lines : List Nat) : List Glyph :=
  lines.flatMap (fun l => [.mark (if modulated then .modulated else .baseband) x l, .mark (.text text) x l])

/-- The plot functions (33-301). -/
def plotGate (x : Rat) (tex : String) (lines : List Nat) : Plot → Except Err (List Glyph)
  | .gateBox => .ok (lines.map (.mark (.box tex) x))
  | .pulseBaseband => .ok (pulseMarks false tex x lines)
  | .pulseModulated => .ok (pulseMarks true tex x lines)
  | .meter => .ok (lines.map (.mark .meter x))
  | .acqMeter => .ok (lines.map (.mark .acqMeter x))
  | .acqMeterText =>
    match lines with
    | [] => .error .valueError
    | l :: rest => .ok ((l :: rest).map (.mark .acqMeter x) ++ [.mark (.text tex) x (rest.foldl max l)])
  | .cnot =>
    match lines with
    | [a, b] => .ok [.link x a b, .mark .plus x b]
    | _ => .error .valueError
  | .cz =>
    match lines with
    | [a, b] => .ok [.link x a b]
    | _ => .error .valueError
  | .reset => .ok (lines.map (.mark (.resetBox tex) x))

/-- One pulse of an operation (374-380). -/
def drawPulses (res : List (String × Rat)) (x : Rat) (name : String) (lines : List Nat) :
    List Pulse → Except Err (List Glyph)
  | [] => .ok []
  | p :: rest =>
    match find res p.clock with
    | .error e => .error e
    | .ok f =>
      match drawPulses res x name lines rest with
      | .error e => .error e
      | .ok g => .ok (pulseMarks (decide (f ≠ 0)) name x lines ++ g)

/-- `_draw_operation` (352-387). -/
def drawOp (m : Maps) (res : List (String × Rat)) (x : Rat) (o : Op) : Except Err (List Glyph) :=
  match o.gate with
  | some g =>
    match findAll m.elems g.elems with
    | .error e => .error e
    | .ok ls => plotGate x g.tex ls g.plot
  | none =>
    if o.pulses ≠ [] then
      match findAll m.ports (o.pulses.filterMap (·.port)) with
      | .error e => .error e
      | .ok ls => drawPulses res x o.name ls.dedup o.pulses
    else if o.acqs ≠ [] then
      match findAll m.ports (o.acqs.map (·.port)) with
      | .error e => .error e
      | .ok ls => .ok (o.acqs.flatMap (fun _ => ls.dedup.map (.mark .acqMeter x)))
    else .error .valueError

/-- `port_map[info["port"]]`: there is no entry for `None`. -/
def pulseLines (m : Maps) : List Pulse → Except Err (List Nat)
  | [] => .ok []
  | p :: rest =>
    match p.port with
    | none => .error .keyError
    | some q =>
      match find m.ports q with
      | .error e => .error e
      | .ok v =>
        match pulseLines m rest with
        | .error e => .error e
        | .ok vs => .ok (v :: vs)

/-- `add_index_from_operation` (416-426). -/
def opLines (m : Maps) (o : Op) : Except Err (List Nat) :=
  match findAll m.elems (elemsOf o) with
  | .error e => .error e
  | .ok a =>
    match pulseLines m o.pulses with
    | .error e => .error e
    | .ok b =>
      match findAll m.ports (o.acqs.map (·.port)) with
      | .error e => .error e
      | .ok c => .ok (a ++ b ++ c)

/-- All operations of a body (434-435). -/
def linesOf (m : Maps) : List Op → Except Err (List Nat)
  | [] => .ok []
  | o :: rest =>
    match opLines m o with
    | .error e => .error e
    | .ok a =>
      match linesOf m rest with
      | .error e => .error e
      | .ok b => .ok (a ++ b)

/-- `_get_indices` (411-437). -/
def indices (m : Maps) (body : Node) : Except Err (List Nat) :=
  match linesOf m (bodyOps body) with
  | .error e => .error e
  | .ok l => .ok l.dedup

/-- `draw_brackets` (453-484). -/
def drawBrackets (reps : Nat) (start stop : Nat) (bottom top : Rat) : Glyph :=
  .brackets reps (start - 35 / 100) (stop + 35 / 100) (bottom - 3 / 10) (top + 3 / 10)

/-- `_draw_loop` (440-491); the fraction of the height (466, 477) is a division by zero if there are no lines. -/
def drawLoop (m : Maps) (reps : Nat) (body : Node) (start stop : Nat) : Except Err (List Glyph) :=
  match indices m body with
  | .error e => .error e
  | .ok ls =>
    if ls.length = m.elems.length then
      if m.elems.length = 0 then .error .zeroDivision
      else .ok [drawBrackets reps start stop 0 ((m.elems.length : Rat) - 1)]
    else .ok (ls.map (fun l : Nat => drawBrackets reps start stop l l))

/-- `draw_rectangle_with_arrow` (525-545). -/
def rectArrow (mt ml start stop : Nat) (bottom top : Rat) : List Glyph :=
  [.rect (start - 45 / 100) (bottom - 45 / 100) (stop - start + 9 / 10) (top - bottom + 95 / 100),
   .arrow mt (ml + 25 / 100) (start - 45 / 100) (top + 4 / 10)]

/-- `_draw_conditional` (494-566); the label "m=1" is left out. -/
def drawCond (m : Maps) (mt ml : Nat) (body : Node) (start stop : Nat) : Except Err (List Glyph) :=
  match indices m body with
  | .error e => .error e
  | .ok ls =>
    match body with
    | .sched _ _ =>
      if ls.length = m.elems.length then .ok (rectArrow mt ml start stop 0 ((m.elems.length : Rat) - 1))
      else .ok (ls.flatMap (fun l : Nat => rectArrow mt ml start stop l l))
    | _ => .ok (ls.map (fun l : Nat => .arrow mt (ml + 25 / 100) start (l + 25 / 100)))

/-- The variables of the loop (651-659). -/
structure St where
  cur : Nat := 0
  last : Rat := 0
  loops : List (Nat × Nat × Node) := []
  conds : List (Nat × String × Node) := []
  fb : List (String × Nat × Nat) := []
  out : List Glyph := []

/-- `_get_feedback_label_and_device_element_idx` (605-623), for a gate. -/
def gateFeedback (m : Maps) (o : Op) : Except Err (Option (String × Nat)) :=
  match o.gate with
  | none => .ok none
  | some g =>
    match g.label with
    | none => .ok none
    | some l =>
      match g.elems with
      | [] => .error .indexError
      | e :: _ =>
        match find m.elems e with
        | .error e => .error e
        | .ok v => .ok (some (l, v))

/-- `_get_feedback_label_and_device_element_idx` (605-623). -/
def feedback (m : Maps) (o : Op) : Except Err (Option (String × Nat)) :=
  match o.acqs with
  | [] => gateFeedback m o
  | a :: _ =>
    match a.label with
    | none => gateFeedback m o
    | some l =>
      match find m.ports a.port with
      | .error e => .error e
      | .ok v => .ok (some (l, v))

/-- An operation at its time (665-694). -/
def stepOp (m : Maps) (res : List (String × Rat)) (t : Rat) (o : Op) (s : St) : Except Err St :=
  let new := decide (s.last < t)
  let cur := if new then s.cur + 1 else s.cur
  let last := if new then t else s.last
  let x : Rat := if new then cur else t
  match feedback m o with
  | .error e => .error e
  | .ok f =>
    let fb := match f with
      | none => s.fb
      | some (l, line) => Dict.set s.fb l (cur, line)
    match drawOp m res x o with
    | .error e => .error e
    | .ok g => .ok { s with cur := cur, last := last, fb := fb, out := s.out ++ g }

/-- The loop over the walk (660-722). -/
def step (m : Maps) (res : List (String × Rat)) (s : St) : Event → Except Err St
  | .loop r b => .ok { s with loops := (s.cur + 1, r, b) :: s.loops }
  | .cond l b => .ok { s with conds := (s.cur + 1, l, b) :: s.conds }
  | .op t o => stepOp m res t o s
  | .loopEnd =>
    match s.loops with
    | [] => .error .indexError
    | (start, r, b) :: rest =>
      match drawLoop m r b start s.cur with
      | .error e => .error e
      | .ok g => .ok { s with loops := rest, out := s.out ++ g }
  | .condEnd =>
    match s.conds with
    | [] => .error .indexError
    | (start, l, b) :: rest =>
      match find s.fb l with
      | .error e => .error e
      | .ok (mt, ml) =>
        match drawCond m mt ml b start s.cur with
        | .error e => .error e
        | .ok g => .ok { s with conds := rest, out := s.out ++ g }

/-- All events. -/
def run (m : Maps) (res : List (String × Rat)) : St → List Event → Except Err St
  | s, [] => .ok s
  | s, e :: rest =>
    match step m res s e with
    | .error err => .error err
    | .ok s' => run m res s' rest

/-- A diagram: the lines with their names (647-651), what is drawn, the limits of the x axis (724). -/
structure Diagram where
  lines : List (String × Nat)
  glyphs : List Glyph
  left : Rat
  right : Rat

/-- `circuit_diagram_matplotlib` (626-726). -/
def diagram (order : List String) (res : List (String × Rat)) (s : Node) : Except Err Diagram :=
  match run (maps order s) res {} (walk 0 s) with
  | .error e => .error e
  | .ok st => .ok ⟨(maps order s).elems, st.out, -1, st.cur + 1⟩

end Verif.CircuitDiagram
