/-
The compiler: `QuantifyCompiler.compile` and `SerialCompiler` (backends/graph_compilation.py), with Python objects and
their identities.

Simplifications:
* Objects (schedules, operations, dictionaries, lists, configurations) are lists of fields; a field is an atom (number,
  string, class, function: immutable) or a reference.  Keys of dictionaries are strings.
* A compilation pass is any deterministic program that terminates, knows the schedule and the configuration, and
  accesses objects through references that it knows: it may read, write and delete fields, list keys, compare
  references and make new objects.  It cannot see addresses.
* `copy.deepcopy` is modelled as the library implements it: a memo of copies, the copy entered before its fields.
  That schedules and operations go through `__getstate__` and `__setstate__` (which keep `data`, C45) is left out.
* `networkx.shortest_path` is any function that gives a shortest path if there is one.
* The flag `keep_original_schedule` and the list of passes of the configuration are read before the passes run.
-/
import Verif.Common.Dict

namespace Verif.Compile

/-! ### Objects; addresses are numbers -/

/-- What a field contains. -/
inductive Val (A : Type) where
  | atom (a : A)
  | ref (a : Nat)
deriving DecidableEq, Repr

/-- An object. -/
abbrev Obj (A : Type) := List (String × Val A)

/-- All objects; the address is the position. -/
abbrev Heap (A : Type) := List (Obj A)

/-- Exceptions. -/
inductive Err where
  | recursionError
  | attributeError
  | nodeNotFound
  | compilationError
  /-- raised by a pass -/
  | raised (n : Nat)
deriving DecidableEq, Repr

variable {A : Type}

/-! ### Copies (`copy.deepcopy`) -/

/-- State while copying: the objects, and which copies there are. -/
abbrev Copying (A : Type) := Heap A × List (Nat × Nat)

/-- The fields of an object, one after the other. -/
def copyFields (f : Copying A → Val A → Except Err (Val A × Copying A)) :
    Copying A → Obj A → Except Err (Obj A × Copying A)
  | st, [] => .ok ([], st)
  | st, (k, v) :: fs => (f st v).bind (fun r => (copyFields f r.2 fs).bind (fun s => .ok ((k, r.1) :: s.1, s.2)))

/-- `deepcopy(x, memo)`, with a limit of the depth of recursion. -/
def copyVal : Nat → Copying A → Val A → Except Err (Val A × Copying A)
  | 0, st, .atom a => .ok (.atom a, st)
  | 0, _, .ref _ => .error .recursionError
  | _ + 1, st, .atom a => .ok (.atom a, st)
  | n + 1, st, .ref a =>
    match st.2.lookup a with
    | some b => .ok (.ref b, st)
    | none =>
      match st.1[a]? with
      | none => .error .attributeError
      | some o =>
        (copyFields (copyVal n) (st.1 ++ [[]], st.2 ++ [(a, st.1.length)]) o).bind (fun r =>
          .ok (.ref st.1.length, (r.2.1.set st.1.length r.1, r.2.2)))

/-! ### Passes -/

/-- What a program sees of a field. -/
inductive View (A : Type) where
  | missing
  | atom (a : A)
  | ref
deriving DecidableEq, Repr

def Val.view : Val A → View A
  | .atom a => .atom a
  | .ref _ => .ref

/-- Programs.  They refer to the values they know by number. -/
inductive Prog (A : Type) where
  /-- return a value -/
  | ret (i : Nat)
  | raise (n : Nat)
  /-- read a field; if there is one, its value is known from now on -/
  | read (i : Nat) (k : String) (next : View A → Prog A)
  /-- the names of the fields, in order -/
  | keys (i : Nat) (next : List String → Prog A)
  /-- `is` -/
  | same (i j : Nat) (next : Bool → Prog A)
  | write (i : Nat) (k : String) (j : Nat) (next : Prog A)
  | delete (i : Nat) (k : String) (next : Prog A)
  /-- a literal -/
  | const (a : A) (next : Prog A)
  /-- a new object without fields -/
  | new (next : Prog A)

/-- The object that is known by this number. -/
def target (h : Heap A) (known : List (Val A)) (i : Nat) : Option (Nat × Obj A) :=
  match known[i]? with
  | some (.ref a) => (h[a]?).map (fun o => (a, o))
  | _ => none

/-- Are they the same object? -/
def isSame (known : List (Val A)) (i j : Nat) : Bool :=
  match known[i]?, known[j]? with
  | some (.ref a), some (.ref b) => a == b
  | _, _ => false

/-- Execution: the objects afterwards (also after an exception), and the result. -/
def run : Prog A → Heap A → List (Val A) → Heap A × Except Err (Val A)
  | .ret i, h, known =>
    match known[i]? with
    | some v => (h, .ok v)
    | none => (h, .error .attributeError)
  | .raise n, h, _ => (h, .error (.raised n))
  | .read i k next, h, known =>
    match target h known i with
    | none => (h, .error .attributeError)
    | some (_, o) =>
      match Dict.get? o k with
      | none => run (next .missing) h known
      | some v => run (next v.view) h (known ++ [v])
  | .keys i next, h, known =>
    match target h known i with
    | none => (h, .error .attributeError)
    | some (_, o) => run (next (o.map Prod.fst)) h known
  | .same i j next, h, known => run (next (isSame known i j)) h known
  | .write i k j next, h, known =>
    match target h known i, known[j]? with
    | some (a, o), some v => run next (h.set a (Dict.set o k v)) known
    | _, _ => (h, .error .attributeError)
  | .delete i k next, h, known =>
    match target h known i with
    | none => (h, .error .attributeError)
    | some (a, o) => run next (h.set a (o.filter (fun e => e.1 != k))) known
  | .const a next, h, known => run next h (known ++ [.atom a])
  | .new next, h, known => run next (h ++ [[]]) (known ++ [.ref h.length])

/-! ### The compiler (graph_compilation.py:346-608) -/

/-- `SimpleNode` (graph_compilation.py:346-379).  Nodes are compared by identity. -/
structure Node (A : Type) where
  id : Nat
  name : String
  func : Prog A

/-- State of a `SerialCompiler` (graph_compilation.py:400-412): how many nodes were made so far, the designated nodes,
the edges of the graph. -/
structure Compiler (A : Type) where
  made : Nat
  input : Option (Node A)
  output : Option (Node A)
  edges : List (Node A × Node A)

/-- Passes: name and function. -/
abbrev Pass (A : Type) := String × Prog A

/-- A `SerialCompilationConfig` (graph_compilation.py:228-276, 611-636), and the object that the passes get. -/
structure Config (A : Type) where
  keep : Bool
  device : Option (List (Pass A))
  hardware : Option (List (Pass A))
  obj : Val A

/-- graph_compilation.py:547-551 -/
def Config.passes (c : Config A) : List (Pass A) := c.device.getD [] ++ c.hardware.getD []

/-- The loop of `construct_graph` (graph_compilation.py:553-565). -/
def addNodes (c : Compiler A) (last : Option (Node A)) : List (Pass A) → Compiler A × Option (Node A)
  | [] => (c, last)
  | p :: ps =>
    match last with
    | none => addNodes { c with made := c.made + 1, input := some ⟨c.made, p.1, p.2⟩ } (some ⟨c.made, p.1, p.2⟩) ps
    | some m =>
      addNodes { c with made := c.made + 1, edges := c.edges ++ [(m, ⟨c.made, p.1, p.2⟩)] }
        (some ⟨c.made, p.1, p.2⟩) ps

/-- `construct_graph` (graph_compilation.py:533-567). -/
def construct (c : Compiler A) (ps : List (Pass A)) : Compiler A :=
  { (addNodes { c with edges := [] } none ps).1 with output := (addNodes { c with edges := [] } none ps).2 }

/-- `networkx.shortest_path` -/
abbrev PathFinder (A : Type) := List (Node A × Node A) → Node A → Node A → Option (List (Node A))

/-- The nodes that are executed (graph_compilation.py:585-593). -/
def pathOf (sp : PathFinder A) (c : Compiler A) : Except Err (List (Node A)) :=
  match c.input, c.output with
  | some n, some m =>
    if n.id = m.id then .ok [n]
    else match sp c.edges n m with
      | some p => .ok p
      | none => .error .compilationError
  -- the path consists of `None`, which has no method `compile`
  | none, none => .error .attributeError
  -- the input node is not in the graph
  | _, _ => .error .nodeNotFound

/-- The passes, one after the other (graph_compilation.py:595-600). -/
def runAll : List (Node A) → Heap A → Val A → Val A → Heap A × Except Err (Val A)
  | [], h, s, _ => (h, .ok s)
  | n :: ns, h, s, c =>
    match run n.func h [s, c] with
    | (h', .ok s') => runAll ns h' s' c
    | (h', .error e) => (h', .error e)

/-- `schedule["compiled_instructions"] = {}` (graph_compilation.py:451) -/
def reset : Prog A :=
  .read 0 "data" (fun
    | .ref => .new (.write 1 "compiled_instructions" 2 (.ret 0))
    | _ => .raise 0)


/-- `CompiledSchedule(schedule)` unless it is one (graph_compilation.py:602-608, schedules/schedule.py:1042-1060;
the hardware timing table and waveforms, kept as attributes, are left out). -/
def mark (isCompiled : A → Bool) (compiledClass : A) : Prog A :=
  .read 0 "class" (fun
    | .atom a =>
      if isCompiled a then .ret 0
      else
        .read 0 "data" (fun
          | .ref =>
            -- known: schedule, class, data
            .keys 2 (fun ks =>
              .new (.new (.const compiledClass (.new
                -- known: schedule, class, data, compiled schedule, its data, its class, its instructions
                (.write 3 "class" 5 (.write 3 "data" 4 (.write 4 "compiled_instructions" 6
                  (updateAll 7 ks))))))))
          | _ => .raise 1)
    | _ => .raise 1)
where
  /-- `self.data.update(schedule.data)`; `n` values are known. -/
  updateAll (n : Nat) : List String → Prog A
    | [] => .ret 3
    | k :: ks =>
      .read 2 k (fun
        | .missing => updateAll n ks
        | _ => .write 4 k n (updateAll (n + 1) ks))

/-- What the compiler does with the schedule or its copy (graph_compilation.py:450-452, 569-608). -/
def inner (sp : PathFinder A) (isCompiled : A → Bool) (compiledClass : A) (c : Compiler A) (h : Heap A) (s : Val A)
    (cfg : Config A) : Compiler A × Heap A × Except Err (Val A) :=
  match run reset h [s] with
  | (h1, .error e) => (c, h1, .error e)
  | (h1, .ok s1) =>
    match pathOf sp (construct c cfg.passes) with
    | .error e => (construct c cfg.passes, h1, .error e)
    | .ok p =>
      match runAll p h1 s1 cfg.obj with
      | (h2, .error e) => (construct c cfg.passes, h2, .error e)
      | (h2, .ok s2) => (construct c cfg.passes, run (mark isCompiled compiledClass) h2 [s2])

/-- `compile` (graph_compilation.py:414-452); `depth` is the limit of recursion. -/
def compile (sp : PathFinder A) (isCompiled : A → Bool) (compiledClass : A) (depth : Nat) (c : Compiler A) (h : Heap A)
    (s : Val A) (cfg : Config A) : Compiler A × Heap A × Except Err (Val A) :=
  if cfg.keep then
    match copyVal depth (h, []) s with
    | .error e => (c, h, .error e)
    | .ok (s', h', _) => inner sp isCompiled compiledClass c h' s' cfg
  else inner sp isCompiled compiledClass c h s cfg

end Verif.Compile
