/-
Writing the settings of devices of Zurich Instruments to files and reading them back
(quantify_scheduler/backends/zhinst/settings.py:157-312).

Simplifications: those of `Verif.ZiPrepare.Model` (a node is the list of its segments; whether a text is part of a node
is whether these segments follow each other); numbers are written to and read from texts exactly; a setting has one of the
values that `ZISettingsBuilder` makes for its node, other values are a TypeError; the names `name`, `serial`, `type` and
`compiler/sourcestring` are not nodes.
-/
import Verif.ZiPrepare.Model

namespace Verif.ZiFiles

open Verif.ZiPrepare

/-- Exceptions. -/
inductive Err where
  | valueError | typeError | indexError | assertion | notFound
deriving DecidableEq, Repr

/-- The files (settings.py:189, 209, 228, 236): waveforms, command tables, programs, and the settings. The index of a
command table is not converted to a number (207-208). -/
inductive File where
  | wave (instr : String) (awg wave : Nat)
  | table (instr : String) (awg : Seg)
  | seqc (instr : String) (awg : Nat)
  | settings (instr : String)
deriving DecidableEq, Repr

/-- A value in the file of the settings. `cplx` is the text of a complex number, `file` the path of a file. -/
inductive J where
  | num (q : Rat) | text (s : String) | vec (l : List Rat) | cplx (re im : Rat) | file (f : File)
deriving DecidableEq, Repr

/-- The contents of a file: rows of numbers, a text as JSON, a text, or the settings. -/
inductive Content where
  | rows (l : List (Rat × Rat))
  | json (s : String)
  | text (s : String)
  | settings (name serial type : String) (nodes : List (Node × J)) (programs : List (Nat × File))
deriving DecidableEq, Repr

/-- The files that exist. -/
abbrev Fs := List (File × Content)

/-- Whether `a/b` is in the node. -/
def hasPair (a b : String) : Node → Bool
  | .name x :: .name y :: rest => (x == a && y == b) || hasPair a b (.name y :: rest)
  | _ :: rest => hasPair a b rest
  | [] => false

/-- Whether `a/` is in the node. -/
def hasBefore (a : String) : Node → Bool
  | .name x :: y :: rest => x == a || hasBefore a (y :: rest)
  | _ :: rest => hasBefore a rest
  | [] => false

/-- What is distinguished (settings.py:183-220, 272-302). -/
inductive Kind where
  | wave | table | weights | rotation | other
deriving DecidableEq, Repr

/-- The tests, in this order (settings.py:184, 206, 214, 216 and 273, 282, 287, 295). -/
def kindOf (n : Node) : Kind :=
  if hasPair "waveform" "waves" n then .wave
  else if hasPair "commandtable" "data" n then .table
  else if hasPair "integration" "weights" n then .weights
  else if hasBefore "rotations" n then .rotation
  else .other

/-- `int(segment)`. -/
def int : Option Seg → Except Err Nat
  | some (.index n) => .ok n
  | some _ => .error .valueError
  | none => .error .indexError

/-- One setting in `serialize` (settings.py:182-220): the value in the file of the settings, and the file that is written. -/
def write (name : String) (d : Daq) : Except Err (J × Option (File × Content)) :=
  match kindOf d.node with
  | .wave =>
    match int d.node[1]?, int d.node.getLast? with
    | .ok a, .ok w =>
      match d.value with
      | .wave [] => .error .valueError
      | .wave l => .ok (.file (.wave name a w), some (.wave name a w,
          .rows (l.map fun p => ((p.1 : Rat) / (2 ^ 15 - 1), (p.2 : Rat) / (2 ^ 15 - 1)))))
      | _ => .error .typeError
    | .error e, _ => .error e
    | _, .error e => .error e
  | .table =>
    match d.node[1]?, d.value with
    | some a, .text s => .ok (.file (.table name a), some (.table name a, .json s))
    | none, _ => .error .indexError
    | _, _ => .error .typeError
  | .weights =>
    match d.value with
    | .vec l => .ok (.vec l, none)
    | _ => .error .typeError
  | .rotation =>
    match d.value with
    | .cplx a b => .ok (.cplx a b, none)
    | _ => .error .typeError
  | .other =>
    match d.value with
    | .num q => .ok (.num q, none)
    | .text s => .ok (.text s, none)
    | _ => .error .typeError

/-- A file is written. -/
def put (fs : Fs) : Option (File × Content) → Fs
  | some e => Dict.set fs e.1 e.2
  | none => fs

/-- All settings (settings.py:182-220): the collection (220) and the files. -/
def writeDaqs (name : String) : List Daq → List (Node × J) → Fs → Except Err (List (Node × J) × Fs)
  | [], c, fs => .ok (c, fs)
  | d :: rest, c, fs =>
    match write name d with
    | .error e => .error e
    | .ok (j, f) => writeDaqs name rest (Dict.set c d.node j) (put fs f)

/-- The programs (settings.py:222-234). -/
def writePrograms (name : String) : List (Nat × String) → List (Nat × File) → Fs → List (Nat × File) × Fs
  | [], c, fs => (c, fs)
  | e :: rest, c, fs =>
    writePrograms name rest (Dict.set c e.1 (.seqc name e.1)) (Dict.set fs (.seqc name e.1) (.text e.2))

/-- `serialize` (settings.py:157-240). -/
def serialize (name serial type : String) (s : Settings) (fs : Fs) : Except Err Fs :=
  match writeDaqs name s.daq [] fs with
  | .error e => .error e
  | .ok (c, fs) =>
    let p := writePrograms name s.awg [] fs
    .ok (Dict.set p.2 (.settings name) (.settings name serial type c p.1))

/-- `zi_types.DeviceType(type.upper())` (settings.py:265-266, types/zhinst.py:23-31; no text in capitals is "none"): whether
it is a UHFQA. -/
def deviceType (type : String) : Except Err Bool :=
  if ["HDAWG", "UHFQA", "UHFLI", "MFLI", "PQSC"].contains type.toUpper then .ok (type.toUpper == "UHFQA")
  else .error .valueError

/-- `qas/0/rotations/<k>` (settings.py:884). -/
def rotationNode (k : Nat) : Node := [.name "qas", .index 0, .name "rotations", .index k]

/-- The value of a node in a file as it is. -/
def plain : J → Val
  | .num q => .num q
  | .text s => .text s
  | .vec l => .vec l
  | .cplx a b => .cplx a b
  | .file _ => .text "path"

/-- One node in `deserialize` (settings.py:272-312): the settings that are added. -/
def read (uhfqa : Bool) (fs : Fs) (n : Node) (j : J) : Except Err (List Daq) :=
  match kindOf n with
  | .wave =>
    match int n[1]?, int n.getLast? with
    | .ok a, .ok w =>
      match j with
      | .file f =>
        match Dict.get? fs f with
        | some (.rows l) =>
          -- `np.loadtxt` returns one row as a vector
          .ok [⟨waveNode a w, match l with | [p] => .vec [p.1, p.2] | l => .samples l,
            if uhfqa then .void else .setVector⟩]
        | some _ => .error .valueError
        | none => .error .notFound
      | _ => .error .typeError
    | .error e, _ => .error e
    | _, .error e => .error e
  | .table =>
    match int n[1]?, j with
    | .ok a, .file f =>
      match Dict.get? fs f with
      | some (.json s) => .ok [⟨tableNode a, .text s, .setVector⟩]
      | some _ => .error .valueError
      | none => .error .notFound
    | .error e, _ => .error e
    | _, _ => .error .typeError
  | .weights =>
    match int n[4]?, j with
    | .ok k, .vec l =>
      match n.getLast? with
      | some (.name "real") =>
        if 4096 < l.length then .error .assertion else if 10 ≤ k then .error .valueError
        else .ok [⟨weightNode false k, .vec l, .setVector⟩]
      | some (.name "imag") =>
        if 4096 < l.length then .error .assertion else if 10 ≤ k then .error .valueError
        else .ok [⟨weightNode true k, .vec l, .setVector⟩]
      | _ => .ok []
    | .error e, _ => .error e
    | _, _ => .error .typeError
  | .rotation =>
    match int n.getLast?, j with
    | .ok k, .cplx a b => .ok [⟨rotationNode k, .cplx a b, .setValue⟩]
    | .error e, _ => .error e
    | _, _ => .error .typeError
  | .other => .ok [⟨n, plain j, .setValue⟩]

/-- All nodes (settings.py:272-312). -/
def readDaqs (uhfqa : Bool) (fs : Fs) : List (Node × J) → Except Err (List Daq)
  | [] => .ok []
  | e :: rest =>
    match read uhfqa fs e.1 e.2 with
    | .error e => .error e
    | .ok l =>
      match readDaqs uhfqa fs rest with
      | .error e => .error e
      | .ok m => .ok (l ++ m)

/-- The programs (settings.py:303-309). -/
def readPrograms (fs : Fs) : List (Nat × File) → Except Err (List (Nat × String))
  | [] => .ok []
  | e :: rest =>
    match Dict.get? fs e.2 with
    | some (.text s) =>
      match readPrograms fs rest with
      | .error e => .error e
      | .ok m => .ok ((e.1, s) :: m)
    | some _ => .error .valueError
    | none => .error .notFound

/-- `deserialize` (settings.py:241-312). -/
def deserialize (fs : Fs) : File → Except Err Builder
  | .settings name =>
    match Dict.get? fs (.settings name) with
    | some (.settings _ _ type nodes programs) =>
      match deviceType type with
      | .error e => .error e
      | .ok uhfqa =>
        match readDaqs uhfqa fs nodes with
        | .error e => .error e
        | .ok daq =>
          match readPrograms fs programs with
          | .error e => .error e
          | .ok awg => .ok { daq, awg }
    | some _ => .error .valueError
    | none => .error .notFound
  | _ => .error .valueError

end Verif.ZiFiles
