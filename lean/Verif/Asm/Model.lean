/-
Inline assembly: a block of Q1ASM that the user puts into a schedule
(backends/qblox/operations/inline_q1asm.py, operation_handling/q1asm_injection_strategy.py,
`QASMProgram.parse_program_line`).

Simplifications:
* Names are lists of characters.
* The regular expression of a line is a relation (`Matches`), built up like the expression; that it determines its
  groups is proved (`matches_unique`).
* The check of register names in `free_register` (register_manager.py:85-121) is left out: names come from the list of
  available registers.
* Waveforms: see `addBlock`, on top of C27.
-/
import Verif.Numeric.Model
import Verif.Waves.Model

namespace Verif.Asm

/-- Names, arguments and other text. -/
abbrev Name := List Char

/-- Exceptions. -/
inductive Err where
  /-- out of registers -/
  | indexError
  /-- register freed twice, duplicate waveform -/
  | runtimeError
deriving DecidableEq, Repr

/-! ### Lines (qasm_program.py:601-671) -/

/-- One line, parsed: `(instruction, arguments, label, comment)`. -/
structure Line where
  label : Option Name
  instr : Name
  args : List Name
  comment : Name
deriving DecidableEq, Repr

/-- `[ \t]` -/
def isWs (c : Char) : Bool := c = ' ' || c = '\t'

/-- `[a-zA-Z_]` -/
def isAlpha (c : Char) : Bool := c.isAlpha || c = '_'

/-- `[a-zA-Z0-9_]` -/
def isAlnum (c : Char) : Bool := c.isAlphanum || c = '_'

/-- `[a-z_]` -/
def isLower (c : Char) : Bool := c.isLower || c = '_'

/-- `label_regex` (qasm_program.py:646) -/
def IsLabel (s : Name) : Prop := ∃ c r, s = c :: r ∧ isAlpha c = true ∧ ∀ x ∈ r, isAlnum x = true

/-- `argument_regex` (qasm_program.py:647) -/
inductive IsArg : Name → Prop
  | num (d : Name) : d ≠ [] → (∀ c ∈ d, c.isDigit = true) → IsArg d
  | reg (d : Name) : d ≠ [] → (∀ c ∈ d, c.isDigit = true) → IsArg ('R' :: d)
  | label (l : Name) : IsLabel l → IsArg ('@' :: l)

/-- `{argument_regex}+` -/
def IsArgs (s : Name) : Prop := ∃ as : List Name, as ≠ [] ∧ (∀ a ∈ as, IsArg a) ∧ s = as.flatten

/-- `({argument_regex}+,({white_space})?)*{argument_regex}` (qasm_program.py:648) -/
inductive IsArgList : Name → Prop
  | last (a : Name) : IsArg a → IsArgList a
  | cons (a w s : Name) : IsArgs a → (∀ c ∈ w, isWs c = true) → IsArgList s → IsArgList (a ++ ',' :: w ++ s)

/-- The groups `instruction` and `arguments` (qasm_program.py:655). -/
inductive IsBody : Name → Name → Name → Prop
  | none : IsBody [] [] []
  | instr (i : Name) : i ≠ [] → (∀ c ∈ i, isLower c = true) → IsBody i i []
  | args (i w s : Name) : i ≠ [] → (∀ c ∈ i, isLower c = true) → w ≠ [] → (∀ c ∈ w, isWs c = true) →
      IsArgList s → IsBody (i ++ (w ++ s)) i (w ++ s)

/-- The group `label` (qasm_program.py:653). -/
inductive IsLabelled : Name → Option Name → Prop
  | none : IsLabelled [] none
  | some (l : Name) : IsLabel l → IsLabelled (l ++ [':']) (some l)

/-- The group `comment` (qasm_program.py:650, 657). -/
inductive IsComment : Name → Name → Prop
  | none : IsComment [] []
  | some (c : Name) : '\n' ∉ c → IsComment ('#' :: c) c

/-- `str.split(",")` -/
def splitComma : Name → List Name
  | [] => [[]]
  | c :: cs =>
    if c = ',' then [] :: splitComma cs
    else match splitComma cs with
      | [] => [[c]]
      | h :: t => (c :: h) :: t

/-- `str.strip()`, for blanks and tabs. -/
def strip (s : Name) : Name := ((s.dropWhile isWs).reverse.dropWhile isWs).reverse

/-- `re.fullmatch(line_regex, program_line)` and what is made of the groups (qasm_program.py:651-671). -/
def Matches (s : Name) (l : Line) : Prop :=
  ∃ w₁ lab w₂ body args w₃ com c, s = w₁ ++ (lab ++ (w₂ ++ (body ++ (w₃ ++ com)))) ∧
    (∀ c ∈ w₁, isWs c = true) ∧ (∀ c ∈ w₂, isWs c = true) ∧ (∀ c ∈ w₃, isWs c = true) ∧
    IsLabelled lab l.label ∧ IsBody body l.instr args ∧ IsComment com c ∧
    l.args = (if args = [] then [] else (splitComma args).map strip) ∧ l.comment = strip c

/-! ### The block in the program (q1asm_injection_strategy.py:59-101) -/

/-- A program: the lines so far, the available registers, the elapsed time. -/
structure Qasm where
  instrs : List Line
  avail : List Name
  elapsed : Int

/-- `line was empty` (q1asm_injection_strategy.py:77-79). -/
def Line.blank (l : Line) : Bool :=
  l.label.isNone && l.instr.isEmpty && l.args.isEmpty && l.comment.isEmpty

/-- Registers of the block and what they are mapped to, and the available registers. -/
abbrev RegMap := List (Name × Name) × List Name

/-- One argument (q1asm_injection_strategy.py:83-93; `allocate_register`, register_manager.py:18-38). -/
def mapArg (pre : Name) (st : RegMap) : Name → Except Err (Name × RegMap)
  | [] => .error .indexError
  | 'R' :: n =>
    match st.1.lookup ('R' :: n) with
    | some r => .ok (r, st)
    | none =>
      match st.2 with
      | [] => .error .indexError
      | r :: rest => .ok (r, st.1 ++ [('R' :: n, r)], rest)
  | '@' :: l => .ok ('@' :: (pre ++ l), st)
  | c :: l => .ok (c :: l, st)

/-- All arguments of a line. -/
def mapArgs (pre : Name) : RegMap → List Name → Except Err (List Name × RegMap)
  | st, [] => .ok ([], st)
  | st, a :: as => (mapArg pre st a).bind (fun r => (mapArgs pre r.2 as).bind (fun s => .ok (r.1 :: s.1, s.2)))

/-- The lines of the block (q1asm_injection_strategy.py:75-95). -/
def mapLines (pre : Name) : RegMap → List Line → Except Err (List Line × RegMap)
  | st, [] => .ok ([], st)
  | st, l :: ls =>
    if l.blank then mapLines pre st ls
    else (mapArgs pre st l.args).bind (fun r =>
      (mapLines pre r.2 ls).bind (fun s =>
        .ok (⟨l.label.map (pre ++ ·), l.instr, r.1, "[inline] ".toList ++ l.comment⟩ :: s.1, s.2)))

/-- `free_register` (register_manager.py:40-62) for each register, the last one first
(q1asm_injection_strategy.py:97-99). -/
def freeAll : List Name → List Name → Except Err (List Name)
  | avail, [] => .ok avail
  | avail, r :: rs => if r ∈ avail then .error .runtimeError else freeAll (r :: avail) rs

/-- `label_prefix` (q1asm_injection_strategy.py:74). -/
def labelPrefix (safe : Bool) (n : Nat) : Name :=
  if safe then "inj".toList ++ (Nat.toDigits 10 n ++ "_".toList) else []

/-- `insert_qasm` (q1asm_injection_strategy.py:59-101). -/
def inject (q : Qasm) (safe : Bool) (block : List Line) (duration : Rat) : Except Err Qasm :=
  (mapLines (labelPrefix safe q.instrs.length) ([], q.avail) block).bind (fun r =>
    (freeAll r.2.2 (r.2.1.map Prod.snd).reverse).bind (fun avail =>
      .ok ⟨q.instrs ++ r.1, avail, q.elapsed + Numeric.pyRound (duration * 1000000000)⟩))

/-- A program is built from code that the compiler makes, and blocks of the user. -/
inductive Piece where
  /-- code; the list of available registers afterwards -/
  | code (lines : List Line) (avail : List Name) (elapsed : Int)
  | block (safe : Bool) (lines : List Line) (duration : Rat)

/-- The program (compiler_abc.py, generation of the program: strategies one after the other). -/
def build : Qasm → List Piece → Except Err Qasm
  | q, [] => .ok q
  | q, .code ls av el :: ps => build ⟨q.instrs ++ ls, av, el⟩ ps
  | q, .block safe ls d :: ps => (inject q safe ls d).bind (fun q' => build q' ps)

/-! ### Waveforms (q1asm_injection_strategy.py:36-57, compiler_abc.py:387-405) -/

variable {K : Type} [DecidableEq K]

/-- `generate_data` of a block: its waveforms, with their names and indices, are added. -/
def addBlock (tab : List (Waves.Entry K)) (ws : List (Waves.Entry K)) : Except Err (List (Waves.Entry K)) :=
  if ws.any (fun w => tab.any (fun e => e.key == w.key)) then .error .runtimeError else .ok (tab ++ ws)

/-- The blocks of a sequencer come first. -/
def addBlocks : List (Waves.Entry K) → List (List (Waves.Entry K)) → Except Err (List (Waves.Entry K))
  | tab, [] => .ok tab
  | tab, ws :: rest => (addBlock tab ws).bind (fun t => addBlocks t rest)

end Verif.Asm
