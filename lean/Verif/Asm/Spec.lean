/-
What assembly does: a sequence processor with registers, whose instructions access the registers and labels they
name, and do anything to the rest of the world.
-/
import Verif.Asm.Model
import Mathlib.Logic.Relation

namespace Verif.Asm.Spec

open Verif.Asm

/-- What an instruction sees of its arguments. -/
inductive Operand where
  /-- a number, as it is written -/
  | imm (text : Name)
  /-- a register: its contents -/
  | reg (value : Nat)
  /-- a label -/
  | target
deriving DecidableEq, Repr

/-- What happens next. -/
inductive Next where
  | fall
  /-- to the label that is the argument of this number -/
  | jump (arg : Nat)
  | halt
deriving DecidableEq, Repr

/-- The meaning of the instructions: from mnemonic, arguments and world (time, outputs, memory, ...) to the values
written into arguments that are registers, the new world and what happens next.  Any such meaning is allowed. -/
abbrev Meaning (W : Type) := Name → List Operand → W → List (Nat × Nat) × W × Next

/-- Contents of the registers. -/
abbrev Regs := Name → Nat

/-- What an instruction sees of an argument. -/
def operand (R : Regs) : Name → Operand
  | 'R' :: n => .reg (R ('R' :: n))
  | '@' :: _ => .target
  | a => .imm a

/-- A register. -/
def IsReg (a : Name) : Prop := ∃ n, a = 'R' :: n

/-- Write the values into the arguments that are registers. -/
def write (args : List Name) : List (Nat × Nat) → Regs → Regs
  | [], R => R
  | (i, v) :: ws, R =>
    match args[i]? with
    | some ('R' :: n) => write args ws (fun x => if x = 'R' :: n then v else R x)
    | _ => write args ws R

/-- The line with this label. -/
def findLabel (P : List Line) (l : Name) : Option Nat := P.findIdx? (fun x => decide (x.label = some l))

/-- Where it goes on after the line `k`. -/
def goesTo (P : List Line) (k : Nat) (args : List Name) : Next → Option Nat
  | .fall => some (k + 1)
  | .halt => none
  | .jump i =>
    match args[i]? with
    | some ('@' :: l) => findLabel P l
    | _ => none

variable {W : Type}

/-- A state: next line, registers, world. -/
abbrev State (W : Type) := Nat × Regs × W

/-- One line.  Lines without instruction do nothing. -/
def step (μ : Meaning W) (P : List Line) (s : State W) : Option (State W) :=
  match P[s.1]? with
  | none => none
  | some l =>
    if l.instr = [] then some (s.1 + 1, s.2)
    else
      (goesTo P s.1 l.args (μ l.instr (l.args.map (operand s.2.1)) s.2.2).2.2).map (fun k =>
        (k, write l.args (μ l.instr (l.args.map (operand s.2.1)) s.2.2).1 s.2.1,
          (μ l.instr (l.args.map (operand s.2.1)) s.2.2).2.1))

/-- Any number of lines. -/
def Steps (μ : Meaning W) (P : List Line) : State W → State W → Prop :=
  Relation.ReflTransGen (fun a b => step μ P a = some b)

/-- The registers that occur. -/
def RegOf (P : List Line) (r : Name) : Prop := IsReg r ∧ ∃ l ∈ P, r ∈ l.args

/-- The labels that are jumped to. -/
def LabelOf (P : List Line) (l : Name) : Prop := ∃ x ∈ P, '@' :: l ∈ x.args

/-- Number of lines that are not empty among the first `k`. -/
def kept (P : List Line) (k : Nat) : Nat := ((P.take k).filter (fun l => !l.blank)).length

/-- A list of the registers that occur, without repetitions. -/
def Registers (P : List Line) (rs : List Name) : Prop := rs.Nodup ∧ ∀ r, r ∈ rs ↔ RegOf P r

/-- Labels that the compiler makes: "start", "loop7", "wait7", ... -/
def Ours (l : Line) : Prop := ∀ s, l.label = some s → ¬ "inj".toList <+: s

/-- The labels that a block jumps to, with the prefix, are not labels of the rest of the program. -/
def Isolated (before after : List Line) (pre : Name) (block : List Line) : Prop :=
  ∀ l, LabelOf block l → ∀ x ∈ before ++ after, x.label ≠ some (pre ++ l)

/-- From line `start` on, the program `P` does what the block does alone: there is an assignment `ρ` of the registers
of the block to available registers, different ones to different ones, such that, whatever the instructions mean,
whenever the block alone gets from its first line to some line, with some contents of its registers and some state of
the world, so does the program, in the corresponding line, with the same contents of the assigned registers and the
same state of the world; registers that are not available are as before.  If the block stops, the program does. -/
def RunsAs (P : List Line) (start : Nat) (avail : List Name) (block : List Line) : Prop :=
  ∃ ρ : Name → Name, (∀ x, RegOf block x → ρ x ∈ avail) ∧
    (∀ x y, RegOf block x → RegOf block y → ρ x = ρ y → x = y) ∧
    ∀ (W : Type) (μ : Meaning W) (R : Regs) (w : W) (s' : State W),
      Steps μ block (0, fun x => R (ρ x), w) s' →
      ∃ R', Steps μ P (start, R, w) (start + kept block s'.1, R', s'.2.2) ∧
        (∀ x, RegOf block x → R' (ρ x) = s'.2.1 x) ∧ (∀ x, x ∉ avail → R' x = R x) ∧
        (s'.1 < block.length → step μ block s' = none →
          step μ P (start + kept block s'.1, R', s'.2.2) = none)

/-- Available registers are registers, each once. -/
def RegList (avail : List Name) : Prop := avail.Nodup ∧ ∀ r ∈ avail, IsReg r

/-- Code that the compiler makes has its own labels; blocks have safe labels. -/
def Proper : Piece → Prop
  | .code ls avail _ => (∀ l ∈ ls, Ours l) ∧ RegList avail
  | .block safe _ _ => safe = true

/-! ### Text -/

/-- Arguments, with a comma and any blanks between them. -/
def argText (a : Name) : List (Name × Name) → Name
  | [] => a
  | (blanks, b) :: r => a ++ ',' :: (blanks ++ argText b r)

/-- Blanks. -/
def Blanks (w : Name) : Prop := ∀ c ∈ w, c = ' ' ∨ c = '\t'

/-- A name as it is usual: letters, digits and underscores, not beginning with a digit. -/
def Identifier (l : Name) : Prop :=
  ∃ c r, l = c :: r ∧ (c.isAlpha = true ∨ c = '_') ∧ ∀ x ∈ r, x.isAlpha = true ∨ x.isDigit = true ∨ x = '_'

/-- A number, a register (`R` and a number) or a reference to a label. -/
def Argument (a : Name) : Prop :=
  ∃ d : Name, (d ≠ [] ∧ (∀ c ∈ d, c.isDigit = true) ∧ (a = d ∨ a = 'R' :: d)) ∨ (Identifier d ∧ a = '@' :: d)

/-- A mnemonic: lower-case letters and underscores. -/
def Mnemonic (i : Name) : Prop := i ≠ [] ∧ ∀ c ∈ i, c.isLower = true ∨ c = '_'

end Verif.Asm.Spec
