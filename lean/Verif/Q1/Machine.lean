/-
The Q1ASM sequence processor, as far as the emitted programs rely on it.

This is an environment model (part of the trusted base): quantify-scheduler only emits
Q1ASM text, and the meaning of that text is fixed by the hardware.  The meaning used here is
the one quantify-scheduler itself documents and counts on:
* `loop a,@b` subtracts one from register `a` and jumps to label `b` if the result is not
  zero (32-bit registers, so zero wraps around to 2^32 - 1);
* real-time instructions take the number of nanoseconds given as their last argument (0 if
  they have none); all other instructions take no real time;
* `set_cond enable,mask,operator,else_duration` makes the real-time instructions after it
  conditional; a real-time instruction with a duration whose condition does not hold takes
  `else_duration` instead and has no other effect (qasm_program.py:431-452, docstring of
  `QASMProgram.conditional`); real-time instructions without a duration are then ignored;
  classical instructions (`move`, `add`, `loop`) are always executed.
-/
import Verif.Q1.Registers
import Mathlib.Logic.Relation

namespace Verif.Q1

/-- The labels used by the compiler: `start`, `wait<n>`, `loop<n>`
(compiler_abc.py:580, compiler_abc.py:707, qasm_program.py:234). -/
inductive Label where
  | start
  | wait (n : Nat)
  | loop (n : Nat)
deriving DecidableEq, Repr

/-- `FeedbackTriggerOperator` (backends/qblox/conditional.py:57-71). -/
inductive TrigOp where
  | or | nor | and | nand | xor | xnor
deriving DecidableEq, Repr

/-- The mnemonics of real-time instructions (backends/qblox/q1asm_instructions.py). -/
inductive Mnemonic where
  | wait | waitSync | updParam | setLatchEn | latchRst | resetPh | setPhDelta | setFreq
  | setAwgGain | setAwgOffs | setMrk | setDigital | setTimeRef | setScopeEn
  | updThres | play | acquire | acquireWeighed | acquireTtl | acquireTimetags
deriving DecidableEq, Repr

/-- An argument: an immediate or a register. -/
inductive Arg where
  | imm (n : Int)
  | reg (r : Reg)
deriving DecidableEq, Repr

/-- One line of a Q1ASM program. -/
inductive Instr where
  | newline
  | label (l : Label)
  | move (imm : Nat) (r : Reg)
  | add (r : Reg) (imm : Nat) (dst : Reg)
  | loop (r : Reg) (l : Label)
  | setCond (enable : Bool) (mask : Nat) (op : TrigOp) (elseDur : Nat)
  | real (k : Mnemonic) (args : List Arg) (dur : Nat)
  | stop
deriving DecidableEq, Repr

/-- The registers' contents. -/
abbrev RegFile := Reg → Nat

/-- 32-bit registers (`constants.REGISTER_SIZE` is `2**32 - 1`). -/
def wordSize : Nat := 2 ^ 32

/-- Update of one register. -/
def RegFile.set (f : RegFile) (r : Reg) (v : Nat) : RegFile := fun x => if x = r then v else f x

/-- `loop` subtracts one, wrapping around. -/
def decWord (v : Nat) : Nat := (v + (wordSize - 1)) % wordSize

/-- What the outside can observe: at which instant which real-time instruction took place with
which argument values. -/
structure Event where
  time : Int
  kind : Mnemonic
  args : List Int
deriving DecidableEq, Repr

/-- The trigger counters above threshold, at a given time: bit `i` stands for address `i+1`. -/
abbrev Env := Int → Nat → Bool

/-- The addresses selected by a mask, 15 of them (`constants.MAX_FEEDBACK_TRIGGER_ADDRESS`). -/
def selected (mask : Nat) : List Nat := (List.range 15).filter (fun i => mask.testBit i)

/-- The documented meaning of the operators (conditional.py:60-71). -/
def TrigOp.holds (op : TrigOp) (mask : Nat) (latched : Nat → Bool) : Bool :=
  match op with
  | .or => (selected mask).any latched
  | .nor => (selected mask).all (fun i => !latched i)
  | .and => (selected mask).all latched
  | .nand => (selected mask).any (fun i => !latched i)
  | .xor => ((selected mask).filter latched).length % 2 == 1
  | .xnor => ((selected mask).filter latched).length % 2 == 0

/-- An active `set_cond`. -/
structure Cond where
  mask : Nat
  op : TrigOp
  elseDur : Nat
deriving DecidableEq, Repr

/-- The machine's state without the program counter. -/
structure Data where
  regs : RegFile
  time : Int
  cond : Option Cond
  trace : List Event

/-- Value of an argument. -/
def Arg.eval (regs : RegFile) : Arg → Int
  | .imm n => n
  | .reg r => (regs r : Int)

/-- Is the next real-time instruction executed? -/
def Data.enabled (env : Env) (d : Data) : Bool :=
  match d.cond with
  | none => true
  | some c => c.op.holds c.mask (env d.time)

/-- Time an instruction with duration `dur` takes when it is not executed. -/
def Data.skipTime (d : Data) (dur : Nat) : Int :=
  match d.cond with
  | none => 0
  | some c => if dur = 0 then 0 else (c.elseDur : Int)

/-- The events of an executed real-time instruction; waiting is not an event. -/
def Data.eventsOf (d : Data) (k : Mnemonic) (args : List Arg) : List Event :=
  if k = .wait then [] else [{ time := d.time, kind := k, args := args.map (Arg.eval d.regs) }]

/-- Effect of every instruction except `loop` and `stop`. -/
def Data.run (env : Env) (d : Data) : Instr → Data
  | .newline => d
  | .label _ => d
  | .move n r => { d with regs := d.regs.set r n }
  | .add r n dst => { d with regs := d.regs.set dst ((d.regs r + n) % wordSize) }
  | .setCond en mask op e => { d with cond := if en then some ⟨mask, op, e⟩ else none }
  | .real k args dur =>
    if d.enabled env then
      { d with time := d.time + dur, trace := d.trace ++ d.eventsOf k args }
    else { d with time := d.time + d.skipTime dur }
  | .loop _ _ => d
  | .stop => d

/-- Position of a label in a program. -/
def findLabel (P : List Instr) (l : Label) : Option Nat :=
  if P.idxOf (Instr.label l) < P.length then some (P.idxOf (Instr.label l)) else none

/-- One step of the sequence processor; `none` when it has stopped or left the program. -/
def step (P : List Instr) (env : Env) (s : Nat × Data) : Option (Nat × Data) :=
  match P[s.1]? with
  | none => none
  | some .stop => none
  | some (.loop r l) =>
    let v := decWord (s.2.regs r)
    let d := { s.2 with regs := s.2.regs.set r v }
    if v = 0 then some (s.1 + 1, d)
    else (findLabel P l).map (fun k => (k, d))
  | some i => some (s.1 + 1, s.2.run env i)

/-- Any number of steps. -/
def Steps (P : List Instr) (env : Env) : Nat × Data → Nat × Data → Prop :=
  Relation.ReflTransGen (fun a b => step P env a = some b)

/-- The processor has stopped: the next instruction is `stop`. -/
def Stopped (P : List Instr) (s : Nat × Data) : Prop := P[s.1]? = some .stop

/-- Powered-on state: everything zero. -/
def Data.init : Data := { regs := fun _ => 0, time := 0, cond := none, trace := [] }

end Verif.Q1
