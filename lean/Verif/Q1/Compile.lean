/-
Model of the Q1ASM generation of the Qblox backend:
`QASMProgram` (backends/qblox/qasm_program.py), the operation strategies' `insert_qasm`
(backends/qblox/operation_handling/*.py), `ConditionalManager` (backends/qblox/conditional.py)
and `generate_qasm_program` / `_parse_operations` (backends/qblox/compiler_abc.py:526-731).

Simplifications (whole file):
* Times are integer nanoseconds: `to_grid_time` is modelled separately (C26).
* Comments, alignment of fields, and the string rendering are not modelled.
* Inline Q1ASM (`Q1ASMInjectionStrategy`) and `qasm_hook_func` are not modelled.
* Numeric arguments (gains, offsets, phases, frequencies, waveform indices, markers) are
  arbitrary integers here; how they are computed is modelled separately (C28, C34, C27).
* Warnings are not modelled.
-/
import Verif.Q1.Machine

namespace Verif.Q1

/-- `constants.MIN_TIME_BETWEEN_OPERATIONS`. -/
def minOp : Nat := 4
/-- `constants.MIN_TIME_BETWEEN_ACQUISITIONS`. -/
def minAcq : Nat := 300
/-- `constants.IMMEDIATE_MAX_WAIT_TIME` (`pow(2, 16) - 4`). -/
def maxWait : Nat := 65532

/-- `QASMProgram` (qasm_program.py:58-89).  `cur` is the last element of
`_elapsed_times_in_loops`, `outer` the other elements, innermost first. -/
structure Qasm where
  instrs : List Instr
  avail : List Reg
  cur : Int
  outer : List Int
  /-- `conditional_manager.num_real_time_instructions` -/
  nRT : Int
  /-- `_lock_conditional` -/
  lock : Bool
  lastPulse : Option Int
  lastAcq : Option Int
deriving DecidableEq, Repr

namespace Qasm

/-- `elapsed_time` getter (qasm_program.py:91-101): the sum of the stack. -/
def elapsed (q : Qasm) : Int := q.cur + q.outer.sum

/-- `elapsed_time += d` (qasm_program.py:103-106). -/
def tick (q : Qasm) (d : Int) : Qasm := { q with cur := q.cur + d }

/-- `emit` (qasm_program.py:151-168). -/
def emit (q : Qasm) (i : Instr) : Qasm := { q with instrs := q.instrs ++ [i] }

/-- Several `emit`s in a row. -/
def emits (q : Qasm) (is : List Instr) : Qasm := { q with instrs := q.instrs ++ is }

/-- `conditional_manager.num_real_time_instructions += n`. -/
def countRT (q : Qasm) (n : Int) : Qasm := { q with nRT := q.nRT + n }

/-- `register_manager.allocate_register()`. -/
def alloc (q : Qasm) : Except Err (Reg × Qasm) :=
  (allocReg q.avail).map (fun p => (p.1, { q with avail := p.2 }))

/-- `register_manager.free_register(r)`. -/
def free (q : Qasm) (r : Reg) : Except Err Qasm :=
  (freeReg r q.avail).map (fun a => { q with avail := a })

/-- Entering `loop` (qasm_program.py:550-558). -/
def loopEnter (q : Qasm) (l : Label) (reps : Nat) : Except Err (Reg × Qasm) := do
  let (r, q) ← q.alloc
  let q := { q with cur := 0, outer := q.cur :: q.outer }
  pure (r, (q.emit (.move reps r)).emit (.label l))

/-- Leaving `loop` (qasm_program.py:560-567).  The stack is never empty there
(`loopEnter` pushed); an empty stack is an `IndexError`. -/
def loopExit (q : Qasm) (r : Reg) (l : Label) (reps : Nat) : Except Err Qasm := do
  let q ← (q.emit (.loop r l)).free r
  match q.outer with
  | [] => .error .indexError
  | o :: rest => pure { q with cur := o + q.cur * reps, outer := rest }

/-- One `wait` instruction of `auto_wait` with its bookkeeping (qasm_program.py:236-243). -/
def emitWait (q : Qasm) (n : Nat) (count : Bool) : Qasm :=
  let q := q.emit (.real .wait [] n)
  let q := if count then q.tick n else q
  q.countRT 1

/-- `n` times the same `wait` (the `for _ in range(repetitions)` loop, qasm_program.py:245-254). -/
def emitWaits (q : Qasm) (count : Bool) : Nat → Qasm
  | 0 => q
  | n + 1 => (q.emitWait maxWait count).emitWaits count n

/-- The final, short wait (qasm_program.py:258-269). -/
def emitRest (q : Qasm) (n : Nat) (count : Bool) : Qasm :=
  if n > 0 then q.emitWait n count else q

/-- `auto_wait` (qasm_program.py:194-271). -/
def autoWait (q : Qasm) (w : Int) (count : Bool := true) : Except Err Qasm :=
  if w = 0 then .ok q
  else if w < 0 then .error .valueError
  else if w > maxWait then
    let reps := w.toNat / maxWait
    if reps > 4 then do
      let l := Label.wait q.instrs.length
      let (r, q) ← q.loopEnter l reps
      let q ← (q.emitWait maxWait count).loopExit r l reps
      pure (q.emitRest (w.toNat % maxWait) count)
    else .ok ((q.emitWaits count reps).emitRest (w.toNat % maxWait) count)
  else .ok (q.emitRest w.toNat count)

end Qasm

/-- `FeedbackTriggerOperator.__invert__` (conditional.py:73-83). -/
def TrigOp.invert : TrigOp → TrigOp
  | .or => .nor
  | .nor => .or
  | .and => .nand
  | .nand => .and
  | .xor => .xnor
  | .xnor => .xor

/-- The mask of a `FeedbackTriggerCondition` (conditional.py:113-131). -/
def maskOf (addresses : List Nat) : Nat := (addresses.map (fun a => 2 ^ (a - 1))).sum

/-- `FeedbackTriggerCondition` (conditional.py:86-111). -/
structure TrigCond where
  enable : Bool
  op : TrigOp
  addresses : List Nat
deriving DecidableEq, Repr

/-- Where an acquisition stores its data: a fixed bin, or the bin in a register that is then
incremented (`AcquisitionStrategyPartial.insert_qasm`, acquisitions.py:42-87). -/
inductive BinRef where
  | imm (bin : Nat)
  | reg (r : Reg)
deriving DecidableEq, Repr

/-- The operation strategies (backends/qblox/operation_handling). -/
inductive Strategy where
  /-- `IdleStrategy` (virtual.py:22-60) -/
  | idle
  /-- `GenericPulseStrategy` (pulses.py:60-247): the waveform indices and the gains -/
  | pulse (i0 i1 : Option Nat) (gI gQ : Int)
  /-- `MarkerPulseStrategy` (pulses.py:260-325): the marker value to set -/
  | marker (m : Nat)
  /-- `DigitalPulseStrategy` (pulses.py:328-375) -/
  | digital (enable : Bool) (fine : Int)
  /-- `NcoPhaseShiftStrategy` (virtual.py:63-85): `none` for a phase of zero -/
  | phaseShift (arg : Option Int)
  /-- `NcoResetClockPhaseStrategy` (virtual.py:88-107) -/
  | resetPhase
  /-- `NcoSetClockFrequencyStrategy` (virtual.py:110-157) -/
  | setFreq (arg : Int)
  /-- `AwgOffsetStrategy` (virtual.py:160-193) -/
  | offset (i q : Int)
  /-- `ResetFeedbackTriggersStrategy` (virtual.py:196-219) -/
  | latchReset (dur : Nat)
  /-- `UpdateParameterStrategy` (virtual.py:222-239) -/
  | updParam
  /-- `TimestampStrategy` (virtual.py:268-285) -/
  | timestamp
  /-- `SquareAcquisitionStrategy` (acquisitions.py:109-178) -/
  | square (idx : Nat) (bin : BinRef)
  /-- `WeightedAcquisitionStrategy` (acquisitions.py:181-333) -/
  | weighed (idx : Nat) (bin : BinRef) (w0 w1 : Nat)
  /-- `TriggerCountAcquisitionStrategy` (acquisitions.py:336-427): `dur` is the acquisition's
  duration on the grid -/
  | ttl (idx : Nat) (bin : BinRef) (dur : Int)
  /-- `TimetagAcquisitionStrategy` (acquisitions.py:430-566) and, with `scope`,
  `ScopedTimetagAcquisitionStrategy` (acquisitions.py:569-605) -/
  | timetag (scope : Bool) (idx : Nat) (bin : BinRef) (fine0 fine1 : Nat) (dur : Int)
deriving DecidableEq, Repr

/-- The check at the start of `GenericPulseStrategy.insert_qasm` (pulses.py:196-210). -/
def pulseCheck (q : Qasm) : Except Err Qasm :=
  match q.lastPulse with
  | none => .ok { q with lastPulse := some q.elapsed }
  | some t => if q.elapsed - t < minOp then .error .valueError
              else .ok { q with lastPulse := some q.elapsed }

/-- The check at the start of `AcquisitionStrategyPartial.insert_qasm` (acquisitions.py:53-68). -/
def acqCheck (q : Qasm) : Except Err Qasm :=
  match q.lastAcq with
  | none => .ok { q with lastAcq := some q.elapsed }
  | some t => if q.elapsed - t < minAcq then .error .valueError
              else .ok { q with lastAcq := some q.elapsed }

/-- The pulse's instructions (pulses.py:212-246). -/
def pulseCode (i0 i1 : Option Nat) (gI gQ : Int) : List Instr :=
  match i0, i1 with
  | none, none => [.real .updParam [] minOp]
  | some a, none => [.real .setAwgGain [.imm gI, .imm gQ] 0, .real .play [.imm a, .imm a] minOp]
  | none, some b => [.real .setAwgGain [.imm gI, .imm gQ] 0, .real .play [.imm b, .imm b] minOp]
  | some a, some b =>
    [.real .setAwgGain [.imm gI, .imm gQ] 0, .real .play [.imm a, .imm b] minOp]

/-- `enable` flags are emitted as 0/1. -/
def boolArg (b : Bool) : Arg := .imm (if b then 1 else 0)

/-- Enable, wait, disable: shared by the TTL and timetag acquisitions
(acquisitions.py:352-381, 458-489). -/
def gated (q : Qasm) (on off : Instr) (dur : Int) : Except Err Qasm := do
  let q := (q.emit on).tick minOp
  let q ← q.autoWait (dur - 2 * minOp)
  pure ((q.emit off).tick minOp)

/-- `WeightedAcquisitionStrategy._acquire_with_register_bin_index` (acquisitions.py:288-333) with
`temp_registers(2)` (qasm_program.py:576-598). -/
def insertWeighedReg (q : Qasm) (idx : Nat) (r : Reg) (w0 w1 : Nat) : Except Err Qasm := do
  let (a, q) ← q.alloc
  let (b, q) ← q.alloc
  let q := q.emits [.newline, .move w0 a, .move w1 b,
    .real .acquireWeighed [.imm idx, .reg r, .reg a, .reg b] minOp, .add r 1 r, .newline]
  let q := q.tick minOp
  let q ← q.free a
  q.free b

/-- `TimetagAcquisitionStrategy._acquire_with_immediate_bin_index` (acquisitions.py:449-489). -/
def insertTimetagImm (q : Qasm) (idx bin fine0 fine1 : Nat) (dur : Int) : Except Err Qasm :=
  gated q (.real .acquireTimetags [.imm idx, .imm bin, .imm 1, .imm fine0] minOp)
    (.real .acquireTimetags [.imm idx, .imm bin, .imm 0, .imm fine1] minOp) dur

/-- `TimetagAcquisitionStrategy._acquire_with_register_bin_index` (acquisitions.py:491-566). -/
def insertTimetagReg (q : Qasm) (idx : Nat) (r : Reg) (fine0 fine1 : Nat) (dur : Int) :
    Except Err Qasm :=
  if fine0 = fine1 then do
    let (a, q) ← q.alloc
    let q := q.emit (.move fine0 a)
    let q ← gated q (.real .acquireTimetags [.imm idx, .reg r, .imm 1, .reg a] minOp)
      (.real .acquireTimetags [.imm idx, .reg r, .imm 0, .reg a] minOp) dur
    let q ← q.free a
    pure (q.emit (.add r 1 r))
  else do
    let (a, q) ← q.alloc
    let (b, q) ← q.alloc
    let q := q.emits [.move fine0 a, .move fine1 b]
    let q ← gated q (.real .acquireTimetags [.imm idx, .reg r, .imm 1, .reg a] minOp)
      (.real .acquireTimetags [.imm idx, .reg r, .imm 0, .reg b] minOp) dur
    let q ← q.free a
    let q ← q.free b
    pure (q.emit (.add r 1 r))

/-- `TriggerCountAcquisitionStrategy` with a register (acquisitions.py:383-427). -/
def insertTtlReg (q : Qasm) (idx : Nat) (r : Reg) (dur : Int) : Except Err Qasm := do
  let q ← gated q (.real .acquireTtl [.imm idx, .reg r, .imm 1] minOp)
    (.real .acquireTtl [.imm idx, .reg r, .imm 0] minOp) dur
  pure (q.emit (.add r 1 r))

/-- The timetag acquisition without the scope instructions. -/
def insertTimetag (q : Qasm) (idx : Nat) (bin : BinRef) (fine0 fine1 : Nat) (dur : Int) :
    Except Err Qasm :=
  match bin with
  | .imm b => insertTimetagImm q idx b fine0 fine1 dur
  | .reg r => insertTimetagReg q idx r fine0 fine1 dur

/-- `insert_qasm` of the strategies (see the constructors of `Strategy` for the lines). -/
def insertQasm (q : Qasm) : Strategy → Except Err Qasm
  | .idle => .ok q
  | .pulse i0 i1 gI gQ => do
    let q ← pulseCheck q
    pure ((q.emits (pulseCode i0 i1 gI gQ)).tick minOp)
  | .marker m => .ok (q.emit (.real .setMrk [.imm m] 0))
  | .digital en fine => .ok (q.emit (.real .setDigital [boolArg en, .imm 1, .imm fine] 0))
  | .phaseShift none => .ok q
  | .phaseShift (some a) => .ok (q.emit (.real .setPhDelta [.imm a] 0))
  | .resetPhase => .ok (q.emit (.real .resetPh [] 0))
  | .setFreq a => .ok (q.emit (.real .setFreq [.imm a] 0))
  | .offset i p => .ok (q.emit (.real .setAwgOffs [.imm i, .imm p] 0))
  | .latchReset d => .ok ((q.emit (.real .latchRst [] d)).tick d)
  | .updParam => .ok ((q.emit (.real .updParam [] minOp)).tick minOp)
  | .timestamp => .ok (q.emit (.real .setTimeRef [] 0))
  | .square idx (.imm b) => do
    let q ← acqCheck q
    pure ((q.emit (.real .acquire [.imm idx, .imm b] minOp)).tick minOp)
  | .square idx (.reg r) => do
    let q ← acqCheck q
    let q := q.emits [.newline, .real .acquire [.imm idx, .reg r] minOp]
    pure ((q.tick minOp).emits [.add r 1 r, .newline])
  | .weighed idx (.imm b) w0 w1 => do
    let q ← acqCheck q
    pure ((q.emit (.real .acquireWeighed [.imm idx, .imm b, .imm w0, .imm w1] minOp)).tick minOp)
  | .weighed idx (.reg r) w0 w1 => do
    let q ← acqCheck q
    insertWeighedReg q idx r w0 w1
  | .ttl idx (.imm b) dur => do
    let q ← acqCheck q
    gated q (.real .acquireTtl [.imm idx, .imm b, .imm 1] minOp)
      (.real .acquireTtl [.imm idx, .imm b, .imm 0] minOp) dur
  | .ttl idx (.reg r) dur => do
    let q ← acqCheck q
    insertTtlReg q idx r dur
  | .timetag false idx bin f0 f1 dur => do
    let q ← acqCheck q
    insertTimetag q idx bin f0 f1 dur
  | .timetag true idx bin f0 f1 dur => do
    let q ← acqCheck q
    let q := q.emit (.real .setScopeEn [.imm 1] 0)
    let q ← insertTimetag q idx bin f0 f1 dur
    pure (q.emit (.real .setScopeEn [.imm 0] 0))

/-- An operation that is not control flow: the strategy, the facts read from its `OpInfo`
(backends/types/qblox.py:169-225) and, in marker debug mode, the marker to set and the default
marker (analog.py:498-525). -/
structure Leaf where
  /-- `to_grid_time(operation_info.timing)` -/
  t : Int
  /-- `operation_info.name == "IdlePulse"` -/
  isIdle : Bool
  /-- `operation_info.is_parameter_instruction` -/
  isParam : Bool
  /-- `operation_info.is_real_time_io_operation` -/
  isRT : Bool
  strat : Strategy
  debug : Option (Nat × Nat)
deriving DecidableEq, Repr

/-- An entry of the list of operation strategies. -/
inductive Op where
  | leaf (l : Leaf)
  /-- `LoopStrategy` with `data["repetitions"]` -/
  | loop (t : Int) (reps : Nat)
  /-- `ConditionalStrategy` -/
  | cond (t : Int) (c : TrigCond)
  /-- `ControlFlowReturnStrategy` -/
  | ret (t : Int)
deriving DecidableEq, Repr

/-- `wait_till_start_operation` (qasm_program.py:273-306).  Both error branches raise
`ValueError`. -/
def waitTill (q : Qasm) (t : Int) (isIdle isParam : Bool) : Except Err Qasm :=
  let w := t - q.elapsed
  if w > 0 then q.autoWait w
  else if w < 0 ∧ isParam = true then .error .valueError
  else if w < 0 ∧ isIdle = false then .error .valueError
  else .ok q

/-- `_insert_qasm` (analog.py:498-528; timetag.py:475-477 without debug markers). -/
def insertLeaf (q : Qasm) (l : Leaf) : Except Err Qasm :=
  match l.debug with
  | none => insertQasm q l.strat
  | some (m, m0) => do
    let q ← insertQasm (q.emit (.real .setMrk [.imm m] 0)) l.strat
    pure ((q.emits [.real .setMrk [.imm m0] 0, .real .updParam [] minOp]).tick minOp)

/-- `conditional_manager.update(operation)` (conditional.py:32-45) and `_insert_qasm`
(compiler_abc.py:727-729). -/
def compileLeaf (q : Qasm) (l : Leaf) : Except Err Qasm :=
  insertLeaf (q.countRT (if l.isRT then 1 else 0)) l

/-- Entering `conditional` (qasm_program.py:459-480). -/
def condEnter (q : Qasm) (c : TrigCond) : Except Err Qasm :=
  if q.lock then .error .runtimeError
  else .ok { (q.emit (.setCond c.enable (maskOf c.addresses) c.op minOp)) with
      lock := true, nRT := 0 }

/-- Leaving `conditional` (qasm_program.py:482-515); `start` is `conditional_manager.start_time`. -/
def condExit (q : Qasm) (c : TrigCond) (start : Int) : Except Err Qasm := do
  let dur := (q.elapsed - start) - minOp * q.nRT + minOp
  let q ← (q.emit (.setCond c.enable (maskOf c.addresses) c.op.invert minOp)).autoWait dur false
  let q := (q.emit (.setCond false 0 .or 0)).tick minOp
  pure { q with lock := false, nRT := 0 }

/-- `_parse_operations` (compiler_abc.py:698-731).  The Python iterator is the list of remaining
operations, which is returned.  `fuel` bounds the number of calls; `parse_fuel` below shows that
the length of the list is always enough. -/
def parse : Nat → List Op → Qasm → Except Err (Qasm × List Op)
  | _, [], q => .ok (q, [])
  | 0, _ :: _, _ => .error .outOfFuel
  | fuel + 1, .leaf l :: rest, q => do
    let q ← waitTill q l.t l.isIdle l.isParam
    let q ← compileLeaf q l
    parse fuel rest q
  | fuel + 1, .loop t reps :: rest, q => do
    let q ← waitTill q t false false
    let lab := Label.loop q.instrs.length
    let (r, q) ← q.loopEnter lab reps
    let (q, rest) ← parse fuel rest q
    let q ← q.loopExit r lab reps
    parse fuel rest q
  | fuel + 1, .cond t c :: rest, q => do
    let q ← waitTill q t false false
    let q ← condEnter q c
    let start := q.elapsed
    let (q, rest) ← parse fuel rest q
    let q ← condExit q c start
    parse fuel rest q
  | _ + 1, .ret t :: rest, q => do
    let q ← waitTill q t false false
    pure (q, rest)

/-- `_write_repetition_loop_header`: analog modules (analog.py:486-496) emit `reset_ph` and
`upd_param 4`, timetag modules (timetag.py:467-473) `wait 4`. -/
def repHeader (analog : Bool) : List Instr :=
  if analog then [.real .resetPh [] 0, .real .updParam [] minOp] else [.real .wait [] minOp]

/-- The wait up to the schedule's end (compiler_abc.py:645-655). -/
def finalWait (q : Qasm) (total : Int) : Except Err Qasm :=
  if total - q.elapsed < 0 then .error .runtimeError else q.autoWait (total - q.elapsed)

/-- `generate_qasm_program` (compiler_abc.py:526-679) from the state in which the bin registers
have been initialised: the latency wait, the repetition loop and `stop`.
`latency` is `_get_latency_correction_ns`; `total` is the total time on the grid. -/
def genBody (q : Qasm) (ops : List Op) (total : Int) (reps : Nat) (latency : Int)
    (analog : Bool) : Except Err Qasm := do
  let q ← q.autoWait (minOp + latency) false
  let (r, q) ← q.loopEnter .start reps
  let q := q.emits (repHeader analog)
  let (q, _) ← parse ops.length ops q
  let q ← finalWait q total
  let q ← q.loopExit r .start reps
  pure (q.emit .stop)

/-- The empty program (qasm_program.py:58-89; a sequencer has its own register manager). -/
def Qasm.new (avail : List Reg) : Qasm :=
  { instrs := [], avail := avail, cur := 0, outer := [], nRT := 0, lock := false,
    lastPulse := none, lastAcq := none }

/-- The start of `generate_qasm_program` (compiler_abc.py:586-600): marker/threshold/latch setup,
`wait_sync`, `upd_param`, and one `move` per bin register.  `pre` are the real-time instructions of
`_write_pre_wait_sync_instructions` (analog.py:462-484, timetag.py:437-465) and `set_latch`
(qasm_program.py:173-192), each with immediate arguments and its duration; `bins` are the bin
registers with their initial bins (compiler_abc.py:759-947). -/
def genHeader (avail : List Reg) (pre : List (Mnemonic × List Int × Nat))
    (bins : List (Reg × Nat)) : Qasm :=
  (Qasm.new avail).emits
    (pre.map (fun i => .real i.1 (i.2.1.map Arg.imm) i.2.2) ++
      [.real .waitSync [] minOp, .real .updParam [] minOp] ++
      bins.map (fun b => .move b.2 b.1))

end Verif.Q1
