/-
Specification of what a compiled sequencer program must do, in terms of the operations and
their scheduled times only (no instruction, no label, no loop counter appears here).
-/
import Verif.Q1.Compile

namespace Verif.Q1

/-- An event moved in time. -/
def Event.shift (δ : Int) (e : Event) : Event := { e with time := e.time + δ }

/-- Events moved in time. -/
def shiftAll (δ : Int) (es : List Event) : List Event := es.map (Event.shift δ)

/-- How long a strategy keeps the sequencer busy. -/
def Strategy.dur : Strategy → Int
  | .pulse .. => 4
  | .latchReset d => d
  | .updParam => 4
  | .square .. => 4
  | .weighed .. => 4
  | .ttl _ _ d => d
  | .timetag _ _ _ _ _ d => d
  | _ => 0

/-- The bin an acquisition uses, given the contents of the bin registers. -/
def BinRef.val (b : RegFile) : BinRef → Int
  | .imm n => n
  | .reg r => (b r : Int)

/-- The bin registers after the acquisition: append mode moves on to the next bin. -/
def BinRef.next (b : RegFile) : BinRef → RegFile
  | .imm _ => b
  | .reg r => b.set r ((b r + 1) % wordSize)

/-- The bin register of a strategy. -/
def Strategy.binReg : Strategy → Option Reg
  | .square _ (.reg r) => some r
  | .weighed _ (.reg r) _ _ => some r
  | .ttl _ (.reg r) _ => some r
  | .timetag _ _ (.reg r) _ _ _ => some r
  | _ => none

/-- The bin registers after the operation. -/
def Strategy.next (b : RegFile) : Strategy → RegFile
  | .square _ bin => bin.next b
  | .weighed _ bin _ _ => bin.next b
  | .ttl _ bin _ => bin.next b
  | .timetag _ _ bin _ _ _ => bin.next b
  | _ => b

/-- What an operation does, with times relative to its start. -/
def Strategy.events (b : RegFile) : Strategy → List Event
  | .idle => []
  | .pulse none none _ _ => [⟨0, .updParam, []⟩]
  | .pulse (some i) none gI gQ => [⟨0, .setAwgGain, [gI, gQ]⟩, ⟨0, .play, [i, i]⟩]
  | .pulse none (some j) gI gQ => [⟨0, .setAwgGain, [gI, gQ]⟩, ⟨0, .play, [j, j]⟩]
  | .pulse (some i) (some j) gI gQ => [⟨0, .setAwgGain, [gI, gQ]⟩, ⟨0, .play, [i, j]⟩]
  | .marker m => [⟨0, .setMrk, [m]⟩]
  | .digital en f => [⟨0, .setDigital, [if en then 1 else 0, 1, f]⟩]
  | .phaseShift none => []
  | .phaseShift (some a) => [⟨0, .setPhDelta, [a]⟩]
  | .resetPhase => [⟨0, .resetPh, []⟩]
  | .setFreq a => [⟨0, .setFreq, [a]⟩]
  | .offset i q => [⟨0, .setAwgOffs, [i, q]⟩]
  | .latchReset _ => [⟨0, .latchRst, []⟩]
  | .updParam => [⟨0, .updParam, []⟩]
  | .timestamp => [⟨0, .setTimeRef, []⟩]
  | .square idx bin => [⟨0, .acquire, [idx, bin.val b]⟩]
  | .weighed idx bin w0 w1 => [⟨0, .acquireWeighed, [idx, bin.val b, w0, w1]⟩]
  | .ttl idx bin d =>
    [⟨0, .acquireTtl, [idx, bin.val b, 1]⟩, ⟨d - 4, .acquireTtl, [idx, bin.val b, 0]⟩]
  | .timetag false idx bin f0 f1 d =>
    [⟨0, .acquireTimetags, [idx, bin.val b, 1, f0]⟩,
     ⟨d - 4, .acquireTimetags, [idx, bin.val b, 0, f1]⟩]
  | .timetag true idx bin f0 f1 d =>
    [⟨0, .setScopeEn, [1]⟩, ⟨0, .acquireTimetags, [idx, bin.val b, 1, f0]⟩,
     ⟨d - 4, .acquireTimetags, [idx, bin.val b, 0, f1]⟩, ⟨d, .setScopeEn, [0]⟩]

/-- Duration of an operation, with the extra update of marker debug mode. -/
def Leaf.dur (l : Leaf) : Int :=
  match l.debug with
  | none => l.strat.dur
  | some _ => l.strat.dur + 4

/-- Events of an operation relative to its start, with the markers of debug mode. -/
def Leaf.events (b : RegFile) (l : Leaf) : List Event :=
  match l.debug with
  | none => l.strat.events b
  | some (m, m0) =>
    ⟨0, .setMrk, [m]⟩ :: l.strat.events b ++
      [⟨l.strat.dur, .setMrk, [m0]⟩, ⟨l.strat.dur, .updParam, []⟩]

/-- Operations of one sequencer, with loops and conditionals.
`loop t reps body tEnd`: the first iteration of the body starts at `t` and ends at `tEnd`.
`cond t c body tEnd`: a conditional (its body is a sequence of plain operations). -/
inductive Forest where
  | nil
  | leaf (l : Leaf) (rest : Forest)
  | loop (t : Int) (reps : Nat) (body : Forest) (tEnd : Int) (rest : Forest)
  | cond (t : Int) (c : TrigCond) (body : List Leaf) (tEnd : Int) (rest : Forest)

/-- The flat list of operation strategies the compiler is given. -/
def Forest.flatten : Forest → List Op
  | .nil => []
  | .leaf l f => .leaf l :: f.flatten
  | .loop t n b e f => .loop t n :: (b.flatten ++ .ret e :: f.flatten)
  | .cond t c b e f => .cond t c :: (b.map Op.leaf ++ .ret e :: f.flatten)

/-- A behaviour: from the bin registers, the new bin registers and the events. -/
abbrev Behaviour := RegFile → RegFile × List Event

/-- A body repeated `n` times, the first time at offset `δ`, then every `period`. -/
def iterate (body : Int → Behaviour) (period : Int) : Nat → Int → Behaviour
  | 0, _ => fun b => (b, [])
  | n + 1, δ => fun b =>
    let r := body δ b
    let s := iterate body period n (δ + period) r.1
    (s.1, r.2 ++ s.2)

/-- Plain operations, each at its scheduled time plus the offset `δ`. -/
def leavesRun (δ : Int) : List Leaf → Behaviour
  | [] => fun b => (b, [])
  | l :: ls => fun b =>
    let s := leavesRun δ ls (l.strat.next b)
    (s.1, shiftAll (l.t + δ) (l.events b) ++ s.2)

/-- Plain operations whose condition does not hold: nothing happens, but append-mode bins
move on. -/
def leavesSkip : List Leaf → RegFile → RegFile
  | [], b => b
  | l :: ls, b => leavesSkip ls (l.strat.next b)

/-- Does the trigger condition hold? -/
def TrigCond.holds (c : TrigCond) (latched : Nat → Bool) : Bool :=
  if c.enable then c.op.holds (maskOf c.addresses) latched else true

/-- **The specification**: every operation takes place at its scheduled time plus the offset `δ`
of the repetition / enclosing iterations; iteration `i` of a loop is offset by `i` times the
length of its body; the body of a conditional takes place iff the condition holds. -/
def Forest.run (env : Env) : Forest → Int → Behaviour
  | .nil, _ => fun b => (b, [])
  | .leaf l f, δ => fun b =>
    let s := f.run env δ (l.strat.next b)
    (s.1, shiftAll (l.t + δ) (l.events b) ++ s.2)
  | .loop t n body e f, δ => fun b =>
    let r := iterate (body.run env) (e - t) n δ b
    let s := f.run env δ r.1
    (s.1, r.2 ++ s.2)
  | .cond t c body _ f, δ => fun b =>
    let r := if c.holds (env (t + δ)) then leavesRun δ body b else (leavesSkip body b, [])
    let s := f.run env δ r.1
    (s.1, r.2 ++ s.2)

end Verif.Q1
