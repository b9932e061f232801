/-
What the program of a sequencer must do, read off the schedule: every operation at its time in the schedule,
in every repetition of the schedule and of the loops it is in, if the conditions it is under hold.
-/
import Verif.EndToEnd.Model

namespace Verif.EndToEnd.Spec

open Verif.Flatten (Info Op Items Label PC ns plainInfos Quiet)

variable {D : Type}

mutual
/-- What a timed schedule does on one port-clock, loops and conditionals executed: each operation with the
delay, in nanoseconds, of its execution with respect to the time it has in the schedule.  `off` is the start
of the schedule, `δ` the delay.  Iteration `i` of a loop is delayed by `i` times the duration of its body; a
conditional is executed if its condition holds for the triggers latched at its start. -/
def unrolled (reps : D → Option Nat) (cond : D → Q1.TrigCond) (env : Q1.Env)
    (idx : Label × Nat → Option (List Int)) (pc : PC) : Op D → Rat → Label → Int → List (Info D × Int)
  | .plain p, off, label, δ => (plainInfos idx pc p (ns off) label).map (fun i => (i, δ))
  | .sched items, off, label, δ => unrolledItems reps cond env idx pc items off label δ
  | .ctl c dur body, off, label, δ =>
    match reps c.data with
    | some n => (List.range n).flatMap (fun i : Nat =>
        unrolled reps cond env idx pc body off (label ++ [none]) (δ + i * ns dur))
    | none =>
      if (cond c.data).holds (env (ns off + δ)) then
        unrolled reps cond env idx pc body off (label ++ [none]) δ
      else []
/-- The same for the schedulables. -/
def unrolledItems (reps : D → Option Nat) (cond : D → Q1.TrigCond) (env : Q1.Env)
    (idx : Label × Nat → Option (List Int)) (pc : PC) : Items D → Rat → Label → Int → List (Info D × Int)
  | .nil, _, _, _ => []
  | .cons name abs op rest, off, label, δ =>
    unrolled reps cond env idx pc op (off + abs) (label ++ [some name]) δ ++
      unrolledItems reps cond env idx pc rest off label δ
end

mutual
/-- On this port-clock: loops and conditionals start with their bodies, a body has something on the
port-clock or does not concern it at all, and there is no control flow in a conditional. -/
def Supported (reps : D → Option Nat) (pc : PC) : Op D → Prop
  | .plain _ => True
  | .sched items => SupportedItems reps pc items
  | .ctl c _ body => c.t0 = 0 ∧ Supported reps pc body ∧ (pc ∈ body.used ∨ Quiet pc body) ∧
      (reps c.data = none → NoControl pc body)
/-- The same for the schedulables. -/
def SupportedItems (reps : D → Option Nat) (pc : PC) : Items D → Prop
  | .nil => True
  | .cons _ _ op rest => Supported reps pc op ∧ SupportedItems reps pc rest
/-- No control flow on the port-clock. -/
def NoControl (pc : PC) : Op D → Prop
  | .plain _ => True
  | .sched items => NoControlItems pc items
  | .ctl _ _ body => Quiet pc body ∧ pc ∉ body.used
/-- The same for the schedulables. -/
def NoControlItems (pc : PC) : Items D → Prop
  | .nil => True
  | .cons _ _ op rest => NoControl pc op ∧ NoControlItems pc rest
end

mutual
/-- The operation at the path `l`, which goes through loops only, is executed with the delay `δ`: in some
iteration of each of the loops. -/
def Delayed (reps : D → Option Nat) : Op D → Label → Int → Prop
  | .plain _, [], δ => δ = 0
  | .sched items, some name :: l, δ => DelayedItem reps items name l δ
  | .ctl c dur body, none :: l, δ =>
    ∃ n i : Nat, reps c.data = some n ∧ i < n ∧ ∃ δ', δ = i * ns dur + δ' ∧ Delayed reps body l δ'
  | _, _, _ => False
/-- The same in the schedulable of this name. -/
def DelayedItem (reps : D → Option Nat) : Items D → String → Label → Int → Prop
  | .nil, _, _, _ => False
  | .cons name _ op rest, name', l, δ =>
    if name = name' then Delayed reps op l δ else DelayedItem reps rest name' l δ
end

/-- An event without the bin that an acquisition is stored in (for bins, see C18 and C32). -/
def forgetBin (e : Q1.Event) : Q1.Event :=
  match e.kind, e.args with
  | .acquire, i :: _ :: rest => ⟨e.time, .acquire, i :: rest⟩
  | .acquireWeighed, i :: _ :: rest => ⟨e.time, .acquireWeighed, i :: rest⟩
  | .acquireTtl, i :: _ :: rest => ⟨e.time, .acquireTtl, i :: rest⟩
  | .acquireTimetags, i :: _ :: rest => ⟨e.time, .acquireTimetags, i :: rest⟩
  | _, _ => e

/-- Events other than updates of parameters (for these, see C20), without bins. -/
def visible (es : List Q1.Event) : List Q1.Event :=
  (es.filter (fun e => decide (e.kind ≠ .updParam))).map forgetBin

/-- What an operation does, with times relative to its start. -/
def does (F : Factory D) (i : Info D) : List Q1.Event := visible ((F.leaf i).events (fun _ => 0))

/-- What the operations do, each at its time in the schedule plus its delay. -/
def doAll (F : Factory D) (l : List (Info D × Int)) : List Q1.Event :=
  l.flatMap (fun x => Q1.shiftAll (ns x.1.timing + x.2) (does F x.1))

/-- Start of repetition `r` of the schedule: 4 ns after the start of the loop over repetitions. -/
def repStart (p : Q1.Program) (r : Nat) : Int := p.start + r * (4 + p.total) + 4

/-- What the program must do: the set-up, the synchronization, and for each repetition the reset of the
phase, if there is one, and the schedule. -/
def expected (F : Factory D) (env : Q1.Env) (idx : Label × Nat → Option (List Int)) (pc : PC) (root : Op D)
    (p : Q1.Program) : List Q1.Event :=
  visible (Q1.preEvents 0 p.pre) ++ [⟨p.syncTime, .waitSync, []⟩] ++
    (List.range p.reps).flatMap (fun r =>
      (if p.analog then [⟨repStart p r - 4, .resetPh, []⟩] else []) ++
      doAll F (unrolled F.reps F.cond env idx pc root 0 [] (repStart p r)))

end Verif.EndToEnd.Spec
