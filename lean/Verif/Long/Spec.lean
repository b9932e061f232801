/-
What pulses and voltage offsets put out.
-/
import Verif.Long.Model
import Mathlib.Algebra.BigOperators.Group.List.Basic
import Mathlib.Algebra.Group.Prod

namespace Verif.Long

/-- Of two settings, the one that is made later; the second one if they are made at the same
time. -/
def later : Option (Rat × V) → Option (Rat × V) → Option (Rat × V)
  | none, b => b
  | some a, none => some a
  | some a, some b => if a.1 ≤ b.1 then some b else some a

/-- The last setting made until `t`. -/
def latest (t : Rat) : List (Rat × V) → Option (Rat × V)
  | [] => none
  | e :: l => later (if e.1 ≤ t then some e else none) (latest t l)

/-- The value set at time `t`; 0 before the first setting. -/
def valueAt (l : List (Rat × V)) (t : Rat) : V :=
  match latest t l with
  | some e => e.2
  | none => 0

/-- The voltage offsets set on a port-clock. -/
def sets (infos : List Info) (pc : PC) : List (Rat × V) :=
  infos.filterMap (fun p => match p.what with
    | .offset v => if p.pc = pc then some (p.t0, v) else none
    | _ => none)

/-- The value of a waveform `t` after its start (waveforms.py:24-45); `other` gives the values of
waveforms other than square and ramp. -/
def Wave.value (other : Nat → Rat → V) (dur : Rat) : Wave → Rat → V
  | .square amp, _ => amp
  | .ramp amp offset, t => (amp / dur * t + offset, 0)
  | .other n, t => other n t

/-- What an entry contributes as a waveform on a port-clock at time `t`. -/
def Info.wave (other : Nat → Rat → V) (pc : PC) (t : Rat) (p : Info) : V :=
  match p.what with
  | .wave w => if p.pc = pc ∧ p.t0 ≤ t ∧ t < p.t0 + p.dur then w.value other p.dur (t - p.t0) else 0
  | _ => 0

/-- The output on a port-clock at time `t`: the voltage offset and the waveforms. -/
def output (other : Nat → Rat → V) (infos : List Info) (pc : PC) (t : Rat) : V :=
  valueAt (sets infos pc) t + (infos.map (Info.wave other pc t)).sum

/-! ### The builder -/

/-- Steps of a user with a builder. -/
inductive Step where
  | pulse (infos : List Info) (append : Bool)
  | offset (v : V) (dur : Option Rat) (relTime : Rat) (append : Bool) (minDur : Rat)

/-- Do a step. -/
def Step.run (b : Builder) : Step → Except Err Builder
  | .pulse infos append => .ok (b.addPulse infos append)
  | .offset v dur relTime append minDur => b.addOffset v dur relTime append minDur

/-- Do steps. -/
def runSteps (b : Builder) : List Step → Except Err Builder
  | [] => .ok b
  | s :: l => match s.run b with
    | .error e => .error e
    | .ok b => runSteps b l

/-- Is `t` within an offset with a duration? -/
def Off.covers (t : Rat) (o : Off) : Bool :=
  match o.dur with
  | some d => decide (o.t0 ≤ t ∧ t < o.t0 + d)
  | none => false

/-- What a user of a builder has asked for: pulses and offsets, in the order in which they were
asked for, and the end of all of that. -/
structure Asked where
  pulses : List Info
  offs : List Off
  stop : Rat

/-- A step of a user: what is appended starts at the end of what was asked for before. -/
def Asked.step (a : Asked) : Step → Asked
  | .pulse infos append =>
    let infos := infos.map (fun p => { p with t0 := p.t0 + if append then a.stop else 0 })
    ⟨a.pulses ++ infos, a.offs, (infos.map (fun p => p.t0 + p.dur)).foldl max a.stop⟩
  | .offset v dur relTime append _ =>
    let t0 := relTime + if append then a.stop else 0
    ⟨a.pulses, a.offs ++ [⟨v, t0, dur⟩], max a.stop (t0 + dur.getD 0)⟩

/-- All steps. -/
def asked (steps : List Step) : Asked := steps.foldl Asked.step ⟨[], [], 0⟩

/-- The offset that the user of a builder expects at time `t`: if `t` is within an offset with a
duration, that one; otherwise the one without a duration that was set last; and none from the end
of the pulse on. -/
def Asked.offsetAt (a : Asked) (t : Rat) : V :=
  if a.stop ≤ t then 0
  else match a.offs.find? (Off.covers t) with
    | some o => o.v
    | none => valueAt ((a.offs.filter (fun o => o.dur.isNone)).map (fun o => (o.t0, o.v))) t

/-- The same for a list of offsets in order of time. -/
def held (offs : List Off) (opEnd : Rat) (t : Rat) : V :=
  if opEnd ≤ t then 0
  else match offs.find? (Off.covers t) with
    | some o => o.v
    | none =>
      match (offs.filter (fun o => decide (o.dur = none ∧ o.t0 ≤ t))).getLast? with
      | some o => o.v
      | none => 0

/-- Steps that make sense: no negative times and durations. -/
def Step.sensible : Step → Prop
  | .pulse infos _ => ∀ p ∈ infos, 0 ≤ p.t0 ∧ 0 ≤ p.dur ∧ ∀ v, p.what ≠ .offset v
  | .offset _ _ rel _ minDur => 0 ≤ rel ∧ 0 ≤ minDur

/-- Times that `math.isclose` takes as equal are equal. -/
def Asked.NothingNear (a : Asked) : Prop :=
  ∀ o ∈ a.offs, (Numeric.isClose o.stop a.stop = true → o.stop = a.stop) ∧
    ∀ o' ∈ a.offs, Numeric.isClose o'.t0 o.stop = true → o'.t0 = o.stop

/-! ### Replacement -/

/-- Is it a pulse that is replaced: a square pulse of at least 100 ns or a ramp of at least 2 us? -/
def Info.long (p : Info) : Prop :=
  (∃ amp, p.what = .wave (.square amp) ∧ 100 ≤ p.dur) ∨
  (∃ amp offset, p.what = .wave (.ramp amp offset) ∧ 2000 ≤ p.dur)

/-- Ramps that can be replaced exactly: a whole number of nanoseconds, and no offset that is
enormous in comparison to the amplitude. -/
def Info.fine (p : Info) : Prop :=
  ∀ amp offset, p.what = .wave (.ramp amp offset) →
    (∃ n : Int, p.dur = n) ∧ (offset = 0 ∨ |offset| < 100000000 * |amp|)

/-- Long pulses on the same port-clock do not overlap, and during a long pulse no voltage offset is
set or held. -/
def Separate (infos : List Info) : Prop :=
  infos.Pairwise (fun p q => p.long → q.long → p.pc = q.pc →
    p.t0 + p.dur ≤ q.t0 ∨ q.t0 + q.dur ≤ p.t0) ∧
  ∀ p ∈ infos, p.long →
    (∀ e ∈ sets infos p.pc, e.1 < p.t0 ∨ p.t0 + p.dur ≤ e.1) ∧ valueAt (sets infos p.pc) p.t0 = 0

mutual
/-- The operations in a schedule. -/
def leaves : Op → List (List Info)
  | .plain infos => [infos]
  | .control body => leaves body
  | .sched ops => opsLeaves ops
/-- The same for its operations. -/
def opsLeaves : Ops → List (List Info)
  | .nil => []
  | .cons _ op rest => leaves op ++ opsLeaves rest
end

end Verif.Long
