/-
What C25 says: the pulses a schedule plays, loops unrolled.
-/
import Verif.Compensation.Model

namespace Verif.Compensation

/-- A pulse that is played. -/
structure Played where
  port : String
  clock : String
  /-- integral of the pulse -/
  area : Rat
  stop : Rat
  offset : Bool
  /-- whether it is played only if a condition holds -/
  conditional : Bool
deriving DecidableEq, Repr

/-- The integral of a pulse: amplitude times duration, or mean sample times duration. -/
def Info.area (i : Info) : Rat :=
  match i.wf with
  | .square a => a * i.dur
  | .sampled s => s.sum / s.length * i.dur
  | .none => 0

mutual
/-- All pulses played by an operation that starts at `off`. -/
def plays : Op → Rat → Bool → List Played
  | .plain infos _, off, c => infos.map (fun i => ⟨i.port, i.clock, i.area, off + i.t0 + i.dur, i.offset, c⟩)
  | .sched items _, off, c => playsItems items off c
  | .loop body reps, off, c =>
    (List.range reps).flatMap (fun (k : Nat) => plays body (off + k * (body.duration.getD 0)) c)
  | .cond body _, off, _ => plays body off true
  | .other body, off, c => plays body off c
  | .comp body _ _ _, off, c => plays body off c
def playsItems : Items → Rat → Bool → List Played
  | .nil, _, _ => []
  | .cons abs op rest, off, c => plays op (off + abs.getD 0) c ++ playsItems rest off c
end

/-- The baseband pulses on one port. -/
def onPort (p : String) (l : List Played) : List Played :=
  l.filter (fun x => decide (x.port = p ∧ x.clock = baseband))

/-- The integral on one port. -/
def integral (p : String) (l : List Played) : Rat := ((onPort p l).map Played.area).sum

mutual
/-- The operation without the times the timing pass determines. -/
def erase : Op → Op
  | .plain infos acqs => .plain infos acqs
  | .sched items _ => .sched (eraseItems items) none
  | .loop body reps => .loop (erase body) reps
  | .cond body b => .cond (erase body) b
  | .other body => .other (erase body)
  | .comp body m g r => .comp (erase body) m g r
def eraseItems : Items → Items
  | .nil => .nil
  | .cons _ op rest => .cons none (erase op) (eraseItems rest)
end

mutual
/-- No compensation blocks inside. -/
def NoComp : Op → Prop
  | .plain _ _ => True
  | .sched items _ => NoCompItems items
  | .loop body _ => NoComp body
  | .cond body _ => NoComp body
  | .other body => NoComp body
  | .comp _ _ _ _ => False
def NoCompItems : Items → Prop
  | .nil => True
  | .cons _ op rest => NoComp op ∧ NoCompItems rest
end

mutual
/-- Bodies of loops do not have a negative duration. -/
def DurOk : Op → Prop
  | .plain _ _ => True
  | .sched items _ => DurOkItems items
  | .loop body _ => DurOk body ∧ ∀ d, body.duration = some d → 0 ≤ d
  | .cond body _ => DurOk body
  | .other body => DurOk body
  | .comp body _ _ _ => DurOk body
def DurOkItems : Items → Prop
  | .nil => True
  | .cons _ op rest => DurOk op ∧ DurOkItems rest
end

end Verif.Compensation
