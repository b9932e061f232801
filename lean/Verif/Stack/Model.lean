/-
Stacking of overlapping pulses (quantify_scheduler/backends/qblox/stack_pulses.py).

Simplifications: times are integer ns (the conversion `to_grid_time`, stack_pulses.py:96,101, is
the subject of C26; one sample is one ns, `constants.SAMPLING_RATE` = 1e9); samples are values of
an arbitrary type with addition (real or complex); Python sets are lists without repeats, since
addition commutes their order does not matter; new schedulables carry no key (`none`), as their
uuid is never looked up; waveform generation of a non-square pulse is its list of samples, one per
ns of its duration (helpers.py:84-87).  Of an operation only `pulse_info` and whether it has an
acquisition are kept.
-/
import Mathlib.Algebra.BigOperators.Group.List.Basic

namespace Verif.Stack

/-- Exceptions. -/
inductive Err where
  | valueError
  | keyError
  | typeError
deriving DecidableEq, Repr

/-- The waveform of a `pulse_info` entry. -/
inductive Wave (V : Type) where
  /-- `wf_func` is `None` -/
  | noWf
  /-- `wf_func` is `quantify_scheduler.waveforms.square` -/
  | square (dur : Nat) (amp : V)
  /-- any other waveform -/
  | samples (l : List V)
deriving DecidableEq, Repr

/-- A `pulse_info` entry. -/
structure Info (V : Type) where
  pc : String × String
  t0 : Int
  wave : Wave V
deriving DecidableEq, Repr

/-- A schedulable with its operation. -/
structure Entry (V : Type) where
  key : Option Nat
  absTime : Int
  infos : List (Info V)
  acq : Bool
deriving DecidableEq, Repr

variable {V : Type} [AddCommMonoid V]

/-- The duration. -/
def Wave.dur : Wave V → Nat
  | .noWf => 0
  | .square d _ => d
  | .samples l => l.length

/-- `pulse_info.get("wf_func")` is set. -/
def Wave.hasWf : Wave V → Bool
  | .noWf => false
  | _ => true

/-- `is_square_pulse` (helpers.py:1530-1548), for one entry. -/
def Wave.isSquare : Wave V → Bool
  | .square _ _ => true
  | _ => false

/-- `PulseParameters` (stack_pulses.py:35-41). -/
structure Ev where
  time : Int
  isEnd : Bool
  key : Nat
deriving DecidableEq, Repr

/-- `PulseInterval` (stack_pulses.py:26-32). -/
structure Interval where
  start : Int
  stop : Int
  keys : List Nat
deriving DecidableEq, Repr

/-- The first pulse of an operation, if it has a waveform (stack_pulses.py:86-90). -/
def Entry.first? (e : Entry V) : Option (Info V) :=
  match e.infos with
  | [] => none
  | i :: _ => if i.wave.hasWf then some i else none

/-- The two events of a schedulable on port-clock `pc` (stack_pulses.py:91-106). -/
def entryEvents (pc : String × String) (e : Entry V) : List Ev :=
  match e.key, e.first? with
  | some k, some i =>
    if i.pc = pc then
      [⟨e.absTime + i.t0, false, k⟩, ⟨e.absTime + i.t0 + i.wave.dur, true, k⟩]
    else []
  | _, _ => []

/-- The list of `pc` in `_construct_pulses_by_port_clock` (stack_pulses.py:74-108). -/
def events (s : List (Entry V)) (pc : String × String) : List Ev := s.flatMap (entryEvents pc)

/-- The keys of `_construct_pulses_by_port_clock` in order. -/
def portClocks (s : List (Entry V)) : List (String × String) :=
  s.foldl (fun pcs e => match e.first? with
    | some i => if i.pc ∈ pcs then pcs else pcs ++ [i.pc]
    | none => pcs) []

/-- The sort key `(time, is_end)` (stack_pulses.py:66). -/
def evLe (a b : Ev) : Bool :=
  decide (a.time < b.time) || (decide (a.time = b.time) && (!a.isEnd || b.isEnd))

/-- `set.add`. -/
def addKey (k : Nat) (act : List Nat) : List Nat := if k ∈ act then act else act ++ [k]

/-- `_construct_pulses_by_interval` (stack_pulses.py:111-157) with `last_time` and
`active_pulses`.  (`remove` of an absent key does not occur, as the start of a pulse is sorted
before its end.) -/
def sweep : Option Int → List Nat → List Ev → List Interval
  | _, _, [] => []
  | none, act, e :: es => sweep (some e.time) (addKey e.key act) es
  | some t, act, e :: es =>
    let act' := if e.isEnd then act.erase e.key else addKey e.key act
    if e.time > t then
      (if act.isEmpty then [] else [⟨t, e.time, act⟩]) ++ sweep (some e.time) act' es
    else sweep (some t) act' es

/-- `schedule.schedulables[key]` with its operation. -/
def lookup (s : List (Entry V)) (k : Nat) : Option (Entry V) := s.find? (fun e => e.key == some k)

/-- The samples of a pulse: `generate_waveform_data` (helpers.py:46-89). -/
def Wave.data : Wave V → Option (List V)
  | .noWf => none
  | .square d a => some (List.replicate d a)
  | .samples l => some l

/-- A Python slice `l[a:b]` with possibly negative bounds. -/
def pySlice (l : List V) (a b : Int) : List V :=
  let n : Int := l.length
  let lo := if a < 0 then max 0 (n + a) else min a n
  let hi := if b < 0 then max 0 (n + b) else min b n
  (l.drop lo.toNat).take (hi - lo).toNat

/-- `np.add`: equal lengths, or one of length 1 is broadcast, else `ValueError`. -/
def npAdd (a b : List V) : Except Err (List V) :=
  if a.length = b.length then .ok (List.zipWith (· + ·) a b)
  else match a, b with
    | [x], b => .ok (b.map (x + ·))
    | a, [y] => .ok (a.map (· + y))
    | _, _ => .error .valueError

/-- The body of the inner loop of `_stack_arbitrary_pulses` (stack_pulses.py:199-221). -/
def addInfo (iv : Interval) (absTime : Int) (combined : List V) (i : Info V) :
    Except Err (List V) :=
  match i.wave.data with
  | none => .error .typeError
  | some w =>
    let a := iv.start - absTime - i.t0
    let b := a + (iv.stop - iv.start)
    if b = (w.length : Int) - 1 then npAdd (combined ++ [0]) (pySlice w a (b + 1))
    else npAdd combined (pySlice w a b)

/-- The operation of a key. -/
def getEntry (s : List (Entry V)) (k : Nat) : Except Err (Entry V) :=
  match lookup s k with
  | none => .error .keyError
  | some e => .ok e

/-- The two loops of `_stack_arbitrary_pulses` (stack_pulses.py:196-223). -/
def addKeys (s : List (Entry V)) (iv : Interval) : List Nat → List V → Except Err (List V)
  | [], c => .ok c
  | k :: ks, c => do
    let e ← getEntry s k
    let c ← e.infos.foldlM (addInfo iv e.absTime) c
    addKeys s iv ks c

/-- The new schedulable of `_stack_arbitrary_pulses` (stack_pulses.py:222-235); the port and
clock are those of the first pulse. -/
def arbitraryOf (iv : Interval) (c : List V) (e : Entry V) : Except Err (Entry V) :=
  match e.infos with
  | [] => .error .valueError
  | i :: _ => .ok ⟨none, iv.start, [⟨i.pc, 0, .samples c⟩], false⟩

/-- `_stack_arbitrary_pulses` (stack_pulses.py:187-235). -/
def stackArbitrary (s : List (Entry V)) (iv : Interval) : Except Err (Entry V) := do
  let c ← addKeys s iv iv.keys (List.replicate (iv.stop - iv.start).toNat 0)
  let e ← getEntry s (iv.keys.headD 0)
  arbitraryOf iv c e

/-- The amplitude of a square pulse. -/
def Wave.amp : Wave V → V
  | .square _ a => a
  | _ => 0

/-- The combined square pulse of the operations of an interval (stack_pulses.py:243-258): the
first pulse of the first operation is copied with the whole operation, the amplitudes of all the
others are added. -/
def squareOf (iv : Interval) : List (Entry V) → Except Err (Entry V)
  | [] => .error .valueError
  | e :: rest =>
    match e.infos with
    | [] => .error .valueError
    | i :: is =>
      .ok ⟨none, iv.start,
        ⟨i.pc, 0, .square (iv.stop - iv.start).toNat
          (i.wave.amp + ((is ++ rest.flatMap Entry.infos).map (fun j => j.wave.amp)).sum)⟩ :: is,
        e.acq⟩

/-- `_stack_square_pulses` (stack_pulses.py:238-259). -/
def stackSquare (s : List (Entry V)) (iv : Interval) : Except Err (Entry V) := do
  let es ← iv.keys.mapM (getEntry s)
  squareOf iv es

/-- One interval of `_stack_pulses_by_interval` (stack_pulses.py:165-175). -/
def stackInterval (s : List (Entry V)) (iv : Interval) : Except Err (Entry V) := do
  let es ← iv.keys.mapM (getEntry s)
  if es.all (fun e => e.infos.all (fun i => i.wave.isSquare)) then stackSquare s iv
  else stackArbitrary s iv

/-- `_stack_pulses_by_interval` (stack_pulses.py:160-184).  (New schedulables are appended, the
old ones deleted; timing constraints are not modelled.) -/
def stackIntervals (s : List (Entry V)) (ivs : List Interval) : Except Err (List (Entry V)) := do
  let new ← ivs.mapM (stackInterval s)
  let old := ivs.flatMap Interval.keys
  .ok (s.filter (fun e => match e.key with | some k => !old.contains k | none => true) ++ new)

/-- One port-clock of `stack_pulses` (stack_pulses.py:65-70). -/
def stackPc (s : List (Entry V)) (evs : List Ev) : Except Err (List (Entry V)) :=
  let ivs := sweep none [] (evs.mergeSort evLe)
  if ivs.any (fun iv => decide (iv.keys.length > 1)) then stackIntervals s ivs else .ok s

/-- `stack_pulses` (stack_pulses.py:47-72) for the operations of one schedule. -/
def stackLevel (s : List (Entry V)) : Except Err (List (Entry V)) :=
  (portClocks s).foldlM (fun cur pc => stackPc cur (events s pc)) s

end Verif.Stack
