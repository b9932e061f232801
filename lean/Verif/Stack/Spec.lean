/-
What a list of pulses plays.
-/
import Verif.Stack.Model

namespace Verif.Stack

variable {V : Type} [AddCommMonoid V]

/-- The value of a waveform `m` ns after its start. -/
def Wave.val : Wave V → Int → V
  | .noWf, _ => 0
  | .square d a, m => if 0 ≤ m ∧ m < d then a else 0
  | .samples l, m => if 0 ≤ m then l.getD m.toNat 0 else 0

/-- The value an operation plays at instant `n` on a port-clock. -/
def entryVal (pc : String × String) (n : Int) (e : Entry V) : V :=
  (e.infos.map (fun i => if i.pc = pc then i.wave.val (n - e.absTime - i.t0) else 0)).sum

/-- The total amplitude at instant `n` on a port-clock. -/
def ampAt (s : List (Entry V)) (pc : String × String) (n : Int) : V :=
  (s.map (entryVal pc n)).sum

/-- The operation plays a pulse at instant `n` on the port-clock. -/
def ActiveOn (pc : String × String) (n : Int) (e : Entry V) : Prop :=
  ∃ i ∈ e.infos, i.pc = pc ∧ 0 ≤ n - e.absTime - i.t0 ∧ n - e.absTime - i.t0 < i.wave.dur

/-- No two operations play on the port-clock at the same instant. -/
def NoOverlap (pc : String × String) (s : List (Entry V)) : Prop :=
  s.Pairwise (fun a b => ∀ n, ¬ (ActiveOn pc n a ∧ ActiveOn pc n b))

/-- An operation with one pulse that has a waveform, or with no waveform at all. -/
def Single (e : Entry V) : Prop :=
  (∃ i, e.infos = [i] ∧ i.wave.hasWf = true) ∨ ∀ i ∈ e.infos, i.wave = .noWf

/-- Start and end of the first pulse. -/
def Entry.start (e : Entry V) : Int := e.absTime + (e.first?.map Info.t0).getD 0
def Entry.stop (e : Entry V) : Int := e.start + (e.first?.map (fun i => (i.wave.dur : Int))).getD 0

/-- The operation has its pulse on `pc`. -/
def onPc (pc : String × String) (e : Entry V) : Bool :=
  e.key.isSome && decide (e.first?.map Info.pc = some pc)

/-- All pulses on `pc` are square, or no other pulse on `pc` starts or ends one sample before the
end of a pulse. -/
def NearEndFree (pc : String × String) (s : List (Entry V)) : Prop :=
  (∀ e ∈ s, onPc pc e = true → ∀ i ∈ e.infos, i.wave.isSquare = true) ∨
  ∀ a ∈ s, ∀ b ∈ s, onPc pc a = true → onPc pc b = true → a.key ≠ b.key →
    a.stop ≠ b.start + 1 ∧ a.stop ≠ b.stop + 1

/-- The inputs for which stacking is proved right. -/
structure Good (s : List (Entry V)) : Prop where
  keyed : ∀ e ∈ s, e.key.isSome = true
  keys_nodup : (s.map Entry.key).Nodup
  single : ∀ e ∈ s, Single e
  near : ∀ pc, NearEndFree pc s

end Verif.Stack
