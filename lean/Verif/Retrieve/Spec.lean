/-
What retrieved data should be.
-/
import Verif.Retrieve.Model

namespace Verif.Retrieve

open Verif.Numeric (pyRound)

/-- `n` is `x` without its fractional part. -/
def Truncated (x : Rat) (n : Int) : Prop :=
  (0 ≤ x ∧ (n : Rat) ≤ x ∧ x < n + 1) ∨ (x < 0 ∧ x ≤ n ∧ (n : Rat) < x + 1)

/-- The value returned for a complex bin with parts `i` and `q`, scaled by `f`. -/
def ShowsComplex (i q : Val) (f : Rat → Rat → Rat × Rat) (o : Out) : Prop :=
  (∀ x y, i = some x → q = some y → o = .cplx (f x y).1 (f x y).2) ∧
  ((i = none ∨ q = none) → o = .nan)

/-- What `o` must be, given the contents of bin `k`, for each protocol (as documented in
acquisition_library.py):
* integrations: the integrated I and Q, as a complex number; for `SSBIntegrationComplex` divided by
  the integration length; for the real weighted integration the sum of both;
* thresholded acquisitions: the thresholded value, -1 if there is none;
* trigger counts: the count, without fractional part; on a QTM with bin mode sum times the
  repetitions; thresholded trigger counts: whether the rounded count satisfies the condition, -1 if
  there is none;
* timetags: nanoseconds, where the hardware counts in units of 1/2048 ns. -/
def Shows (mod : Module) (c : Chan) (reps dur : Nat) (m : Option (Condition × Int)) (b : BinData)
    (k : Nat) (o : Out) : Prop :=
  match c.protocol with
  | .ssbIntegrationComplex =>
    ∃ i q, b.path0[k]? = some i ∧ b.path1[k]? = some q ∧
      ShowsComplex i q (fun x y => (x / dur, y / dur)) o
  | .weightedIntegratedSeparated =>
    ∃ i q, b.path0[k]? = some i ∧ b.path1[k]? = some q ∧ ShowsComplex i q (fun x y => (x, y)) o
  | .numericalSeparatedWeightedIntegration =>
    ∃ i q, b.path0[k]? = some i ∧ b.path1[k]? = some q ∧ ShowsComplex i q (fun x y => (x, y)) o
  | .numericalWeightedIntegration =>
    ∃ i q, b.path0[k]? = some i ∧ b.path1[k]? = some q ∧ ShowsComplex i q (fun x y => (x + y, 0)) o
  | .thresholdedAcquisition =>
    ∃ v, b.threshold[k]? = some v ∧ (∀ x, v = some x → o = .real x) ∧ (v = none → o = .int (-1))
  | .weightedThresholdedAcquisition =>
    ∃ v, b.threshold[k]? = some v ∧ (∀ x, v = some x → o = .real x) ∧ (v = none → o = .int (-1))
  | .triggerCount =>
    ∃ x n, b.counts[k]? = some (some x) ∧ Truncated x n ∧
      o = .int (if mod = .qtm ∧ c.mode = .sum then reps * n else n)
  | .dualThresholdedTriggerCount =>
    ∃ x n, b.counts[k]? = some (some x) ∧ Truncated x n ∧ o = .int n
  | .thresholdedTriggerCount =>
    ∃ v cond t, m = some (cond, t) ∧ b.counts[k]? = some v ∧ (v = none → o = .int (-1)) ∧
      (∀ x, v = some x → o = .int 0 ∨ o = .int 1) ∧
      (∀ x, v = some x → (o = .int 1 ↔
        match cond with
        | .greaterThanEqual => t ≤ pyRound x
        | .lessThan => pyRound x < t))
  | .timetag => ∃ v, b.timedelta[k]? = some v ∧ (∀ x, v = some x → o = .real (x / 2048)) ∧
      (v = none → o = .nan)
  | .trace => False
  | .timetagTrace => False

/-- The number of rows of a channel's data: one per repetition in append mode, one otherwise. -/
def Chan.rows (c : Chan) (reps : Nat) : Nat := if c.mode = .append then reps else 1

/-- The bin of an acquisition in a row. -/
def Entry.binOf (e : Entry) (c : Chan) (row : Nat) : Nat :=
  if c.mode = .append then e.bin + row * e.stride else e.bin

/-- What the hardware has measured, on one sequencer: `o` is to be returned for channel `ch` at
acquisition index `acq` in a row. -/
def Measured {Ch : Type} (mod : Module) (chans : Ch → Option Chan) (reps : Nat)
    (job : Seq × Ch × Mapping) (ch : Ch) (row acq : Nat) (o : Out) : Prop :=
  job.2.1 = ch ∧ ∃ c e hw, chans ch = some c ∧ row < c.rows reps ∧ Dict.get? job.2.2 acq = some e ∧
    job.1.hw e.index = some hw ∧ hw.index = e.index ∧
    Shows mod c reps job.1.dur e.meta? hw.bins (e.binOf c row) o

/-- The value in a dataset. -/
def cellOf {Ch : Type} [DecidableEq Ch] (ds : List (Ch × Arr)) (ch : Ch) (row acq : Nat) :
    Option Out :=
  (Dict.get? ds ch).bind (fun a => a.cell row acq)

/-- The scope data of windows: each is opened, then come its events, then it is closed. -/
def scopeOf : List (Rat × List Rat × Rat) → List (Event × Rat)
  | [] => []
  | (t, es, t') :: ws => (.opened, t) :: es.map (fun e => (Event.rise, e)) ++ (.closed, t') :: scopeOf ws

/-- The number of windows with exactly `k` counts. -/
def exactly (windows : List Nat) (k : Nat) : Nat := windows.countP (fun w => w = k)

/-- The number of windows with at least `k` counts. -/
def atLeast (windows : List Nat) (k : Nat) : Nat := windows.countP (fun w => k ≤ w)

end Verif.Retrieve
