/-
Theorems about `spin_init_pulse`.
-/
import Verif.SpinInit.Spec
import Verif.Timing.ExplicitLemmas
import Mathlib.Tactic.Linarith
import Mathlib.Tactic.Ring
import Mathlib.Tactic.NormNum
import Mathlib.Algebra.Order.Group.Abs
import Mathlib.Data.Rat.Lemmas

set_option linter.unusedSimpArgs false

namespace Verif.SpinInit

open Verif.Timing

/-- Four schedulables with one constraint each, none of which names a reference. -/
def four (d0 d1 d2 d3 : Rat) (p1 p2 p3 : Option RefPt) (r2 r3 : Rat) : List (Item Nat) :=
  [ { key := 0, dur := d0, delay := none, cons := [⟨none, none, none, 0⟩], abs := none },
    { key := 1, dur := d1, delay := none, cons := [⟨none, p1, none, 0⟩], abs := none },
    { key := 2, dur := d2, delay := none, cons := [⟨none, p2, none, r2⟩], abs := none },
    { key := 3, dur := d3, delay := none, cons := [⟨none, p3, none, r3⟩], abs := none } ]

/-- The same with explicit constraints, for the ASAP strategy. -/
def fourAsap (d d2 d3 r2 r3 : Rat) : List (Item Nat) :=
  [ { key := 0, dur := d, delay := none, cons := [⟨none, some .stop, some .start, 0⟩], abs := none },
    { key := 1, dur := d, delay := none, cons := [⟨some 0, some .start, some .start, 0⟩], abs := none },
    { key := 2, dur := d2, delay := none, cons := [⟨some 1, some .stop, some .start, r2⟩], abs := none },
    { key := 3, dur := d3, delay := none, cons := [⟨some 2, some .start, some .start, r3⟩], abs := none } ]

/-- The same with explicit constraints, for the ALAP strategy. -/
def fourAlap (d d2 d3 r2 r3 : Rat) : List (Item Nat) :=
  [ { key := 0, dur := d, delay := none, cons := [⟨some 1, some .start, some .stop, 0⟩], abs := none },
    { key := 1, dur := d, delay := none, cons := [⟨some 2, some .start, some .stop, 0⟩], abs := none },
    { key := 2, dur := d2, delay := none, cons := [⟨some 3, some .stop, some .stop, r2⟩], abs := none },
    { key := 3, dur := d3, delay := none, cons := [⟨none, some .start, some .stop, r3⟩], abs := none } ]

theorem four_asap {d d2 d3 r2 r3 : Rat} (h2 : 0 ≤ d + r2) (h3 : 0 ≤ d + r2 + r3) :
    (timing .asap (four d d d2 d3 (some .start) (some .stop) (some .start) r2 r3)).map
      (fun o => o.map (·.abs)) = .ok [some 0, some 0, some (d + r2), some (d + r2 + r3)] := by
  have e : makeExplicit .asap (four d d d2 d3 (some .start) (some .stop) (some .start) r2 r3) =
    .ok (fourAsap d d2 d3 r2 r3) := rfl
  have ht : topoSort (predsOf (fourAsap d d2 d3 r2 r3)) ((fourAsap d d2 d3 r2 r3).map (·.key)) =
      some [0, 1, 2, 3] := by
    simp [fourAsap, topoSort, topoAux, predsOf, findItem, Item.refs]
  have hc : refsClosed (fourAsap d d2 d3 r2 r3) = true := by simp [fourAsap, refsClosed, Item.refs]
  unfold timing
  rw [if_neg (by simp [four]), e]
  simp only [ht, hc, if_true]
  simp [fourAsap, timeWith, run, step, initSt, findItem, noteDelay, addDelay, upd, asapFold,
    getStartTime, offset, writeBack, normalize, minAbs, h2, h3, Except.map]

theorem four_alap {d d2 d3 r2 r3 : Rat} :
    ∃ m : Rat, (timing .alap (four d d d2 d3 (some .start) (some .stop) (some .start) r2 r3)).map
      (fun o => o.map (·.abs)) = .ok [some (d3 + r2 - d2 - d - d - m), some (d3 + r2 - d2 - d - m),
        some (d3 + r2 - d2 - m), some (0 - m)] := by
  have e : makeExplicit .alap (four d d d2 d3 (some .start) (some .stop) (some .start) r2 r3) =
    .ok (fourAlap d d2 d3 r2 r3) := rfl
  have ht : topoSort (predsOf (fourAlap d d2 d3 r2 r3)) ((fourAlap d d2 d3 r2 r3).map (·.key)) =
      some [3, 2, 1, 0] := by
    simp [fourAlap, topoSort, topoAux, predsOf, findItem, Item.refs]
  have hc : refsClosed (fourAlap d d2 d3 r2 r3) = true := by simp [fourAlap, refsClosed, Item.refs]
  unfold timing
  rw [if_neg (by simp [four]), e]
  simp only [ht, hc, if_true, timeWith]
  have hr : ∃ st, run .alap (fourAlap d d2 d3 r2 r3) true (initSt (fourAlap d d2 d3 r2 r3))
        [3, 2, 1, 0] = .ok st ∧
      (writeBack (fourAlap d d2 d3 r2 r3) st).map (·.abs) =
        [some (d3 + r2 - d2 - d - d), some (d3 + r2 - d2 - d), some (d3 + r2 - d2), some 0] := by
    simp [fourAlap, run, step, initSt, findItem, noteDelay, addDelay, upd, getStartTime, offset,
      writeBack]
  obtain ⟨st, h1, h2⟩ := hr
  rw [h1]
  simp only
  generalize writeBack _ st = w at h2 ⊢
  have hm : ∃ m, minAbs w = .ok m :=
    minAbs_of (by rintro rfl; simp at h2) (by
      intro it hit hn
      have : it.abs ∈ w.map (·.abs) := List.mem_map_of_mem hit
      rw [h2, hn] at this
      simp at this)
  obtain ⟨m, hm⟩ := hm
  unfold normalize
  rw [hm]
  simp only
  split
  · refine ⟨m, ?_⟩
    simp only [Except.map, List.map_map]
    have : ((fun x : Item Nat => x.abs) ∘ fun it => { it with abs := it.abs.map (· - m) }) =
      (fun o : Option Rat => o.map (· - m)) ∘ (fun x : Item Nat => x.abs) := rfl
    rw [this, ← List.map_map, h2]
    simp
  · refine ⟨0, ?_⟩
    simp [Except.map, h2]

/-- C87, for the ASAP strategy: what is meant is played. -/
theorem asap_meant_partial (a : Args) (hd : 0 ≤ a.squareDuration) (hp : a.parent.rampRate ≠ 0)
    (hc : a.child.rampRate ≠ 0) : ∃ l, play .asap a = .ok l ∧ Meant a l := by
  have hs : 0 ≤ a.squareDuration + |min a.rampDiff 0| := add_nonneg hd (abs_nonneg _)
  have hr : a.squareDuration ≤ a.squareDuration + |min a.rampDiff 0| + a.rampDiff := by
    rcases le_total a.rampDiff 0 with h | h
    · rw [min_eq_left h, abs_of_nonpos h]; linarith
    · rw [min_eq_right h]; simp; exact h
  have key := four_asap (d := a.squareDuration) (d2 := a.parent.rampAmp / a.parent.rampRate)
    (d3 := a.child.rampAmp / a.child.rampRate) (r2 := |min a.rampDiff 0|) (r3 := a.rampDiff)
    hs (le_trans hd hr)
  unfold play spinInit
  simp only [pyDiv, if_neg hp, if_neg hc]
  have hi : items 0 [(Pulse.square a.parent.squareAmp a.squareDuration a.parent.port a.parent.clock, none, 0),
      (Pulse.square a.child.squareAmp a.squareDuration a.child.port a.child.clock, some .start, 0),
      (.ramp a.parent.rampAmp (a.parent.rampAmp / a.parent.rampRate) a.parent.port a.parent.clock, some .stop, |min a.rampDiff 0|),
      (.ramp a.child.rampAmp (a.child.rampAmp / a.child.rampRate) a.child.port a.child.clock, some .start, a.rampDiff)]
    = four a.squareDuration a.squareDuration (a.parent.rampAmp / a.parent.rampRate)
      (a.child.rampAmp / a.child.rampRate) (some .start) (some .stop) (some .start)
      |min a.rampDiff 0| a.rampDiff := rfl
  rw [hi]
  cases ht : timing .asap (four a.squareDuration a.squareDuration (a.parent.rampAmp / a.parent.rampRate)
      (a.child.rampAmp / a.child.rampRate) (some .start) (some .stop) (some .start)
      |min a.rampDiff 0| a.rampDiff) with
  | error e => rw [ht] at key; simp [Except.map] at key
  | ok out =>
    rw [ht] at key
    simp only [Except.map, Except.ok.injEq] at key
    refine ⟨_, rfl, _, _, _, _, by rw [key]; rfl, div_mul_cancel₀ _ hp, div_mul_cancel₀ _ hc,
      by ring, by linarith [abs_nonneg (min a.rampDiff 0)], hr, ?_⟩
    rcases le_total a.rampDiff 0 with h | h
    · right; rw [min_eq_left h, abs_of_nonpos h]; ring
    · left; rw [min_eq_right h]; simp

/-- What is meant determines what is played. -/
theorem meant_unique {a : Args} (hp : a.parent.rampRate ≠ 0) (hc : a.child.rampRate ≠ 0)
    {l l' : List (Pulse × Option Rat)} (h : Meant a l) (h' : Meant a l') : l = l' := by
  obtain ⟨dp, dc, tp, tc, rfl, h1, h2, h3, h4, h5, h6⟩ := h
  obtain ⟨dp', dc', tp', tc', rfl, g1, g2, g3, g4, g5, g6⟩ := h'
  have e1 : dp = dp' := mul_right_cancel₀ hp (h1.trans g1.symm)
  have e2 : dc = dc' := mul_right_cancel₀ hc (h2.trans g2.symm)
  have e3 : tp = tp' := by rcases h6 with h6 | h6 <;> rcases g6 with g6 | g6 <;> linarith
  have e4 : tc = tc' := by linarith
  rw [e1, e2, e3, e4]

/-- A rate of 0 raises a `ZeroDivisionError`, whatever the strategy. -/
theorem zero_rate {a : Args} (strat : Strategy)
    (h : a.parent.rampRate = 0 ∨ a.child.rampRate = 0) :
    play strat a = .error .zeroDivision := by
  unfold play spinInit pyDiv
  by_cases hp : a.parent.rampRate = 0
  · simp [hp]
  · simp [hp, h.resolve_left hp]

/-- Finding: with the ALAP strategy the square of the child starts when that of the parent ends,
and not together with it: what is meant is never played (unless the squares have no duration). -/
theorem alap_never_meant (a : Args) (hd : 0 < a.squareDuration) (hp : a.parent.rampRate ≠ 0)
    (hc : a.child.rampRate ≠ 0) :
    ∃ ps cs pr cr t, play .alap a = .ok [(ps, some t), (cs, some (t + a.squareDuration)), pr, cr] ∧
      ∀ l, play .alap a = .ok l → ¬ Meant a l := by
  obtain ⟨m, key⟩ := four_alap (d := a.squareDuration) (d2 := a.parent.rampAmp / a.parent.rampRate)
    (d3 := a.child.rampAmp / a.child.rampRate) (r2 := |min a.rampDiff 0|) (r3 := a.rampDiff)
  have main : ∃ ps cs pr cr t,
      play .alap a = .ok [(ps, some t), (cs, some (t + a.squareDuration)), pr, cr] := by
    unfold play spinInit
    simp only [pyDiv, if_neg hp, if_neg hc]
    have hi : items 0 [(Pulse.square a.parent.squareAmp a.squareDuration a.parent.port a.parent.clock, none, 0),
        (Pulse.square a.child.squareAmp a.squareDuration a.child.port a.child.clock, some .start, 0),
        (.ramp a.parent.rampAmp (a.parent.rampAmp / a.parent.rampRate) a.parent.port a.parent.clock, some .stop, |min a.rampDiff 0|),
        (.ramp a.child.rampAmp (a.child.rampAmp / a.child.rampRate) a.child.port a.child.clock, some .start, a.rampDiff)]
      = four a.squareDuration a.squareDuration (a.parent.rampAmp / a.parent.rampRate)
        (a.child.rampAmp / a.child.rampRate) (some .start) (some .stop) (some .start)
        |min a.rampDiff 0| a.rampDiff := rfl
    rw [hi]
    cases ht : timing .alap (four a.squareDuration a.squareDuration (a.parent.rampAmp / a.parent.rampRate)
        (a.child.rampAmp / a.child.rampRate) (some .start) (some .stop) (some .start)
        |min a.rampDiff 0| a.rampDiff) with
    | error e => rw [ht] at key; simp [Except.map] at key
    | ok out =>
      rw [ht] at key
      simp only [Except.map, Except.ok.injEq] at key
      have z : ∀ A B C m : Rat, C - A - A - m + A = C - A - m := fun A B C m => by ring
      simp only [key, List.map_cons, List.map_nil, List.zip_cons_cons, List.zip_nil_right]
      exact ⟨_, _, _, _, (a.child.rampAmp / a.child.rampRate) + |min a.rampDiff 0|
        - a.parent.rampAmp / a.parent.rampRate - a.squareDuration - a.squareDuration - m,
        by rw [z _ 0]⟩
  obtain ⟨ps, cs, pr, cr, t, h⟩ := main
  refine ⟨ps, cs, pr, cr, t, h, ?_⟩
  rintro l hl ⟨dp, dc, tp, tc, rfl, -⟩
  rw [h] at hl
  simp only [Except.ok.injEq, List.cons.injEq, Prod.mk.injEq, Option.some.injEq] at hl
  linarith [hl.1.2, hl.2.1.2]

/-- Finding: a ramp whose rate has not the sign of its amplitude gets a negative duration, and is
not refused. -/
theorem negative_duration {a : Args} {l : List (Pulse × Option Rat)} (h : Meant a l)
    (hs : a.parent.rampAmp * a.parent.rampRate < 0) :
    ∃ p t, l[2]? = some (p, t) ∧ p.dur < 0 := by
  obtain ⟨dp, dc, tp, tc, rfl, h1, -⟩ := h
  refine ⟨_, _, rfl, ?_⟩
  show dp < 0
  rw [← h1] at hs
  by_contra hn
  nlinarith [mul_self_nonneg a.parent.rampRate,
    mul_nonneg (not_lt.1 hn) (mul_self_nonneg a.parent.rampRate)]

/-- A concrete case: the ramp of the child starts first. -/
def exArgs : Args where
  squareDuration := 100
  rampDiff := -8
  parent := ⟨"e0:port", "cl0.baseband", 1 / 2, 1 / 4, 1 / 200⟩
  child := ⟨"e1:port", "cl0.baseband", 1 / 3, -1 / 5, -1 / 100⟩

/-- It meets the hypotheses; the times with the ASAP strategy. -/
theorem exArgs_asap : play .asap exArgs = .ok
    [(.square (1 / 2) 100 "e0:port" "cl0.baseband", some 0),
     (.square (1 / 3) 100 "e1:port" "cl0.baseband", some 0),
     (.ramp (1 / 4) 50 "e0:port" "cl0.baseband", some 108),
     (.ramp (-1 / 5) 20 "e1:port" "cl0.baseband", some 100)] := by decide +kernel

/-- The times with the ALAP strategy. -/
theorem exArgs_alap : play .alap exArgs = .ok
    [(.square (1 / 2) 100 "e0:port" "cl0.baseband", some 0),
     (.square (1 / 3) 100 "e1:port" "cl0.baseband", some 100),
     (.ramp (1 / 4) 50 "e0:port" "cl0.baseband", some 200),
     (.ramp (-1 / 5) 20 "e1:port" "cl0.baseband", some 222)] := by decide +kernel

example : ∃ l, play .asap exArgs = .ok l ∧ Meant exArgs l :=
  asap_meant_partial exArgs (by norm_num [exArgs]) (by norm_num [exArgs]) (by norm_num [exArgs])

end Verif.SpinInit
