/-
The conditions under which the compiled program is shown to be right: what the rest of the
compiler guarantees about the operations (part 1), and the real limits of the generated code
(part 2, each shown to be needed in the property files).
-/
import Verif.Q1.Spec

namespace Verif.Q1

/-- Waits longer than this do not fit the loop counter (about 78 hours). -/
def horizon : Int := 65532 * 2 ^ 32

/-- A plain operation is as the compiler builds it: only idle pulses are named "IdlePulse"; its
bin register is not one of the free registers `A`; times below the horizon. -/
structure Leaf.Ok (A : List Reg) (l : Leaf) : Prop where
  idle : l.isIdle = true → l.strat = .idle ∧ l.debug = none
  bin : ∀ r, l.strat.binReg = some r → r ∉ A
  t : l.t < horizon
  dur : l.strat.dur < horizon

/-- Operations for which the compiler counts the right number of real-time instructions: all but
trigger-count, timetag, latch-reset and debug-marker operations. -/
def Leaf.countedRight (l : Leaf) : Prop :=
  l.debug = none ∧
  match l.strat with
  | .pulse .. => l.isRT = true
  | .updParam => l.isRT = true
  | .square .. => l.isRT = true
  | .weighed .. => l.isRT = true
  | .latchReset _ => False
  | .ttl .. => False
  | .timetag .. => False
  | _ => l.isRT = false

/-- The gaps between the operations of a conditional body are zero or at least 4 ns (the
sequencer's shortest wait), starting from time `e`. -/
def gapsOk : Int → List Leaf → Int → Prop
  | e, [], tEnd => tEnd = e ∨ e + 4 ≤ tEnd
  | e, l :: ls, tEnd =>
    (l.t = e ∨ e + 4 ≤ l.t ∨ (l.isIdle = true ∧ l.t ≤ e)) ∧
    gapsOk (max e l.t + l.strat.dur) ls tEnd

/-- The forest is as the compiler builds it and within the limits of the generated code. -/
def Forest.Ok (A : List Reg) : Forest → Prop
  | .nil => True
  | .leaf l f => l.Ok A ∧ f.Ok A
  | .loop t n b e f => (1 ≤ n ∧ n < 2 ^ 32) ∧ t < horizon ∧ e < horizon ∧ b.Ok A ∧ f.Ok A
  | .cond t c b e f => c.enable = true ∧ t < horizon ∧ e < horizon ∧ e - t ≤ 65528 ∧
      (∀ l ∈ b, l.Ok A ∧ l.countedRight) ∧ gapsOk t b e ∧ f.Ok A

/-- The trigger counters do not change while a conditional is being executed. -/
def Forest.Stable (env : Env) : Forest → Int → Prop
  | .nil, _ => True
  | .leaf _ f, δ => f.Stable env δ
  | .loop t n b e f, δ => (∀ i : Nat, i < n → b.Stable env (δ + i * (e - t))) ∧ f.Stable env δ
  | .cond t _ _ e f, δ =>
    (∀ τ, t + δ ≤ τ → τ ≤ e + δ + 4 → env τ = env (t + δ)) ∧ f.Stable env δ

end Verif.Q1
