/-
What the users of the acquisition index manager see: which requests were granted, and with what.
-/
import Verif.AcqBins.Model

namespace Verif.AcqBins

variable {Ch : Type} [DecidableEq Ch]

/-- A granted request: what was asked for, the hardware index and the first bin. -/
structure Grant (Ch : Type) where
  req : Req Ch
  index : Nat
  first : Nat

/-- The channel of a request. -/
def Req.ch : Req Ch → Ch
  | .bins ch _ _ => ch
  | .index ch => ch
  | .trace ch => ch
  | .timetag ch _ _ => ch

/-- For requests of individual bins: acquisition indices and repetitions. -/
def Req.acqs? : Req Ch → Option (List Nat × Nat)
  | .bins _ a r => some (a, r)
  | .timetag _ a r => some (a, r)
  | _ => none

/-- Number of individual bins asked for: one per acquisition index and repetition. -/
def Req.size (r : Req Ch) : Nat :=
  match r.acqs? with
  | some (a, n) => a.length * n
  | none => 0

/-- The request asks for something: at least one acquisition and one repetition. -/
def Req.Real (r : Req Ch) : Prop := ∀ a n, r.acqs? = some (a, n) → a ≠ [] ∧ 1 ≤ n

/-- The bin belongs to the grant. -/
def Grant.hasBin (g : Grant Ch) (index bin : Nat) : Prop :=
  index = g.index ∧ g.first ≤ bin ∧ bin < g.first + g.req.size

/-- Serve requests one after the other, starting from a fresh manager; a rejected request is
skipped (the exception is handled by the caller).  Latest grant last. -/
def history : List (Req Ch) → St Ch × List (Grant Ch)
  | rs => rs.foldl (fun x r =>
      match x.1.exec r with
      | (s', .ok (i, f)) => (s', x.2 ++ [⟨r, i, f⟩])
      | (s', .error _) => (s', x.2)) (St.init Ch, [])

end Verif.AcqBins
