/-
Specification: when operations on Zurich Instruments devices start.
-/
import Verif.Zi.Time

namespace Verif.Zi.Spec

open Verif.Zi

/-- Samples per second of the devices, from their manuals. -/
def samplesPerSecond : Dev → Rat
  | .uhfqa => 1800000000
  | .hdawg => 2400000000

/-- Sample `n` of a device is played at time `t`; there are eight samples in a clock cycle. -/
def At (d : Dev) (t : Rat) (n : Int) : Prop := t * samplesPerSecond d = n

/-- An operation with a channel of a known type starts exactly at a sample. -/
def OnSample {ω : Type} (r : Row ω) : Prop :=
  ∀ c, r.chan = some c → ∃ d n, c.kind = some d ∧ At d r.time n

/-- Acquisitions are done by UHFQAs. -/
def AcqOnUhfqa {ω : Type} (r : Row ω) : Prop := r.acq = true → ∃ c, r.chan = some c ∧ c.kind = some .uhfqa

/-- The index of every row is its position: the operations were listed in the order of time. -/
def Ordered {ω : Type} (rows : List (Row ω)) : Prop := ∀ k (r : Row ω), rows[k]? = some r → r.label = k

end Verif.Zi.Spec
