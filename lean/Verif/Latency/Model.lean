/-
Latency corrections (quantify_scheduler/backends/corrections.py:32-98).

Simplification: floats are exact rationals.
-/
import Verif.Common.Dict
import Mathlib.Data.Rat.Floor

namespace Verif.Latency

/-- The key of a port-clock combination: `"-".join(map(str, port_clock))`
(corrections.py:73-75, and `portclock` at qblox_backend.py:1350). -/
def key (pc : String × String) : String := pc.1 ++ "-" ++ pc.2

/-- `min(values, default=0)` (corrections.py:94). -/
def minimum : List Rat → Rat
  | [] => 0
  | v :: vs => vs.foldl min v

/-- `latency_corrections.get(port_clock, 0)`. -/
def getOr0 (d : List (String × Rat)) (k : String) : Rat := (Dict.get? d k).getD 0

/-- `determine_relative_latency_corrections` (corrections.py:32-98) for a
`HardwareCompilationConfig`.  `used` is `schedule.get_used_port_clocks()`, in the (arbitrary) order
in which the set is iterated. -/
def relativeLatencies (used : List (String × String)) (conf : Option (List (String × Rat))) :
    List (String × Rat) :=
  match conf with
  | none => []
  | some conf =>
    let rel := used.foldl (fun rel pc => Dict.set rel (key pc) (getOr0 conf (key pc))) []
    let m := minimum (rel.map Prod.snd)
    rel.map (fun e => (e.1, e.2 - m))

/-- The correction a sequencer of port-clock `pc` gets: qblox_backend.py:717-724 (only if
corrections are configured, they are replaced by the relative ones) and 1348-1353. -/
def applied (used : List (String × String)) (conf : Option (List (String × Rat)))
    (pc : String × String) : Rat :=
  match conf with
  | none => 0
  | some c => getOr0 (relativeLatencies used (some c)) (key pc)

end Verif.Latency
