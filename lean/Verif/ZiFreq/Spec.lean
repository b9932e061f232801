/-
What the wiring of a Zurich Instruments setup means, and at which frequency an output emits.
-/
import Verif.ZiFreq.Model

namespace Verif.ZiFreq.Spec

/-- In the connectivity graph, `n` is a neighbour of `m`. -/
def Adjacent (g : List (Node × List Node)) (m n : Node) : Prop := ∃ l, (m, l) ∈ g ∧ n ∈ l

/-- `n` is the only or the first neighbour of `m`. -/
def Cable (g : List (Node × List Node)) (m n : Node) : Prop := ∃ l, (m, n :: l) ∈ g

/-- The port is wired to a channel of a device, either directly or through an IQ mixer with a local oscillator. -/
inductive Wired (cfg : Cfg) (port device io : String) : Option String → Prop
  | direct {n : Node} : Adjacent cfg.graph [port] n → n.head? = some device → n.getLast? = some io →
      (device, Kind.device) ∈ cfg.kinds → Wired cfg port device io none
  | mixer {n i l : Node} {mixer lo : String} : Adjacent cfg.graph [port] n → n.head? = some mixer → (mixer, Kind.mixer) ∈ cfg.kinds →
      Cable cfg.graph [mixer, "lo"] l → l.head? = some lo → Cable cfg.graph [mixer, "if"] i → i.head? = some device →
      i.getLast? = some io → Wired cfg port device io (some lo)

/-- No other node has a name that contains the name of the port. -/
def Unambiguous (cfg : Cfg) (port : String) : Prop :=
  (∃ l, ([port], l) ∈ cfg.graph) ∧ ∀ e ∈ cfg.graph, port.toList <:+: ['.'].intercalate (e.1.map String.toList) → e.1 = [port]

/-- What is set to the instruments: each parameter has the value of its entry, if there is one. -/
def Sets (conf : List ((String × String) × Option Rat)) (instr param : String) (v : Rat) : Prop :=
  ((instr, param), some v) ∈ conf ∧ ∀ w, ((instr, param), w) ∈ conf → w = some v

/-- The intermediate frequency of a channel: 0 if it is not modulated. -/
def Interm (c : Chan) (i : Rat) : Prop := (c.modulation = none ∧ i = 0) ∨ c.modulation = some (some i)

/-- An output behind an IQ mixer emits at the sum of the local oscillator and the intermediate frequency. -/
def Emits (cfg : Cfg) (conf : List ((String × String) × Option Rat)) (c : Chan) (f : Rat) : Prop :=
  ∃ l o instr v i, c.lo = some l ∧ o ∈ cfg.los ∧ o.name = l ∧ o.instrument = some instr ∧ Sets conf instr o.freqParam v ∧
    Interm c i ∧ f = v + i

/-- Names are used once (they are keys of dictionaries), a port and a clock are listed once and names of nodes are not
empty. -/
structure Proper (cfg : Cfg) (pcs : List (String × String)) : Prop where
  graph : (cfg.graph.map Prod.fst).Nodup
  nodes : ∀ e ∈ cfg.graph, ∀ n ∈ e.2, n ≠ []
  kinds : (cfg.kinds.map Prod.fst).Nodup
  los : (cfg.los.map (fun o => o.name)).Nodup
  mods : (cfg.mods.map Prod.fst).Nodup
  clocks : (cfg.clocks.map Prod.fst).Nodup
  pcs : pcs.Nodup

/-- No other setting is for the parameter that has the frequency of this local oscillator. -/
def Alone (cfg : Cfg) (o : Lo) : Prop :=
  ∀ p ∈ cfg.los, (p.instrument, p.powerParam) ≠ (o.instrument, o.freqParam) ∧
    (p.name ≠ o.name → (p.instrument, p.freqParam) ≠ (o.instrument, o.freqParam))

/-- Phase, in turns, of the signal at the output at sample `k` of a pulse that starts at `t0`: a local oscillator at `v` that runs
all the time, mixed with a sample of phase `p`. -/
def outputPhase (v t0 rate : Rat) (k : Nat) (p : Rat) : Rat := v * (t0 + k / rate) + p

/-- Phase of a clock at `r`. -/
def clockPhase (r t0 rate : Rat) (k : Nat) : Rat := r * (t0 + k / rate)

/-- Two phases are the same up to whole turns. -/
def SamePhase (a b : Rat) : Prop := ∃ n : Int, a - b = n

end Verif.ZiFreq.Spec
