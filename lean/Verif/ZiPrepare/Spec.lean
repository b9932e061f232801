/-
What it means that a device of Zurich Instruments is configured; independent of how the settings are built and applied.
-/
import Verif.ZiPrepare.Model

namespace Verif.ZiPrepare.Spec
open Verif.ZiPrepare (Seg Node Val Hw HdCfg UhCfg Prog)

/-- A path covers a node if they have equally many segments, and each segment of the path is `*` or that of the node. -/
def Covers (path node : Node) : Prop := List.Forall₂ (fun p s => p = Seg.any ∨ p = s) path node

/-- A node of a device has no `*`. -/
def Real (n : Node) : Prop := Seg.any ∉ n

/-- `v` is the last value that is written to the node `n`. -/
def Last (writes : List (Node × Val)) (n : Node) (v : Val) : Prop :=
  ∃ before path after, writes = before ++ (path, v) :: after ∧ Covers path n ∧ ∀ e ∈ after, ¬ Covers e.1 n

/-- The value of a node. -/
def Shows (h : Hw) (n : Node) (v : Val) : Prop := Last h.writes n v

/-- The program of an AWG. -/
def Runs (h : Hw) (a : Nat) (p : Prog) : Prop := Dict.get? h.progs a = some p

/-- An HDAWG is configured: the outputs of its AWGs that are used are on, with their gains and offsets, all other outputs
are off; all AWGs have the clock, and play once; the AWGs that are used have their command tables, waveforms and programs. -/
structure HdConfigured (c : HdCfg) (h : Hw) : Prop where
  on : ∀ o ∈ c.outs, ∀ ch, ch / 2 = o.awg → Shows h [.name "sigouts", .index ch, .name "on"] (.num 1)
  off : ∀ ch, (∀ o ∈ c.outs, ch / 2 ≠ o.awg) → Shows h [.name "sigouts", .index ch, .name "on"] (.num 0)
  gain1 : ∀ o ∈ c.outs,
    Shows h [.name "awgs", .index o.awg, .name "outputs", .index 0, .name "gains", .index 0] (.num o.gain1)
  gain2 : ∀ o ∈ c.outs,
    Shows h [.name "awgs", .index o.awg, .name "outputs", .index 1, .name "gains", .index 1] (.num o.gain2)
  offset1 : ∀ o ∈ c.outs, Shows h [.name "sigouts", .index (2 * o.awg), .name "offset"] (.num o.offI)
  offset2 : ∀ o ∈ c.outs, Shows h [.name "sigouts", .index (2 * o.awg + 1), .name "offset"] (.num o.offQ)
  table : ∀ o ∈ c.outs, Shows h [.name "awgs", .index o.awg, .name "commandtable", .name "data"] (.text o.table)
  waves : ∀ o ∈ c.outs, ∀ w ∈ o.waves,
    Shows h [.name "awgs", .index o.awg, .name "waveform", .name "waves", .index w.1] (.wave w.2)
  single : ∀ a, Shows h [.name "awgs", .index a, .name "single"] (.num 1)
  clock : ∀ a < c.awgs, Shows h [.name "awgs", .index a, .name "time"] (.num c.clock)
  grouping : Shows h [.name "system", .name "awg", .name "channelgrouping"] (.num c.grouping)
  program : ∀ o ∈ c.outs, ∃ p, Runs h o.awg p ∧ p.source = o.seqc

/-- Weights that are set last for a channel. -/
def LastWeights (l : List (Bool × Nat × List Rat)) (im : Bool) (k : Nat) (w : List Rat) : Prop :=
  ∃ a b, l = a ++ (im, k, w) :: b ∧ ∀ e ∈ b, ¬ (e.1 = im ∧ e.2.1 = k)

/-- A UHFQA is configured: outputs on, offsets, clock; weights that are not set are zero; if there are acquisitions, the
length of the integration, number of results and averages; results and monitor are reset.  The program was compiled with
the waveforms, of which the samples are fractions of 32767. -/
structure UhConfigured (name : String) (c : UhCfg) (h : Hw) : Prop where
  on : ∀ ch < 2, Shows h [.name "sigouts", .index ch, .name "on"] (.num 1)
  offset1 : Shows h [.name "sigouts", .index 0, .name "offset"] (.num c.offI)
  offset2 : Shows h [.name "sigouts", .index 1, .name "offset"] (.num c.offQ)
  single : Shows h [.name "awgs", .index 0, .name "single"] (.num 1)
  clock : Shows h [.name "awgs", .index 0, .name "time"] (.num c.clock)
  rotations : ∀ k, Shows h [.name "qas", .index 0, .name "rotations", .index k] (.cplx 1 1)
  sources : ∀ k, Shows h [.name "qas", .index 0, .name "integration", .name "sources", .index k] (.num 0)
  weightsReal : ∀ k w, LastWeights c.weights false k w →
    Shows h [.name "qas", .index 0, .name "integration", .name "weights", .index k, .name "real"] (.vec w)
  weightsImag : ∀ k w, LastWeights c.weights true k w →
    Shows h [.name "qas", .index 0, .name "integration", .name "weights", .index k, .name "imag"] (.vec w)
  zerosReal : ∀ k < 10, (∀ e ∈ c.weights, ¬ (e.1 = false ∧ e.2.1 = k)) →
    Shows h [.name "qas", .index 0, .name "integration", .name "weights", .index k, .name "real"] (.vec (List.replicate 4096 0))
  zerosImag : ∀ k < 10, (∀ e ∈ c.weights, ¬ (e.1 = true ∧ e.2.1 = k)) →
    Shows h [.name "qas", .index 0, .name "integration", .name "weights", .index k, .name "imag"] (.vec (List.replicate 4096 0))
  length : ∀ q ∈ c.acq, Shows h [.name "qas", .index 0, .name "integration", .name "length"] (.num q.1)
  results : ∀ q ∈ c.acq, Shows h [.name "qas", .index 0, .name "result", .name "length"] (.num q.2.1)
  averages : ∀ q ∈ c.acq, Shows h [.name "qas", .index 0, .name "result", .name "averages"] (.num q.2.2)
  mode : c.acq.isSome → Shows h [.name "qas", .index 0, .name "integration", .name "mode"] (.num 0)
  source : c.acq.isSome → Shows h [.name "qas", .index 0, .name "result", .name "source"] (.num 7)
  cyclic : c.acq.isSome → Shows h [.name "qas", .index 0, .name "result", .name "mode"] (.num 0)
  delay : c.acq.isSome → Shows h [.name "qas", .index 0, .name "delay"] (.num 0)
  enabled : Shows h [.name "qas", .index 0, .name "result", .name "enable"] (.num 1)
  reset : Shows h [.name "qas", .index 0, .name "result", .name "reset"] (.num 1)
  monitorReset : Shows h [.name "qas", .index 0, .name "monitor", .name "reset"] (.num 1)
  program : ∃ p, Runs h 0 p ∧ p.source = c.seqc ∧
    ∀ w ∈ c.waves, Dict.get? p.files ⟨name, 0, w.1⟩ =
      some (w.2.map (fun s : Int × Int => ((s.1 : Rat) / 32767, (s.2 : Rat) / 32767)))

/-- The monitor of a UHFQA records, as is needed for traces. -/
def Monitors (h : Hw) : Prop := Shows h [.name "qas", .index 0, .name "monitor", .name "enable"] (.num 1)

end Verif.ZiPrepare.Spec
