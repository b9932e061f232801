/-
What it means that settings are read back (C84).
-/
import Verif.ZiFiles.Model

namespace Verif.ZiFiles

open Verif.ZiPrepare

/-- The last setting of a node. -/
def Last (l : List Daq) (n : Node) (d : Daq) : Prop := ∃ a b, l = a ++ d :: b ∧ d.node = n ∧ ∀ x ∈ b, x.node ≠ n

/-- The settings of waveforms: `awgs/<a>/waveform/waves/<w>`. -/
def IsWave (d : Daq) (l : List (Int × Int)) : Prop :=
  ∃ a w, d.node = [.name "awgs", .index a, .name "waveform", .name "waves", .index w] ∧ d.value = .wave l

/-- The names that are treated specially. -/
def special : List String := ["waves", "data", "weights", "rotations"]

/-- The other settings of a single node that a builder makes: a command table, integration weights, a rotation, or a
number or text at a node with none of the names that are treated specially. -/
def Single (d : Daq) : Prop :=
  (∃ a s, d = ⟨[.name "awgs", .index a, .name "commandtable", .name "data"], .text s, .setVector⟩) ∨
  (∃ k l part, k < 10 ∧ l.length ≤ 4096 ∧ (part = "real" ∨ part = "imag") ∧
    d = ⟨[.name "qas", .index 0, .name "integration", .name "weights", .index k, .name part], .vec l, .setVector⟩) ∨
  (∃ k a b, d = ⟨[.name "qas", .index 0, .name "rotations", .index k], .cplx a b, .setValue⟩) ∨
  ((∀ x ∈ special, Seg.name x ∉ d.node) ∧ d.fn = .setValue ∧ ((∃ q, d.value = .num q) ∨ ∃ s, d.value = .text s))

/-- How a setting is read back: as it is, except that waveforms become fractions of the full scale, and that those of a
UHFQA are not sent to the device. -/
def Back (uhfqa : Bool) (d d' : Daq) : Prop :=
  d'.node = d.node ∧ (Single d → d' = d) ∧
  ∀ l, IsWave d l → (d'.fn = .void ↔ uhfqa = true) ∧ (d'.fn = .setVector ↔ uhfqa = false) ∧
    (∀ p, l = [p] → d'.value = .vec [(p.1 : Rat) / 32767, (p.2 : Rat) / 32767]) ∧
    (2 ≤ l.length → d'.value = .samples (l.map fun p => ((p.1 : Rat) / 32767, (p.2 : Rat) / 32767)))

/-- The different ones of a list, in the order of their first occurrences. -/
def firsts : List Node → List Node
  | [] => []
  | n :: l => n :: (firsts l).filter (· ≠ n)

/-- Settings that can be written and read. -/
def Readable (s : Settings) : Prop :=
  (∀ d ∈ s.daq, Single d ∨ ∃ l, IsWave d l ∧ l ≠ []) ∧ (s.awg.map Prod.fst).Nodup

/-- The name of the instrument a file belongs to. -/
def File.instr : File → String
  | .wave n _ _ | .table n _ | .seqc n _ | .settings n => n

end Verif.ZiFiles
