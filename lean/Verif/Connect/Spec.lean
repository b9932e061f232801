/-
Specification: what a wiring says about a port, stated with the edges only.
-/
import Verif.Connect.Model

namespace Verif.Connect.Spec

open Verif.Connect

/-- There is a wire between the port and a node. -/
def Linked (g : Edges) (port : String) (n : Node) : Prop :=
  (Node.plain port, n) ∈ g ∨ (n, Node.plain port) ∈ g

/-- The channels of a module that the port is wired to. -/
def Wired (g : Edges) (port cluster : String) (m : Nat) (ch : Chan) : Prop :=
  Linked g port (.chan cluster m ch)

/-- The port is wired to channels of described clusters, or to nodes of the quantum device, only:
there is no mixer, optical modulator or undescribed instrument at the port. -/
def Direct (g : Edges) (clusters : List String) (port : String) : Prop :=
  ∀ n, Linked g port n →
    (∃ c m ch, n = .chan c m ch ∧ c ∈ clusters) ∨ (∃ s, n = .plain s ∧ s ∉ clusters)

/-- All channels the port is wired to are on one module. -/
def OneModule (g : Edges) (port : String) : Prop :=
  ∀ c m ch c' m' ch', Linked g port (.chan c m ch) → Linked g port (.chan c' m' ch') →
    c = c' ∧ m = m'

/-- The channels of a sequencer: its main channel and its input channels. -/
def Uses (p : Path) (ch : Chan) : Prop := ch = p.chan ∨ ∃ m, p.measure = some m ∧ ch ∈ m

/-- Sequencer `i` of a module can play on this channel. -/
def CanDrive (t : ModType) (i : Nat) (ch : Chan) : Prop :=
  ch.dir = .output ∧
    match t, ch.mode with
    | .qcm, .complex => i < 6 ∧ ch.idx < 2
    | .qcm, _ => i < 6 ∧ ch.idx < 4
    | .qrm, .complex => i < 6 ∧ ch.idx = 0
    | .qrm, .real => i < 6 ∧ ch.idx < 2
    | .qrm, .digital => i < 6 ∧ ch.idx < 4
    | .qcmRf, .real | .qrmRf, .real | .qrc, .real => False
    | .qcmRf, _ | .qrmRf, _ => i < 6 ∧ ch.idx < 2
    | .qrc, .complex => (i < 8 ∧ (ch.idx < 2 ∨ ch.idx = 2 + i % 4)) ∨
        (8 ≤ i ∧ i < 12 ∧ 2 ≤ ch.idx ∧ ch.idx < 6)
    | .qrc, .digital => i < 12 ∧ ch.idx = 0
    | .qtm, .digital => i < 8 ∧ ch.idx < 8
    | .qtm, _ => False

/-- Sequencer `i` of a module can acquire from this channel. -/
def CanRead (t : ModType) (i : Nat) (ch : Chan) : Prop :=
  ch.dir = .input ∧
    match t, ch.mode with
    | .qrm, .complex | .qrmRf, .complex => i < 6 ∧ ch.idx = 0
    | .qrm, .real => i < 6 ∧ ch.idx < 2
    | .qrc, .complex => i < 8 ∧ ch.idx < 2
    | .qtm, .digital => i < 8 ∧ ch.idx < 8
    | _, _ => False

/-- The sequencer can play on and acquire from the channels of a path. -/
def Supports (t : ModType) (i : Nat) (p : Path) : Prop :=
  match p.measure with
  | none => CanDrive t i p.chan ∨ CanRead t i p.chan
  | some m => CanDrive t i p.chan ∧ ∀ c ∈ m, CanRead t i c

/-- The first of the wires from the port to channels, in the order in which the wires are listed, is
to this node. -/
def FirstLink (g : Edges) (port : String) (n : Node) : Prop :=
  ∃ pre e post, g = pre ++ e :: post ∧ (e = (.plain port, n) ∨ e = (n, .plain port)) ∧
    ∀ c m ch, (Node.plain port, Node.chan c m ch) ∉ pre ∧ (Node.chan c m ch, Node.plain port) ∉ pre

/-- The port is wired to one channel. -/
def Single (g : Edges) (port cluster : String) (m : Nat) (ch : Chan) : Prop :=
  Wired g port cluster m ch ∧
    ∀ c' m' ch', Linked g port (.chan c' m' ch') → c' = cluster ∧ m' = m ∧ ch' = ch

/-- The port is wired to an output, which is listed first, and to inputs of the same module, all
complex or all real. -/
def Readout (g : Edges) (port cluster : String) (m : Nat) (o : Chan) : Prop :=
  o.dir = .output ∧ o.mode ≠ .digital ∧ FirstLink g port (.chan cluster m o) ∧
    ∃ mode, ∀ c' m' ch', Linked g port (.chan c' m' ch') →
      c' = cluster ∧ m' = m ∧ (ch' = o ∨ (ch'.dir = .input ∧ ch'.mode = mode))

end Verif.Connect.Spec
