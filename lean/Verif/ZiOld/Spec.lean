/-
What a Zurich Instruments hardware configuration in the old style means (C86).
-/
import Verif.ZiOld.Model

namespace Verif.ZiOld

variable {V : Type}

/-- A channel of a device that the device has. -/
def Has (old : Old V) (d : Device V) (i : Nat) (c : Chan V) : Prop :=
  d ∈ old.devices ∧ (i, c) ∈ d.channels ∧ ((d.kind = .hdawg ∧ i < 4) ∨ (d.kind = .uhfqa ∧ i = 0))

/-- The frequency of a local oscillator, whatever the name of its parameter. -/
def Frequency (old : Old V) (name : String) (v : V) : Prop :=
  ∃ los l k, old.los = some los ∧ l ∈ los ∧ l.name = name ∧ l.frequency = some [(k, v)]

/-- What a channel wants. -/
def WantsIn (old : Old V) (truthy : V → Bool) (kind : Kind) (c : Chan V) (cat field : String) (v : V) : Prop :=
  (∃ l, c.lo = some l ∧ Frequency old l v ∧ cat = "modulation_frequencies" ∧ field = "lo_freq") ∨
  (∃ k, (k, v) ∈ c.corrections ∧ cat = "mixer_corrections" ∧
    ((kind = .hdawg ∧ field = k.toLower) ∨ (kind ≠ .hdawg ∧ field = k))) ∨
  (c.gain1 = some v ∧ truthy v = true ∧ cat = "output_gain" ∧ field = "gain_I") ∨
  (c.gain2 = some v ∧ truthy v = true ∧ cat = "output_gain" ∧ field = "gain_Q") ∨
  (c.modulation = some ⟨true, some v⟩ ∧ cat = "modulation_frequencies" ∧ field = "interm_freq")

/-- What is wanted for a port-clock. -/
def Wants (old : Old V) (truthy : V → Bool) (pc : Pc) (cat field : String) (v : V) : Prop :=
  ∃ d i c, Has old d i c ∧ c.pc = pc ∧ WantsIn old truthy d.kind c cat field v

/-- The edges of the graph. -/
def Edge (old : Old V) (x : Node × Node) : Prop :=
  ∃ d i c, Has old d i c ∧
    ((c.lo = none ∧ x = (.chan d.name i, .port c.pc.1)) ∨
      ∃ l, c.lo = some l ∧ (x = (.chan d.name i, .mixer d.name i .if) ∨ x = (.lo l, .mixer d.name i .lo) ∨
        x = (.mixer d.name i .rf, .port c.pc.1)))

/-- Configurations that are converted as they are meant. -/
structure WellFormed (old : Old V) : Prop where
  /-- devices have different names, local oscillators have, and a device has a channel once -/
  names : (old.devices.map Device.name).Nodup
  los : ((old.los.getD []).map Lo.name).Nodup
  chans : ∀ d ∈ old.devices, (d.channels.map Prod.fst).Nodup
  /-- types are known -/
  kinds : ∀ d ∈ old.devices, d.kind ≠ .other
  /-- devices have a reference, HDAWGs a grouping and a clock; each key is given once -/
  opts : ∀ d ∈ old.devices, (d.opts.map Prod.fst).Nodup
  ref : ∀ d ∈ old.devices, ∃ v, ("ref", v) ∈ d.opts
  grouping : ∀ d ∈ old.devices, d.kind = .hdawg → (∃ v, ("channelgrouping", v) ∈ d.opts) ∧ ∃ v, ("clock_select", v) ∈ d.opts
  /-- channels have a mode, a frequency if they are modulated, and local oscillators that exist -/
  mode : ∀ d i c, Has old d i c → c.mode ≠ none
  interm : ∀ d i c, Has old d i c → c.modulation ≠ some ⟨true, none⟩
  exist : ∀ d i c, Has old d i c → ∀ l, c.lo = some l → ∃ o ∈ old.los.getD [], o.name = l
  /-- a frequency has one parameter -/
  freq : ∀ o ∈ old.los.getD [], ∀ f, o.frequency = some f → ∃ e, f = [e]
  /-- mixer corrections have different names, also in small letters -/
  corr : ∀ d i c, Has old d i c → (c.corrections.map Prod.fst).Nodup ∧ (c.corrections.map fun e => e.1.toLower).Nodup
  /-- a port-clock has one channel -/
  pcs : ∀ d i c e j b, Has old d i c → Has old e j b → c.pc = b.pc → d = e ∧ i = j

end Verif.ZiOld
