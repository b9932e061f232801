/-
What a hardware configuration in the old style means (C85).
-/
import Verif.OldConfig.Model

namespace Verif.OldConfig

variable {V : Type}

/-- All keys of a channel but `portclock_configs`. -/
def Channel.entries (c : Channel V) : List (Entry V) := c.before ++ c.after

/-- The channels of an entry, with cluster and slot. -/
def Item.chans (name : String) : Item V → List (String × Nat × Channel V)
  | .cluster _ modules => modules.flatMap fun m => m.channels.map fun c => (name, m.slot, c)
  | _ => []

/-- All channels. -/
def chans (old : Old V) : List (String × Nat × Channel V) := old.flatMap fun e => e.2.chans e.1

/-- The frequency of a local oscillator. -/
def Frequency (old : Old V) (lo : String) (v : V) : Prop := ∃ opts, (lo, Item.lo opts) ∈ old ∧ ("frequency", v) ∈ opts

/-- What a key of a channel sets for all of its port-clocks. -/
def channelMeaning : List (Kind × String × String × String) :=
  [(.complex, "lo_freq", "modulation_frequencies", "lo_freq"),
    (.complex, "auto_lo_cal", "mixer_corrections", "auto_lo_cal"),
    (.complex, "dc_mixer_offset_I", "mixer_corrections", "dc_offset_i"),
    (.complex, "dc_mixer_offset_Q", "mixer_corrections", "dc_offset_q"),
    (.complex, "input_gain_I", "input_gain", "gain_I"), (.complex, "input_gain_Q", "input_gain", "gain_Q"),
    (.complex, "output_att", "output_att", ""), (.complex, "input_att", "input_att", ""),
    (.real, "input_gain_0", "input_gain", ""), (.real, "input_gain_1", "input_gain", "")]

/-- What a key of a port-clock sets for it. -/
def pcMeaning : List (Kind × String × String × String) :=
  [(.complex, "interm_freq", "modulation_frequencies", "interm_freq"),
    (.complex, "mixer_amp_ratio", "mixer_corrections", "amp_ratio"),
    (.complex, "auto_sideband_cal", "mixer_corrections", "auto_sideband_cal"),
    (.complex, "mixer_phase_error_deg", "mixer_corrections", "phase_error"),
    (.real, "interm_freq", "modulation_frequencies", "interm_freq"),
    (.real, "init_gain_awg_path_I", "sequencer_options", "init_gain_awg_path_I"),
    (.real, "init_gain_awg_path_Q", "sequencer_options", "init_gain_awg_path_Q"),
    (.digital, "analog_threshold", "digitization_thresholds", "analog_threshold")]

/-- The initial gains. -/
def gains : List String := ["init_gain_awg_path_I", "init_gain_awg_path_Q"]

/-- Other sequencer options. -/
def others : List String := ["init_offset_awg_path_I", "init_offset_awg_path_Q", "qasm_hook_func", "ttl_acq_threshold"]

/-- Whether all keys of a port-clock without another meaning are sequencer options: always if the channel is complex, if it
is real if one of the other sequencer options is among them. -/
def Free : Kind → PcCfg V → Prop
  | .complex, _ => True
  | .real, p => ∃ e ∈ p.opts, e.1 ∈ others
  | .digital, _ => False

/-- What a channel wants for one of its port-clocks. -/
def WantsIn (old : Old V) (c : Channel V) (p : PcCfg V) (cat field : String) (v : V) : Prop :=
  (∃ k, Entry.opt k v ∈ c.entries ∧ (c.kind, k, cat, field) ∈ channelMeaning) ∨
  (∃ l, Entry.lo l ∈ c.entries ∧ c.kind ≠ .digital ∧ Frequency old l v ∧ cat = "modulation_frequencies" ∧
    field = "lo_freq") ∨
  (∃ k, (k, v) ∈ p.opts ∧ (c.kind, k, cat, field) ∈ pcMeaning) ∨
  (Free c.kind p ∧ (field, v) ∈ p.opts ∧ (∀ x y, (c.kind, field, x, y) ∉ pcMeaning) ∧ cat = "sequencer_options")

/-- What is wanted for a port-clock. -/
def Wants (old : Old V) (pc : Pc) (cat field : String) (v : V) : Prop :=
  ∃ e ∈ chans old, ∃ p ∈ e.2.2.pcs, p.pc = pc ∧ WantsIn old e.2.2 p cat field v

/-- The edges of the graph: ports are connected to channels, or, if there is a local oscillator, to a mixer between them. -/
def Edge (optical : Pc → Bool) (old : Old V) (x : Node × Node) : Prop :=
  ∃ e ∈ chans old,
    ((e.2.2.kind = .digital ∨ ∀ l, Entry.lo l ∉ e.2.2.entries) ∧
      ∃ p ∈ e.2.2.pcs, x = (.chan e.1 e.2.1 e.2.2.name, .port p.pc.1)) ∨
    ∃ l, Entry.lo l ∈ e.2.2.entries ∧ ∃ o : Bool, (o = true ↔ e.2.2.kind = .real ∧ ∃ p ∈ e.2.2.pcs, optical p.pc = true) ∧
      e.2.2.kind ≠ .digital ∧
      (x = (.chan e.1 e.2.1 e.2.2.name, .mixer o l .if) ∨ x = (.lo l, .mixer o l .lo) ∨
        ∃ p ∈ e.2.2.pcs, x = (.mixer o l .out, .port p.pc.1))

/-- Whether there are sequencer options. -/
def HasSeq : Kind → PcCfg V → Prop
  | .complex, p => ∃ e ∈ p.opts, ∀ x y, (Kind.complex, e.1, x, y) ∉ pcMeaning
  | .real, p => ∃ e ∈ p.opts, e.1 ∈ gains ∨ e.1 ∈ others
  | .digital, _ => False

/-- Configurations that are converted as they are meant. -/
structure WellFormed (old : Old V) : Prop where
  /-- every name is used once -/
  names : (old.map Prod.fst).Nodup
  /-- there are no instruments of other types -/
  known : ∀ e ∈ old, e.2 ≠ .unknown
  /-- keys of local oscillators are the known ones, each once -/
  los : ∀ e ∈ old, ∀ opts, e.2 = .lo opts →
    (opts.map Prod.fst).Nodup ∧ ∀ x ∈ opts, x.1 ∈ ["instrument_type", "power", "frequency"]
  /-- local oscillators that are used exist -/
  exist : ∀ e ∈ chans old, e.2.2.kind ≠ .digital → ∀ l, Entry.lo l ∈ e.2.2.entries → l ∈ old.map Prod.fst
  /-- a channel has at most one -/
  single : ∀ e ∈ chans old, ∀ a b l m, e.2.2.entries = a ++ Entry.lo l :: b → Entry.lo m ∉ a ++ b
  /-- in real channels `portclock_configs` is last -/
  last : ∀ e ∈ chans old, e.2.2.kind = .real → e.2.2.after = []
  /-- every key of a port-clock is given once -/
  keys : ∀ e ∈ chans old, ∀ p ∈ e.2.2.pcs, (p.opts.map Prod.fst).Nodup
  /-- a port-clock has no initial gain and another sequencer option in a real channel -/
  gain : ∀ e ∈ chans old, e.2.2.kind = .real → ∀ p ∈ e.2.2.pcs, (∃ x ∈ p.opts, x.1 ∈ gains) → ¬ ∃ x ∈ p.opts, x.1 ∈ others
  /-- the sequencer options of a port-clock are given in one place -/
  seq : ((chans old).flatMap fun e => e.2.2.pcs.map fun p => (e.2.2.kind, p)).Pairwise fun a b =>
    HasSeq a.1 a.2 → HasSeq b.1 b.2 → a.2.pc ≠ b.2.pc
  /-- every slot of a cluster is used once -/
  slots : ∀ e ∈ old, ∀ opts modules, e.2 = .cluster opts modules → (modules.map Module.slot).Nodup
  /-- every channel is given once -/
  ids : ((chans old).map fun e => (e.1, e.2.1, e.2.2.name)).Nodup
  /-- no key of a channel is given with two values -/
  entry : ∀ e ∈ chans old, ∀ k v w, Entry.opt k v ∈ e.2.2.entries → Entry.opt k w ∈ e.2.2.entries → v = w
  /-- nothing is wanted in two ways -/
  unique : ∀ pc cat field v w, Wants old pc cat field v → Wants old pc cat field w → v = w

/-- What is described of a channel. -/
def Described (c : Channel V) (k : String) (v : V) : Prop :=
  Entry.opt k v ∈ c.entries ∧ (c.kind, k) ∈ [(Kind.complex, "marker_debug_mode_enable"), (.complex, "mix_lo"),
    (.complex, "downconverter_freq"), (.real, "marker_debug_mode_enable"), (.real, "mix_lo")]

end Verif.OldConfig
