/-
C86: a configuration that is converted as it is meant, and some that are not.
-/
import Verif.ZiOld.Props

namespace Verif.ZiOld

set_option linter.unusedSimpArgs false

/-- Not zero. -/
def nonzero (v : Int) : Bool := v != 0

/-- A channel with a local oscillator. -/
def chan0 : Chan Int :=
  { pc := ("q0:mw", "q0.01"), mode := some 1, markers := some 2, lo := some "lo0", corrections := [("dc_offset_I", 4), ("amp_ratio", 5)],
    gain1 := some 6, gain2 := some 0, modulation := some ⟨true, some 7⟩ }

/-- A channel without. -/
def chan1 : Chan Int := { pc := ("q0:fl", "cl0.baseband"), mode := some 1, modulation := some ⟨false, some 9⟩ }

/-- A channel of a UHFQA. -/
def chan2 : Chan Int := { pc := ("q0:res", "q0.ro"), mode := some 1, trigger := some 2, corrections := [("amp_ratio", 3)] }

/-- Two devices. -/
def good0 : Old Int :=
  { los := some [{ name := "lo0", instrument := some 11, power := [("pow", 12)], frequency := some [("frequency", 13)] }],
    devices := [⟨"ic_hdawg0", .hdawg, [("clock_select", 0), ("ref", 20), ("channelgrouping", 21)], [(1, chan1), (0, chan0)]⟩,
      ⟨"ic_uhfqa0", .uhfqa, [("ref", 30)], [(0, chan2)]⟩] }

theorem good0_has {d : Device Int} {i : Nat} {c : Chan Int} (h : Has good0 d i c) :
    (d.name = "ic_hdawg0" ∧ d.kind = .hdawg ∧ i = 0 ∧ c = chan0) ∨ (d.name = "ic_hdawg0" ∧ d.kind = .hdawg ∧ i = 1 ∧ c = chan1) ∨
      (d.name = "ic_uhfqa0" ∧ d.kind = .uhfqa ∧ i = 0 ∧ c = chan2) := by
  obtain ⟨h1, h2, h3⟩ := h
  simp [good0] at h1
  rcases h1 with rfl | rfl <;> simp at h2
  · rcases h2 with ⟨rfl, rfl⟩ | ⟨rfl, rfl⟩
    · exact .inr (.inl ⟨rfl, rfl, rfl, rfl⟩)
    · exact .inl ⟨rfl, rfl, rfl, rfl⟩
  · obtain ⟨rfl, rfl⟩ := h2
    exact .inr (.inr ⟨rfl, rfl, rfl, rfl⟩)

theorem good0_wellFormed : WellFormed good0 where
  names := by decide
  los := by decide
  chans := by decide
  kinds := by decide
  opts := by decide
  ref := by
    intro d hd
    simp [good0] at hd
    rcases hd with rfl | rfl <;> simp
  grouping := by
    intro d hd hk
    simp [good0] at hd
    rcases hd with rfl | rfl <;> simp at hk ⊢
  mode := by
    intro d i c h
    rcases good0_has h with ⟨_, _, _, rfl⟩ | ⟨_, _, _, rfl⟩ | ⟨_, _, _, rfl⟩ <;> decide
  interm := by
    intro d i c h
    rcases good0_has h with ⟨_, _, _, rfl⟩ | ⟨_, _, _, rfl⟩ | ⟨_, _, _, rfl⟩ <;> decide
  exist := by
    intro d i c h l hl
    rcases good0_has h with ⟨_, _, _, rfl⟩ | ⟨_, _, _, rfl⟩ | ⟨_, _, _, rfl⟩ <;> simp [chan0, chan1, chan2] at hl
    subst hl
    exact ⟨_, List.mem_cons_self, rfl⟩
  freq := by
    intro o ho f hf
    simp [good0] at ho
    subst ho
    simp at hf
    exact ⟨_, hf.symm⟩
  corr := by
    intro d i c h
    rcases good0_has h with ⟨_, _, _, rfl⟩ | ⟨_, _, _, rfl⟩ | ⟨_, _, _, rfl⟩ <;>
      exact ⟨by decide +kernel, by decide +kernel⟩
  pcs := by
    intro d i c e j b h1 h2 hcb
    have hd := h1.1
    have he := h2.1
    have hn : (good0.devices.map Device.name).Nodup := by decide
    rcases good0_has h1 with ⟨a1, _, a3, rfl⟩ | ⟨a1, _, a3, rfl⟩ | ⟨a1, _, a3, rfl⟩ <;>
      rcases good0_has h2 with ⟨b1, _, b3, rfl⟩ | ⟨b1, _, b3, rfl⟩ | ⟨b1, _, b3, rfl⟩ <;>
      first
      | exact ⟨List.inj_on_of_nodup_map hn hd he (a1.trans b1.symm), a3.trans b3.symm⟩
      | simp [chan0, chan1, chan2] at hcb

/-- It is converted like this. -/
theorem good0_converted : convert good0 nonzero = .ok
    { los := [("lo0", ⟨some 11, none, "frequency", "pow", some 12⟩)],
      devices := [("ic_hdawg0", [("ref", 20), ("channelgrouping", 21), ("clock_select", 0)]), ("ic_uhfqa0", [("ref", 30)])],
      channels := [(("ic_hdawg0", 0), ⟨1, some 2, none⟩), (("ic_hdawg0", 1), ⟨1, none, none⟩),
        (("ic_uhfqa0", 0), ⟨1, none, some 2⟩)],
      mixers := [("ic_hdawg0", 0)],
      graph := [(.chan "ic_hdawg0" 0, .mixer "ic_hdawg0" 0 .if), (.lo "lo0", .mixer "ic_hdawg0" 0 .lo),
        (.mixer "ic_hdawg0" 0 .rf, .port "q0:mw"), (.chan "ic_hdawg0" 1, .port "q0:fl"), (.chan "ic_uhfqa0" 0, .port "q0:res")],
      options := [(("modulation_frequencies", ("q0:mw", "q0.01"), "lo_freq"), 13),
        (("mixer_corrections", ("q0:mw", "q0.01"), "dc_offset_i"), 4), (("mixer_corrections", ("q0:mw", "q0.01"), "amp_ratio"), 5),
        (("output_gain", ("q0:mw", "q0.01"), "gain_I"), 6), (("modulation_frequencies", ("q0:mw", "q0.01"), "interm_freq"), 7),
        (("mixer_corrections", ("q0:res", "q0.ro"), "amp_ratio"), 3)] } := by decide +kernel

/-- Fields of mixer corrections (backends/types/common.py:209-239); others are refused (structure/model.py:39). -/
def corrFields : List String := ["dc_offset_i", "dc_offset_q", "amp_ratio", "phase_error"]

/-- A device with one channel. -/
def one (kind : Kind) (i : Nat) (c : Chan Int) : Old Int :=
  ⟨none, [⟨"dev0", kind, [("ref", 0), ("channelgrouping", 0), ("clock_select", 0)], [(i, c)]⟩]⟩

/-- The offsets of a UHFQA keep their names in capitals, which are not known; those of an HDAWG do not. -/
theorem uhfqa_capital :
    ((convert (one .uhfqa 0 { chan2 with corrections := [("dc_offset_I", 4)] }) nonzero).map (·.options) =
      .ok [(("mixer_corrections", ("q0:res", "q0.ro"), "dc_offset_I"), 4)]) ∧ "dc_offset_I" ∉ corrFields ∧
    ((convert (one .hdawg 0 { chan2 with corrections := [("dc_offset_I", 4)] }) nonzero).map (·.options) =
      .ok [(("mixer_corrections", ("q0:res", "q0.ro"), "dc_offset_i"), 4)]) ∧ "dc_offset_i" ∈ corrFields := by
  refine ⟨by decide +kernel, by decide, by decide +kernel, by decide⟩

/-- A modulation of another type than `premod` is dropped. -/
theorem modulation_dropped : (convert (one .hdawg 0 { chan2 with corrections := [], modulation := some ⟨false, some 9⟩ })
    nonzero).map (·.options) = .ok [] := by decide +kernel

/-- The name of the parameter of the frequency is lost. -/
theorem parameter_lost :
    convert (V := Int) { los := some [{ name := "lo0", frequency := some [("freq", 1)] }], devices := [] } nonzero =
      convert (V := Int) { los := some [{ name := "lo0", frequency := some [("other", 1)] }], devices := [] } nonzero ∧
    (convert { los := some [{ name := "lo0", frequency := some [("freq", (1 : Int))] }], devices := [] } nonzero).map (·.los) =
      .ok [("lo0", ⟨none, none, "frequency", "power", none⟩)] := by
  refine ⟨?_, ?_⟩ <;> decide +kernel

/-- Channels of a UHFQA other than the first are dropped. -/
theorem channel_dropped : convert (one .uhfqa 1 chan2) nonzero = .ok { devices := [("dev0", [("ref", 0)])] } := by
  decide +kernel

/-- Of two channels with one port-clock the corrections of the later one are kept, and the gain of the first if the later
one's is zero. -/
theorem mixed : (convert (V := Int) ⟨none, [⟨"dev0", .hdawg, [("ref", 0), ("channelgrouping", 0), ("clock_select", 0)],
      [(0, { pc := ("p", "c"), mode := some 1, corrections := [("amp_ratio", 1)], gain1 := some 2 }),
       (1, { pc := ("p", "c"), mode := some 1, corrections := [("phase_error", 3)], gain1 := some 0 })]⟩]⟩ nonzero).map
      (·.options) =
    .ok [(("output_gain", ("p", "c"), "gain_I"), 2), (("mixer_corrections", ("p", "c"), "phase_error"), 3)] := by
  decide +kernel

theorem devices_kinds {V : Type} {old : Old V} {truthy : V → Bool} : ∀ {l : List (Device V)} {n m : New V},
    convertDevices old truthy l n = .ok m → ∀ d ∈ l, d.kind ≠ .other
  | [], _, _, _, d, hd => absurd hd (by simp)
  | d :: l, n, m, h, e, he => by
    unfold convertDevices at h
    split at h
    · exact absurd h (by simp)
    · rename_i hk
      rcases List.mem_cons.mp he with rfl | he
      · exact hk
      · split at h
        · exact absurd h (by simp)
        · split at h
          · exact absurd h (by simp)
          · exact devices_kinds h e he

/-- Devices of unknown types are refused. -/
theorem known {V : Type} {old : Old V} {truthy : V → Bool} {n : New V} (h : convert old truthy = .ok n) :
    ∀ d ∈ old.devices, d.kind ≠ .other := devices_kinds h

end Verif.ZiOld
