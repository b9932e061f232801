/-
Examples.
-/
import Verif.ZiFreq.Emission

set_option linter.unusedSimpArgs false
set_option linter.unusedVariables false
set_option maxRecDepth 4000

namespace Verif.ZiFreq.Examples
open Spec

/-- Compilation with a sort that can be evaluated. -/
theorem compile_eq (cfg : Cfg) (pcs : List (String × String)) : compile cfg pcs =
    (match (match pcs.foldlM (addPort cfg) [] with
      | .error e => (.error e : Except Err (List Chan))
      | .ok cs => .ok (StableSort.insSort (fun c => c.device) cs)) with
    | .error e => .error e
    | .ok cs =>
      match pcs.foldlM (modStep cfg) (cs, []) with
      | .error e => .error e
      | .ok (cs, freqs) =>
        match (if cs.all (accepted cfg cs) && cfg.los.all (fun o => o.instrument.isSome) then
            (.ok (StableSort.insSort (fun c => c.device) (StableSort.insSort (fun c => (ioIndex c.io).getD 0) cs)) : Except Err (List Chan))
          else .error .validation) with
        | .error e => .error e
        | .ok cs =>
          match cs.foldlM (addLo cfg) ⟨freqs, []⟩ with
          | .error e => .error e
          | .ok s => .ok (cs, s)) := by
  unfold compile wire parse
  simp only [StableSort.sortBy_eq_insSort]
  rfl

/-- Part of the example configuration of the repository (schemas/examples/zhinst_hardware_compilation_config.json): channel 0 has a
local oscillator of its own, channels 1 and 2 share one. -/
def graph : List (Node × List Node) :=
  [(["hd", "channel_0"], [["m0", "if"]]), (["m0", "if"], [["hd", "channel_0"]]),
   (["lo0_ch1", "output"], [["m0", "lo"]]), (["m0", "lo"], [["lo0_ch1", "output"]]),
   (["m0", "rf"], [["q0:mw"]]), (["q0:mw"], [["m0", "rf"]]),
   (["hd", "channel_1"], [["m1", "if"]]), (["m1", "if"], [["hd", "channel_1"]]),
   (["lo0_ch2", "output"], [["m1", "lo"], ["m2", "lo"]]), (["m1", "lo"], [["lo0_ch2", "output"]]),
   (["m1", "rf"], [["q1:mw"]]), (["q1:mw"], [["m1", "rf"]]),
   (["hd", "channel_2"], [["m2", "if"]]), (["m2", "if"], [["hd", "channel_2"]]),
   (["m2", "lo"], [["lo0_ch2", "output"]]),
   (["m2", "rf"], [["q2:mw"]]), (["q2:mw"], [["m2", "rf"]])]

def cfg : Cfg where
  graph := graph
  kinds := [("hd", .device), ("lo0_ch1", .other), ("lo0_ch2", .other), ("m0", .mixer), ("m1", .mixer), ("m2", .mixer)]
  outs := [("hd", "channel_0"), ("hd", "channel_1"), ("hd", "channel_2"), ("hd", "channel_3")]
  los := [⟨"lo0_ch1", some "lo0", "ch1.frequency", "power", some 13⟩, ⟨"lo0_ch2", some "lo0", "ch2.frequency", "ch2.power", some 10⟩]
  mods := [(("q0:mw", "q0.01"), ⟨some (-100000000), none⟩), (("q1:mw", "q1.01"), ⟨some (-100000000), none⟩),
    (("q2:mw", "q2.01"), ⟨some (-100000000), none⟩)]
  clocks := [("q0.01", 6000000000), ("q1.01", 5500000000), ("q2.01", 5300000000)]

def pcs : List (String × String) := [("q2:mw", "q2.01"), ("q0:mw", "q0.01"), ("q1:mw", "q1.01")]

def c0 : Chan := ⟨"hd", "channel_0", "q0:mw", "q0.01", some "lo0_ch1", some (some (-100000000))⟩
def c1 : Chan := ⟨"hd", "channel_1", "q1:mw", "q1.01", some "lo0_ch2", some (some (-100000000))⟩
def c2 : Chan := ⟨"hd", "channel_2", "q2:mw", "q2.01", some "lo0_ch2", some (some (-100000000))⟩

theorem proper : Proper cfg pcs := by
  constructor <;> decide +kernel

theorem cfg_ok : compile cfg pcs = .ok ([c0, c1, c2],
    ⟨[("lo0_ch2", some 5600000000), ("lo0_ch1", some 6100000000)],
     [(("lo0", "ch1.frequency"), some 6100000000), (("lo0", "power"), some 13), (("lo0", "ch2.frequency"), some 5600000000),
      (("lo0", "ch2.power"), some 10)]⟩) := by
  rw [compile_eq]; decide +kernel

/-- The ports of this configuration are not ambiguous. -/
theorem unambiguous : Unambiguous cfg "q0:mw" := by
  refine ⟨⟨[["m0", "rf"]], by decide +kernel⟩, ?_⟩
  have : ∀ e ∈ cfg.graph, isIn "q0:mw".toList (text e.1) = true → e.1 = ["q0:mw"] := by decide +kernel
  intro e he h
  exact this e he (isIn_iff.2 h)

/-- The port is wired to channel 0 through the mixer, and it plays there. -/
theorem wired : Wired cfg "q0:mw" "hd" "channel_0" (some "lo0_ch1") :=
  Wired.mixer (n := ["m0", "rf"]) (i := ["hd", "channel_0"]) (l := ["lo0_ch1", "output"]) (mixer := "m0")
    ⟨[["m0", "rf"]], by decide +kernel, by decide +kernel⟩ rfl (by decide +kernel) ⟨[], by decide +kernel⟩ rfl ⟨[], by decide +kernel⟩ rfl rfl

theorem alone1 : Alone cfg ⟨"lo0_ch1", some "lo0", "ch1.frequency", "power", some 13⟩ := by
  unfold Alone; decide +kernel

theorem alone2 : Alone cfg ⟨"lo0_ch2", some "lo0", "ch2.frequency", "ch2.power", some 10⟩ := by
  unfold Alone; decide +kernel

/-- Qubit 0 is driven at the frequency of its clock. -/
theorem good : ∃ chans conf, compile cfg pcs = .ok (chans, conf) ∧ c0 ∈ chans ∧ Emits cfg conf.generic c0 6000000000 := by
  refine ⟨_, _, cfg_ok, by decide +kernel, ?_⟩
  exact emits_clock_partial proper cfg_ok (o := ⟨"lo0_ch1", some "lo0", "ch1.frequency", "power", some 13⟩) (by decide +kernel) alone1
    (by decide +kernel) rfl (by decide +kernel) (by decide +kernel) (by
      have : ∀ e ∈ cfg.mods, e.2.lo = none := by decide +kernel
      exact fun m hm => this _ hm)

/-- With the example configuration, qubit 2 is not driven at the frequency of its clock (5.3 GHz) but at 5.5 GHz, and nothing is
reported. -/
theorem shared_wrong : ∃ chans conf, compile cfg pcs = .ok (chans, conf) ∧ c2 ∈ chans ∧ ("q2.01", 5300000000) ∈ cfg.clocks ∧
    ¬ Emits cfg conf.generic c2 5300000000 ∧ Emits cfg conf.generic c2 5500000000 := by
  refine ⟨_, _, cfg_ok, by decide +kernel, by decide +kernel, ?_⟩
  have hs : Sets [(("lo0", "ch1.frequency"), some (6100000000 : Rat)), (("lo0", "power"), some 13), (("lo0", "ch2.frequency"), some 5600000000),
      (("lo0", "ch2.power"), some 10)] "lo0" "ch2.frequency" 5600000000 := sets_of_get (s := ⟨[], _⟩) (by decide +kernel) (by decide +kernel)
  have hi : Interm c2 (-100000000) := Or.inr rfl
  have key := fun f => emits_iff (f := f) proper.los (o := ⟨"lo0_ch2", some "lo0", "ch2.frequency", "ch2.power", some 10⟩) (by decide +kernel) rfl hs
    (c := c2) rfl hi
  rw [key, key]
  decide +kernel

/-- Both frequencies are given: they need not add up to the frequency of the clock. -/
def over : Cfg := { cfg with mods := [(("q0:mw", "q0.01"), ⟨some 200000000, some 5000000000⟩)] }

theorem over_ok : compile over [("q0:mw", "q0.01")] = .ok (
    [⟨"hd", "channel_0", "q0:mw", "q0.01", some "lo0_ch1", some (some 200000000)⟩],
    ⟨[("lo0_ch1", some 5000000000)], [(("lo0", "ch1.frequency"), some 5000000000), (("lo0", "power"), some 13)]⟩) := by
  rw [compile_eq]; decide +kernel

theorem unchecked : ∃ c chans conf, compile over [("q0:mw", "q0.01")] = .ok (chans, conf) ∧ c ∈ chans ∧ c.clock = "q0.01" ∧
    ("q0.01", 6000000000) ∈ over.clocks ∧ Emits over conf.generic c 5200000000 ∧ ¬ Emits over conf.generic c 6000000000 := by
  refine ⟨⟨"hd", "channel_0", "q0:mw", "q0.01", some "lo0_ch1", some (some 200000000)⟩, _, _, over_ok, by decide +kernel, rfl, by decide +kernel, ?_⟩
  have hp : Proper over [("q0:mw", "q0.01")] := by constructor <;> decide +kernel
  have ha : Alone over ⟨"lo0_ch1", some "lo0", "ch1.frequency", "power", some 13⟩ := by unfold Alone; decide +kernel
  have key := fun g => given_frequencies (g := g) hp over_ok (o := ⟨"lo0_ch1", some "lo0", "ch1.frequency", "power", some 13⟩) (by decide +kernel) ha
    (f := 5000000000) (List.mem_singleton_self _) rfl (i := 200000000) (Or.inr rfl) (by
      intro d hd _ m hm
      rw [List.mem_singleton] at hd
      subst hd
      have : m = ⟨some 200000000, some 5000000000⟩ := by
        simpa [over] using hm
      rw [this])
  rw [key, key]
  decide +kernel

/-- Two frequencies for one local oscillator: the one that is set depends on the order in which the set of ports and clocks is
iterated, and nothing is reported. -/
def two : Cfg := { cfg with
  mods := [(("q0:mw", "q0.01"), ⟨some 0, none⟩), (("q1:mw", "q1.01"), ⟨some 0, some 5500000000⟩),
    (("q2:mw", "q2.01"), ⟨some 0, some 5300000000⟩)] }

theorem order_matters : ∃ cs conf conf',
    compile two [("q0:mw", "q0.01"), ("q1:mw", "q1.01"), ("q2:mw", "q2.01")] = .ok (cs, conf) ∧
    compile two [("q0:mw", "q0.01"), ("q2:mw", "q2.01"), ("q1:mw", "q1.01")] = .ok (cs, conf') ∧
    Sets conf.generic "lo0" "ch2.frequency" 5300000000 ∧ Sets conf'.generic "lo0" "ch2.frequency" 5500000000 := by
  refine ⟨[⟨"hd", "channel_0", "q0:mw", "q0.01", some "lo0_ch1", some (some 0)⟩,
      ⟨"hd", "channel_1", "q1:mw", "q1.01", some "lo0_ch2", some (some 0)⟩,
      ⟨"hd", "channel_2", "q2:mw", "q2.01", some "lo0_ch2", some (some 0)⟩],
    ⟨[("lo0_ch1", some 6000000000), ("lo0_ch2", some 5300000000)],
     [(("lo0", "ch1.frequency"), some 6000000000), (("lo0", "power"), some 13), (("lo0", "ch2.frequency"), some 5300000000),
      (("lo0", "ch2.power"), some 10)]⟩,
    ⟨[("lo0_ch1", some 6000000000), ("lo0_ch2", some 5500000000)],
     [(("lo0", "ch1.frequency"), some 6000000000), (("lo0", "power"), some 13), (("lo0", "ch2.frequency"), some 5500000000),
      (("lo0", "ch2.power"), some 10)]⟩, ?_, ?_, ?_, ?_⟩
  · rw [compile_eq]; decide +kernel
  · rw [compile_eq]; decide +kernel
  · exact sets_of_get (by decide +kernel) (by decide +kernel)
  · exact sets_of_get (by decide +kernel) (by decide +kernel)

/-- A channel behind an IQ mixer without modulation frequencies is not reported as such. -/
theorem no_frequencies : compile { cfg with mods := [] } [("q0:mw", "q0.01")] = .error .attributeError := by
  rw [compile_eq]; decide +kernel

/-- The port `1:mw` is played on the channel of `11:mw`. -/
def ports : Cfg where
  graph := [(["hd", "channel_0"], [["11:mw"]]), (["11:mw"], [["hd", "channel_0"]]), (["hd", "channel_1"], [["1:mw"]]), (["1:mw"], [["hd", "channel_1"]])]
  kinds := [("hd", .device)]
  outs := [("hd", "channel_0"), ("hd", "channel_1")]
  los := []
  mods := []
  clocks := []

theorem wrong_channel : ∃ chans conf, compile ports [("1:mw", "1.01")] = .ok (chans, conf) ∧
    (∃ c ∈ chans, c.port = "1:mw" ∧ c.device = "hd" ∧ c.io = "channel_0") ∧ ¬ Wired ports "1:mw" "hd" "channel_0" none := by
  refine ⟨[⟨"hd", "channel_0", "1:mw", "1.01", none, none⟩], ⟨[], []⟩, ?_, ⟨_, List.mem_singleton_self _, rfl, rfl, rfl⟩, ?_⟩
  · rw [compile_eq]; decide +kernel
  · rintro ⟨⟨l, hl, hn⟩, h1, h2, _⟩
    have hl' : l = [["hd", "channel_1"]] := by
      have : ∀ e ∈ ports.graph, e.1 = ["1:mw"] → e.2 = [["hd", "channel_1"]] := by decide +kernel
      exact this _ hl rfl
    subst hl'
    rw [List.mem_singleton] at hn
    subst hn
    revert h2
    decide +kernel

/-- A port that is wired to two channels: only the first is modulated. -/
def doubled : Cfg where
  graph := [(["q0:mw"], [["m0", "rf"], ["m1", "rf"]]), (["m0", "lo"], [["lo", "output"]]), (["m1", "lo"], [["lo", "output"]]),
    (["m0", "if"], [["hd", "channel_0"]]), (["m1", "if"], [["hd", "channel_1"]])]
  kinds := [("hd", .device), ("m0", .mixer), ("m1", .mixer), ("lo", .other)]
  outs := [("hd", "channel_0"), ("hd", "channel_1")]
  los := [⟨"lo", some "lo", "frequency", "power", none⟩]
  mods := [(("q0:mw", "q0.01"), ⟨some 100000000, none⟩)]
  clocks := [("q0.01", 6000000000)]

theorem second_unmodulated : ∃ a b conf, compile doubled [("q0:mw", "q0.01")] = .ok ([a, b], conf) ∧ a.port = b.port ∧ a.clock = b.clock ∧
    Emits doubled conf.generic a 6000000000 ∧ ¬ Emits doubled conf.generic b 6000000000 := by
  refine ⟨⟨"hd", "channel_0", "q0:mw", "q0.01", some "lo", some (some 100000000)⟩, ⟨"hd", "channel_1", "q0:mw", "q0.01", some "lo", none⟩,
    ⟨[("lo", some 5900000000)], [(("lo", "frequency"), some 5900000000), (("lo", "power"), none)]⟩, ?_, rfl, rfl, ?_⟩
  · rw [compile_eq]; decide +kernel
  · have hs : Sets [(("lo", "frequency"), some (5900000000 : Rat)), (("lo", "power"), none)] "lo" "frequency" 5900000000 :=
      sets_of_get (s := ⟨[], _⟩) (by decide +kernel) (by decide +kernel)
    have hn : (doubled.los.map (fun o => o.name)).Nodup := by decide +kernel
    rw [emits_iff hn (o := ⟨"lo", some "lo", "frequency", "power", none⟩) (by decide +kernel) rfl hs rfl (Or.inr rfl),
      emits_iff hn (o := ⟨"lo", some "lo", "frequency", "power", none⟩) (by decide +kernel) rfl hs rfl (Or.inl ⟨rfl, rfl⟩)]
    decide +kernel

/-- A local oscillator that is called `generic` cannot be used by two channels, although both agree. -/
theorem generic_refused : compile { doubled with los := [⟨"generic", some "lo", "frequency", "power", none⟩], graph :=
    [(["q0:mw"], [["m0", "rf"], ["m1", "rf"]]), (["m0", "lo"], [["generic", "output"]]), (["m1", "lo"], [["generic", "output"]]),
    (["m0", "if"], [["hd", "channel_0"]]), (["m1", "if"], [["hd", "channel_1"]])] } [("q0:mw", "q0.01")] = .error .valueError := by
  rw [compile_eq]; decide +kernel

/-- Two pulses with an intermediate frequency of 100 MHz that start 5 ns apart are in opposite phase. -/
theorem phase_lost (v : Rat) : ¬ SamePhase
    (outputPhase v 0 2400000000 0 (premodPhase 100000000 2400000000 0) - clockPhase (v + 100000000) 0 2400000000 0)
    (outputPhase v (5 / 1000000000) 2400000000 0 (premodPhase 100000000 2400000000 0) - clockPhase (v + 100000000) (5 / 1000000000) 2400000000 0) := by
  rw [phase_coherent rfl]
  rintro ⟨n, hn⟩
  have h2 : (2 * n : Int) = 1 := by
    have : (2 * n : Rat) = 1 := by rw [← hn]; norm_num
    exact_mod_cast this
  omega

end Verif.ZiFreq.Examples
