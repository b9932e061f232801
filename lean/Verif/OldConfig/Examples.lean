/-
C85: configurations that are converted as they are meant, and some that are not.
-/
import Verif.OldConfig.Described

namespace Verif.OldConfig

set_option linter.unusedSimpArgs false

/-- A complex channel with a local oscillator, and a real and a digital one. -/
def good : Old Int :=
  [("config_type", .backend), ("latency_corrections", .correction 7),
    ("cluster0", .cluster [("ref", 1), ("name", 2)]
      [⟨1, [("instrument_type", 3)],
        [⟨.complex, "complex_output_0", [.opt "mix_lo" 1, .lo "lo0"],
          [⟨("q0:mw", "q0.01"), [("interm_freq", 50), ("ttl_acq_threshold", 5)]⟩], [.opt "output_att" 10]⟩,
         ⟨.digital, "digital_output_1", [], [⟨("q0:sw", "digital"), []⟩], []⟩]⟩,
       ⟨2, [("instrument_type", 4)],
        [⟨.real, "real_output_0", [.opt "input_gain_0" 2, .opt "mix_lo" 0], [⟨("q0:fl", "cl0.baseband"), [("init_gain_awg_path_I", 9)]⟩], []⟩]⟩]),
    ("lo0", .lo [("instrument_type", 5), ("frequency", 5000), ("power", 20)])]

theorem good_names : ((chans good).map fun e => e.2.2.kind) = [.complex, .digital, .real] := by decide

theorem good_frequency {l : String} {v : Int} (h : Frequency good l v) : l = "lo0" ∧ v = 5000 := by
  obtain ⟨opts, h1, h2⟩ := h
  simp [good] at h1
  obtain ⟨rfl, rfl⟩ := h1
  simpa using h2

theorem good_wants {pc : Pc} {cat field : String} {v : Int} (h : Wants good pc cat field v) :
    (pc, cat, field, v) ∈ [(("q0:mw", "q0.01"), "output_att", "", (10 : Int)),
      (("q0:mw", "q0.01"), "modulation_frequencies", "lo_freq", 5000),
      (("q0:mw", "q0.01"), "modulation_frequencies", "interm_freq", 50),
      (("q0:mw", "q0.01"), "sequencer_options", "ttl_acq_threshold", 5),
      (("q0:fl", "cl0.baseband"), "input_gain", "", 2),
      (("q0:fl", "cl0.baseband"), "sequencer_options", "init_gain_awg_path_I", 9)] := by
  obtain ⟨e, he, p, hp, rfl, hw⟩ := h
  simp [chans, good, Item.chans] at he
  rcases he with rfl | rfl | rfl
  · simp at hp
    subst hp
    rcases hw with ⟨k, h1, h2⟩ | ⟨l, h1, _, h2, rfl, rfl⟩ | ⟨k, h1, h2⟩ | ⟨_, h1, h2, rfl⟩
    · simp [Channel.entries] at h1
      rcases h1 with ⟨rfl, rfl⟩ | ⟨rfl, rfl⟩ <;> simp [channelMeaning] at h2
      simp [h2]
    · obtain ⟨rfl, rfl⟩ := good_frequency h2
      simp
    · simp at h1
      rcases h1 with ⟨rfl, rfl⟩ | ⟨rfl, rfl⟩ <;> simp [pcMeaning] at h2
      simp [h2]
    · simp at h1
      rcases h1 with ⟨rfl, rfl⟩ | ⟨rfl, rfl⟩
      · simp [pcMeaning] at h2
      · simp
  · simp at hp
    subst hp
    rcases hw with ⟨k, h1, h2⟩ | ⟨l, h1, _, h2, rfl, rfl⟩ | ⟨k, h1, h2⟩ | ⟨_, h1, h2, rfl⟩
    · simp [Channel.entries] at h1
    · simp [Channel.entries] at h1
    · simp at h1
    · simp at h1
  · simp at hp
    subst hp
    rcases hw with ⟨k, h1, h2⟩ | ⟨l, h1, _, h2, rfl, rfl⟩ | ⟨k, h1, h2⟩ | ⟨_, h1, h2, rfl⟩
    · simp [Channel.entries] at h1
      rcases h1 with ⟨rfl, rfl⟩ | ⟨rfl, rfl⟩ <;> simp [channelMeaning] at h2
      simp [h2]
    · simp [Channel.entries] at h1
    · simp at h1
      obtain ⟨rfl, rfl⟩ := h1
      simp [pcMeaning] at h2
      simp [h2]
    · simp at h1
      obtain ⟨rfl, rfl⟩ := h1
      simp [pcMeaning] at h2

theorem good_wellFormed : WellFormed good where
  names := by decide
  known := by simp [good]
  los := by
    intro e he opts ho
    simp [good] at he
    rcases he with rfl | rfl | rfl | rfl <;> simp at ho
    subst ho
    exact ⟨by decide, by decide⟩
  exist := by
    intro e he _ l hl
    simp [chans, good, Item.chans] at he
    rcases he with rfl | rfl | rfl <;> simp [Channel.entries] at hl
    subst hl
    decide
  single := by
    intro e he a b l m hab
    have hcount : (e.2.2.entries.filter fun x => match x with | .lo _ => true | .opt _ _ => false).length ≤ 1 := by
      simp [chans, good, Item.chans] at he
      rcases he with rfl | rfl | rfl <;> decide
    rw [hab, List.filter_append, List.filter_cons_of_pos (by rfl), List.length_append, List.length_cons] at hcount
    intro hm
    rw [List.mem_append] at hm
    rcases hm with hm | hm
    · have : 0 < (a.filter fun x : Entry Int => match x with | .lo _ => true | .opt _ _ => false).length :=
        List.length_pos_of_mem (List.mem_filter.mpr ⟨hm, rfl⟩)
      omega
    · have : 0 < (b.filter fun x : Entry Int => match x with | .lo _ => true | .opt _ _ => false).length :=
        List.length_pos_of_mem (List.mem_filter.mpr ⟨hm, rfl⟩)
      omega
  last := by
    intro e he hk
    simp [chans, good, Item.chans] at he
    rcases he with rfl | rfl | rfl <;> simp at hk ⊢
  keys := by
    intro e he p hp
    simp [chans, good, Item.chans] at he
    rcases he with rfl | rfl | rfl <;> simp at hp <;> subst hp <;> decide
  gain := by
    intro e he hk p hp _
    simp [chans, good, Item.chans] at he
    rcases he with rfl | rfl | rfl <;> simp at hk hp
    subst hp
    simp [others]
  seq := by simp [chans, good, Item.chans]
  slots := by
    intro e he opts modules hm
    simp [good] at he
    rcases he with rfl | rfl | rfl | rfl <;> simp at hm
    obtain ⟨rfl, rfl⟩ := hm
    decide
  ids := by decide
  entry := by
    intro e he k v w h1 h2
    simp [chans, good, Item.chans] at he
    rcases he with rfl | rfl | rfl <;> simp [Channel.entries] at h1 h2
    · rcases h1 with ⟨rfl, rfl⟩ | ⟨rfl, rfl⟩ <;> simp at h2 <;> exact h2.symm
    · rcases h1 with ⟨rfl, rfl⟩ | ⟨rfl, rfl⟩ <;> simp at h2 <;> exact h2.symm
  unique := by
    intro pc cat field v w h1 h2
    have h1 := good_wants h1
    have h2 := good_wants h2
    simp only [List.mem_cons, Prod.mk.injEq, List.not_mem_nil, or_false] at h1 h2
    rcases h1 with ⟨⟨rfl, rfl⟩, rfl, rfl, rfl⟩ | ⟨⟨rfl, rfl⟩, rfl, rfl, rfl⟩ | ⟨⟨rfl, rfl⟩, rfl, rfl, rfl⟩ |
      ⟨⟨rfl, rfl⟩, rfl, rfl, rfl⟩ | ⟨⟨rfl, rfl⟩, rfl, rfl, rfl⟩ | ⟨⟨rfl, rfl⟩, rfl, rfl, rfl⟩ <;>
      simp at h2 <;> exact h2.symm

/-- It is converted like this. -/
theorem good_converted : convert good (fun _ => false) (fun _ => 0) = .ok
    { clusters := [("cluster0", [("ref", 1)])],
      modules := [(("cluster0", 1), [("instrument_type", 3)]), (("cluster0", 2), [("instrument_type", 4)])],
      channels := [(("cluster0", 1, "complex_output_0"), [("mix_lo", 1)])],
      los := [("lo0", [("instrument_type", 5), ("power", 20)])],
      mixers := [(false, "lo0")],
      graph := [(.chan "cluster0" 1 "complex_output_0", .mixer false "lo0" .if), (.lo "lo0", .mixer false "lo0" .lo),
        (.mixer false "lo0" .out, .port "q0:mw"), (.chan "cluster0" 1 "digital_output_1", .port "q0:sw"),
        (.chan "cluster0" 2 "real_output_0", .port "q0:fl")],
      options := [(("modulation_frequencies", ("q0:mw", "q0.01"), "lo_freq"), 5000),
        (("output_att", ("q0:mw", "q0.01"), ""), 10), (("modulation_frequencies", ("q0:mw", "q0.01"), "interm_freq"), 50),
        (("sequencer_options", ("q0:mw", "q0.01"), "ttl_acq_threshold"), 5),
        (("input_gain", ("q0:fl", "cl0.baseband"), ""), 2),
        (("sequencer_options", ("q0:fl", "cl0.baseband"), "init_gain_awg_path_I"), 9)],
      corrections := [("latency_corrections", 7)] } := by decide +kernel

/-- One real channel. -/
def real (before : List (Entry Int)) (pcs : List (PcCfg Int)) (after : List (Entry Int)) : Old Int :=
  [("cluster0", .cluster [] [⟨1, [], [⟨.real, "real_output_0", before, pcs, after⟩]⟩])]

/-- In a real channel a key after `portclock_configs` raises an exception. -/
theorem key_after : convert (real [] [⟨("q0:fl", "cl0.baseband"), []⟩] [.opt "mix_lo" 1]) (fun _ => false) (fun _ => 0) =
    .error .keyError := by decide +kernel

/-- Before it does not. -/
theorem key_before : convert (real [.opt "mix_lo" 1] [⟨("q0:fl", "cl0.baseband"), []⟩] []) (fun _ => false) (fun _ => 0) =
    .ok { clusters := [("cluster0", [])], modules := [(("cluster0", 1), [])],
          channels := [(("cluster0", 1, "real_output_0"), [("mix_lo", 1)])],
          graph := [(.chan "cluster0" 1 "real_output_0", .port "q0:fl")] } := by decide +kernel

/-- In a complex channel both are the same. -/
theorem complex_key_after (before after : List (Entry Int)) (pcs : List (PcCfg Int)) (old : Old Int) (optical : Pc → Bool)
    (dflt : String → Int) (cl : String) (slot : Nat) (name : String) (n : New Int) :
    convertChannel old optical dflt cl slot ⟨.complex, name, before, pcs, after⟩ n =
      convertChannel old optical dflt cl slot ⟨.complex, name, before ++ after, pcs, []⟩ n := by
  simp [convertChannel]

/-- With another sequencer option the initial gain of a real channel is lost. -/
theorem gain_lost : (convert (real [] [⟨("q0:fl", "cl0.baseband"),
      [("init_gain_awg_path_I", 3), ("init_offset_awg_path_I", 4)]⟩] []) (fun _ => false) (fun _ => 0)).map (·.options) =
    .ok [(("sequencer_options", ("q0:fl", "cl0.baseband"), "init_offset_awg_path_I"), 4)] ∧
    Wants (real [] [⟨("q0:fl", "cl0.baseband"), [("init_gain_awg_path_I", 3), ("init_offset_awg_path_I", 4)]⟩] [])
      ("q0:fl", "cl0.baseband") "sequencer_options" "init_gain_awg_path_I" 3 := by
  refine ⟨by decide +kernel, ⟨("cluster0", 1, _), by simp [chans, real, Item.chans]; rfl, _, List.mem_cons_self, rfl,
    .inr (.inr (.inl ⟨"init_gain_awg_path_I", by simp, by simp [pcMeaning]⟩))⟩⟩

/-- Of two gains of one port-clock the first is lost. -/
theorem gain_overwritten : (convert (real [.opt "input_gain_0" 3, .opt "input_gain_1" 4] [⟨("q0:fl", "cl0.baseband"), []⟩] [])
      (fun _ => false) (fun _ => 0)).map (·.options) =
    .ok [(("input_gain", ("q0:fl", "cl0.baseband"), ""), 4)] := by decide +kernel

/-- A sequencer option of a real channel that is not in the list is lost without one that is, and kept with one that is. -/
theorem option_dropped : ((convert (real [] [⟨("q0:fl", "cl0.baseband"), [("ttl_acq_auto_bin_incr_threshold", 3)]⟩] [])
      (fun _ => false) (fun _ => 0)).map (·.options) = .ok []) ∧
    (convert (real [] [⟨("q0:fl", "cl0.baseband"), [("ttl_acq_auto_bin_incr_threshold", 3), ("qasm_hook_func", 1)]⟩] [])
      (fun _ => false) (fun _ => 0)).map (·.options) =
    .ok [(("sequencer_options", ("q0:fl", "cl0.baseband"), "ttl_acq_auto_bin_incr_threshold"), 3),
      (("sequencer_options", ("q0:fl", "cl0.baseband"), "qasm_hook_func"), 1)] := by
  refine ⟨?_, ?_⟩ <;> decide +kernel

/-- Two channels with one local oscillator have one mixer: both channels lead to both ports. -/
theorem mixer_shared : (convert (V := Int)
      [("cluster0", .cluster [] [⟨1, [], [⟨.complex, "complex_output_0", [.lo "lo0"], [⟨("q0:mw", "q0.01"), []⟩], []⟩,
        ⟨.complex, "complex_output_1", [.lo "lo0"], [⟨("q1:mw", "q1.01"), []⟩], []⟩]⟩]), ("lo0", .lo [])]
      (fun _ => false) (fun _ => 0)).map (·.graph) =
    .ok [(.chan "cluster0" 1 "complex_output_0", .mixer false "lo0" .if), (.lo "lo0", .mixer false "lo0" .lo),
      (.mixer false "lo0" .out, .port "q0:mw"), (.chan "cluster0" 1 "complex_output_1", .mixer false "lo0" .if),
      (.lo "lo0", .mixer false "lo0" .lo), (.mixer false "lo0" .out, .port "q1:mw")] := by decide +kernel

end Verif.OldConfig
