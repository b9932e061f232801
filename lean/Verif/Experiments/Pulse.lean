/-
The pulse-level experiments: Rabi with pulses, traces, spectroscopy, staircases.
-/
import Verif.Experiments.TimeDomain

set_option linter.unusedSimpArgs false
set_option linter.unusedVariables false

namespace Verif.Experiments

open Spec (Part inSequence)

variable {L : Type}

/-- One more operation after the one two before, by name. -/
macro "after_ref2" : tactic => `(tactic|
  (refine StartsAt.of_eq (startsAt_ref _ _ (by simp)
     (List.mem_cons_of_mem _ List.mem_cons_self) rfl) ?_
   simp only [itemOf, Op.delay, op, durOf, gX, gX90, gY, gM, Tone.act, Timing.RefPt.frac,
     Option.getD_some, Option.getD_none] <;> ring))

/-! ## C48: single-shot experiments with pulses -/

/-- The Rabi experiment with pulses: the waiting time, the pulse when it is over, the readout pulse
the given delay after its end, and the acquisition the given delay after the start of the readout
pulse. -/
theorem rabi_pulse_plays (dev : Dev) (gAmp dAmp mwDur : Rat) (mwPort mwClock : String) (ro : Tone)
    (roDelay acqDelay integration init : Rat) (h0 : 0 ≤ init) (h1 : 0 ≤ init + mwDur + roDelay)
    (h2 : 0 ≤ init + mwDur + roDelay + acqDelay) :
    (rabiPulseSched dev gAmp dAmp mwDur mwPort mwClock ro roDelay acqDelay integration init).play
      = .ok [(0, .idle init), (init, .drag gAmp dAmp mwDur mwPort mwClock),
          (init + mwDur + roDelay, .square ro.amp ro.dur ro.port ro.clock),
          (init + mwDur + roDelay + acqDelay, .ssb integration ro.port ro.clock 0 none)] := by
  refine Run.play ?_ (by simp [Calls.add]) (by simp [Calls.keys, Calls.add, keyOf]) none
  refine Run.leaf (Ready.startsAt (.inl ⟨rfl, rfl⟩)) le_rfl ?_
  refine Run.leaf (by after_prev) (by linarith) ?_
  refine Run.leaf (by after_prev) (by linarith) ?_
  refine Run.leaf (by after_ref) (by linarith) ?_
  exact .nil _ _

/-- A trace: the waiting time, the pulse the given delay after it, and the trace the given delay
after the start of the pulse. -/
theorem trace_plays (dev : Dev) (pulse : Tone) (delay acqDelay integration init : Rat)
    (h1 : 0 ≤ init + delay) (h2 : 0 ≤ init + delay + acqDelay) :
    (traceSched dev pulse delay acqDelay integration init).play
      = .ok [(0, .idle init), (init + delay, .square pulse.amp pulse.dur pulse.port pulse.clock),
          (init + delay + acqDelay, .trace integration pulse.port pulse.clock 0)] := by
  refine Run.play ?_ (by simp [Calls.add]) (by simp [Calls.keys, Calls.add, keyOf]) none
  refine Run.leaf (Ready.startsAt (.inl ⟨rfl, rfl⟩)) le_rfl ?_
  refine Run.leaf (by after_prev) (by linarith) ?_
  refine Run.leaf (by after_ref) (by linarith) ?_
  exact .nil _ _

/-- A trace after a pulse on the qubit. -/
theorem two_tone_trace_plays (dev : Dev) (pulse ro : Tone) (roDelay acqDelay integration init : Rat)
    (h0 : 0 ≤ init) (h1 : 0 ≤ init + pulse.dur + roDelay)
    (h2 : 0 ≤ init + pulse.dur + roDelay + acqDelay) :
    (twoToneTraceSched dev pulse ro roDelay acqDelay integration init).play
      = .ok [(0, .idle init), (init, .square pulse.amp pulse.dur pulse.port pulse.clock),
          (init + pulse.dur + roDelay, .square ro.amp ro.dur ro.port ro.clock),
          (init + pulse.dur + roDelay + acqDelay, .trace integration ro.port ro.clock 0)] := by
  refine Run.play ?_ (by simp [Calls.add]) (by simp [Calls.keys, Calls.add, keyOf]) none
  refine Run.leaf (Ready.startsAt (.inl ⟨rfl, rfl⟩)) le_rfl ?_
  refine Run.leaf (by after_prev) (by linarith) ?_
  refine Run.leaf (by after_prev) (by linarith) ?_
  refine Run.leaf (by after_ref) (by linarith) ?_
  exact .nil _ _

/-- Heterodyne spectroscopy at one frequency. -/
theorem heterodyne_plays (dev : Dev) (pulse : Tone) (portOut : Option String)
    (acqDelay integration init : Rat) (h0 : 0 ≤ init) (h1 : 0 ≤ init + acqDelay) :
    (heterodyneSched dev pulse portOut acqDelay integration init).play
      = .ok [(0, .idle init),
          (init, .square pulse.amp pulse.dur (portOut.getD pulse.port) pulse.clock),
          (init + acqDelay, .ssb integration pulse.port pulse.clock 0 (some 0))] := by
  refine Run.play ?_ (by simp [Calls.add]) (by simp [Calls.keys, Calls.add, keyOf]) none
  refine Run.leaf (Ready.startsAt (.inl ⟨rfl, rfl⟩)) le_rfl ?_
  refine Run.leaf (by after_prev) (by linarith) ?_
  refine Run.leaf (by after_ref) (by linarith) ?_
  exact .nil _ _

/-- Two-tone spectroscopy at one frequency. -/
theorem two_tone_plays (dev : Dev) (spec ro : Tone) (roDelay acqDelay integration init : Rat)
    (h0 : 0 ≤ init) (h1 : 0 ≤ init + spec.dur + roDelay)
    (h2 : 0 ≤ init + spec.dur + roDelay + acqDelay) :
    (twoToneSched dev spec ro roDelay acqDelay integration init).play
      = .ok [(0, .idle init), (init, .square spec.amp spec.dur spec.port spec.clock),
          (init + spec.dur + roDelay, .square ro.amp ro.dur ro.port ro.clock),
          (init + spec.dur + roDelay + acqDelay, .ssb integration ro.port ro.clock 0 (some 0))] := by
  refine Run.play ?_ (by simp [Calls.add]) (by simp [Calls.keys, Calls.add, keyOf]) none
  refine Run.leaf (Ready.startsAt (.inl ⟨rfl, rfl⟩)) le_rfl ?_
  refine Run.leaf (by after_prev) (by linarith) ?_
  refine Run.leaf (by after_prev) (by linarith) ?_
  refine Run.leaf (by after_ref) (by linarith) ?_
  exact .nil _ _

/-- Dark ESR at one frequency: charge reset, charge-resonance count, reset, spectroscopy, measurement
and count, one after the other. -/
theorem nv_dark_esr_plays (dev : Dev) (q : String) (hd : ∀ a, 0 ≤ dev a) :
    (nvDarkEsrSched dev q).play = .ok [(0, .chargeReset q), (dev (.chargeReset q), .crCount q),
      (dev (.chargeReset q) + dev (.crCount q), .reset [q]),
      (dev (.chargeReset q) + dev (.crCount q) + dev (.reset [q]), .spectroscopy q),
      (dev (.chargeReset q) + dev (.crCount q) + dev (.reset [q]) + dev (.spectroscopy q),
        .measure [q] none false),
      (dev (.chargeReset q) + dev (.crCount q) + dev (.reset [q]) + dev (.spectroscopy q)
        + dev (.measure [q] none false), .crCount q)] := by
  have h1 := hd (.chargeReset q)
  have h2 := hd (.crCount q)
  have h3 := hd (.reset [q])
  have h4 := hd (.spectroscopy q)
  have h5 := hd (.measure [q] none false)
  refine Run.play ?_ (by simp [Calls.add]) (by simp [Calls.keys, Calls.add, keyOf]) none
  refine Run.leaf (Ready.startsAt (.inl ⟨rfl, rfl⟩)) le_rfl ?_
  refine Run.leaf (by after_prev) (by linarith) ?_
  refine Run.leaf (by after_prev) (by linarith) ?_
  refine Run.leaf (by after_prev) (by linarith) ?_
  refine Run.leaf (by after_prev) (by linarith) ?_
  refine Run.leaf (by after_prev) (by linarith) ?_
  exact .nil _ _

/-! ## C48: sweeps of the frequency -/

theorem label_eq_append_empty (p : String) (i : Nat) :
    p ++ toString i = p ++ toString i ++ "" := by simp

theorem ne_of_head {s t : String} (h : s.toList.take 2 ≠ t.toList.take 2) : s ≠ t := by
  rintro rfl; exact h rfl

/-- Labels of a turn that have the number of the turn in them. -/
theorem mid_names {X : Type} (f : Nat → X → Calls L → Calls L) (ps : List (String × (X → String)))
    (hp : ∀ p ∈ ps, p.1.toList.all (fun c => !c.isDigit) = true)
    (hr : ∀ p ∈ ps, ∀ x c, (p.2 x).toList.head? = some c → c.isDigit = false) (len : Nat)
    (hf : ∀ i x n, ∃ ks : List Key, (∀ rest, (f i x rest).keys n = ks ++ rest.keys (n + len)) ∧
      ks.Nodup ∧ ∀ k ∈ ks, (∃ m, k = .uuid m ∧ n ≤ m ∧ m < n + len) ∨
        ∃ p ∈ ps, k = .label (p.1 ++ toString i ++ p.2 x))
    (xs : List X) : ((forEach f 0 xs).keys 0).Nodup := by
  refine (forEach_nodup f (fun i x => ps.map (fun p => p.1 ++ toString i ++ p.2 x))
    (fun _ _ => len) ?_ xs 0 0 ?_).1
  · intro i x n
    obtain ⟨ks, h1, h2, h3⟩ := hf i x n
    refine ⟨ks, h1, h2, ?_⟩
    intro k hk
    rcases h3 k hk with h | ⟨p, hp, rfl⟩
    · exact .inl h
    · exact .inr ⟨_, List.mem_map.2 ⟨p, hp, rfl⟩, rfl⟩
  · intro a b x y hab _ _ s hs hs'
    obtain ⟨p, hpm, rfl⟩ := List.mem_map.1 hs
    obtain ⟨q, hqm, h⟩ := List.mem_map.1 hs'
    have := label_mid_inj (hp q hqm) (hp p hpm) (hr q hqm y) (hr p hpm x) h
    omega

/-- Heterodyne spectroscopy with an NCO: for every frequency the waiting time, the new frequency and
the pulse when it is over, and the acquisition the given delay after the start of the pulse. The
next turn begins when the acquisition is over. The bin of the acquisition is the number of the
turn. -/
theorem heterodyne_nco_plays (dev : Dev) (fmt : Rat → String) (pulse : Tone)
    (portOut : Option String) (freqs : List Rat) (acqDelay integration init : Rat) (h0 : 0 ≤ init)
    (h1 : 0 ≤ init + acqDelay) (h2 : 0 ≤ init + acqDelay + integration) (hne : freqs ≠ []) :
    (heterodyneNcoSched dev fmt pulse portOut freqs acqDelay integration init).play
      = .ok (inSequence (freqs.zipIdx.map (fun x =>
        { length := init + acqDelay + integration
          plays := [(0, .idle init), (init, .setFreq pulse.clock x.1),
            (init, .square pulse.amp pulse.dur (portOut.getD pulse.port) pulse.clock),
            (init + acqDelay, .ssb integration pulse.port pulse.clock 0 (some x.2))] }))) := by
  refine forEach_plays (part := fun i f => (⟨init + acqDelay + integration,
    [(0, .idle init), (init, .setFreq pulse.clock f),
     (init, .square pulse.amp pulse.dur (portOut.getD pulse.port) pulse.clock),
     (init + acqDelay, .ssb integration pulse.port pulse.clock 0 (some i))]⟩ : Part Act))
    hne ?_ ?_ ?_ (by intros; simp [Calls.add]) none
  · refine mid_names _ [("buffer ", fun _ => ""),
      ("set_freq ", fun f => " (" ++ pulse.clock ++ " " ++ fmt f ++ " Hz)"),
      ("spec_pulse ", fun _ => ")"), ("acquisition ", fun _ => ")")] ?_ ?_ 4 ?_ freqs
    · simp only [List.forall_mem_cons]; simp
    · intro p hp x c hc
      simp only [List.mem_cons, List.not_mem_nil, or_false] at hp
      rcases hp with rfl | rfl | rfl | rfl <;>
        simp [String.toList_append] at hc <;> subst hc <;> decide
    · intro i x n
      refine ⟨[_, _, _, _], fun rest => rfl, ?_, ?_⟩
      · simp only [keyOf, lab, List.nodup_cons, List.mem_cons, Key.label.injEq, List.not_mem_nil,
          or_false, not_or, not_false_eq_true, List.nodup_nil, and_true]
        refine ⟨⟨?_, ?_, ?_⟩, ⟨?_, ?_⟩, ?_⟩ <;>
          exact ne_of_head (by simp [String.toList_append])
      · intro k hk
        right
        simp only [keyOf, lab, List.mem_cons, List.not_mem_nil, or_false] at hk
        rcases hk with rfl | rfl | rfl | rfl
        · exact ⟨_, List.mem_cons_self, by simp⟩
        · exact ⟨_, List.mem_cons_of_mem _ List.mem_cons_self, by simp [String.append_assoc]⟩
        · exact ⟨_, List.mem_cons_of_mem _ (List.mem_cons_of_mem _ List.mem_cons_self), rfl⟩
        · exact ⟨("acquisition ", fun _ => ")"), by simp, rfl⟩
  · intro i f hi acc n s hr hs rest ev hrun
    refine Run.leaf (t := s + 0) (by rw [add_zero]; exact hr.startsAt) (by linarith) ?_
    refine Run.leaf (by after_prev) (by linarith) ?_
    refine Run.leaf (by after_prev) (by linarith) ?_
    refine Run.leaf (by after_ref) (by linarith) ?_
    exact hrun _ _ (by turn_ready)
  · intro i f hi
    simpa using h2

/-- Two-tone spectroscopy with an NCO: for every frequency the waiting time, the new frequency and
the pulse when it is over, the readout pulse the given delay after the end of the pulse, and the
acquisition the given delay after the start of the readout pulse. -/
theorem two_tone_nco_plays (dev : Dev) (fmt : Rat → String) (spec ro : Tone) (freqs : List Rat)
    (roDelay acqDelay integration init : Rat) (h0 : 0 ≤ init) (h1 : 0 ≤ init + spec.dur + roDelay)
    (h2 : 0 ≤ init + spec.dur + roDelay + acqDelay)
    (h3 : 0 ≤ init + spec.dur + roDelay + acqDelay + integration) (hne : freqs ≠ []) :
    (twoToneNcoSched dev fmt spec ro freqs roDelay acqDelay integration init).play
      = .ok (inSequence (freqs.zipIdx.map (fun x =>
        { length := init + spec.dur + roDelay + acqDelay + integration
          plays := [(0, .idle init), (init, .setFreq spec.clock x.1),
            (init, .square spec.amp spec.dur spec.port spec.clock),
            (init + spec.dur + roDelay, .square ro.amp ro.dur ro.port ro.clock),
            (init + spec.dur + roDelay + acqDelay,
              .ssb integration ro.port ro.clock 0 (some x.2))] }))) := by
  refine forEach_plays (part := fun i f => (⟨init + spec.dur + roDelay + acqDelay + integration,
    [(0, .idle init), (init, .setFreq spec.clock f),
     (init, .square spec.amp spec.dur spec.port spec.clock),
     (init + spec.dur + roDelay, .square ro.amp ro.dur ro.port ro.clock),
     (init + spec.dur + roDelay + acqDelay, .ssb integration ro.port ro.clock 0 (some i))]⟩ : Part Act))
    hne ?_ ?_ ?_ (by intros; simp [Calls.add]) none
  · refine mid_names _ [("buffer ", fun _ => ""),
      ("set_freq ", fun f => " (" ++ spec.clock ++ " " ++ fmt f ++ " Hz)"),
      ("spec_pulse ", fun _ => ""), ("readout_pulse ", fun _ => ""), ("acquisition ", fun _ => "")]
      ?_ ?_ 5 ?_ freqs
    · simp only [List.forall_mem_cons]; simp
    · intro p hp x c hc
      simp only [List.mem_cons, List.not_mem_nil, or_false] at hp
      rcases hp with rfl | rfl | rfl | rfl | rfl <;>
        simp [String.toList_append] at hc <;> subst hc <;> decide
    · intro i x n
      refine ⟨[_, _, _, _, _], fun rest => rfl, ?_, ?_⟩
      · simp only [keyOf, lab, List.nodup_cons, List.mem_cons, Key.label.injEq, List.not_mem_nil,
          or_false, not_or, not_false_eq_true, List.nodup_nil, and_true]
        refine ⟨⟨?_, ?_, ?_, ?_⟩, ⟨?_, ?_, ?_⟩, ⟨?_, ?_⟩, ?_⟩ <;>
          exact ne_of_head (by simp [String.toList_append])
      · intro k hk
        right
        simp only [keyOf, lab, List.mem_cons, List.not_mem_nil, or_false] at hk
        rcases hk with rfl | rfl | rfl | rfl | rfl
        · exact ⟨_, List.mem_cons_self, by simp⟩
        · exact ⟨_, List.mem_cons_of_mem _ List.mem_cons_self, by simp [String.append_assoc]⟩
        · exact ⟨_, List.mem_cons_of_mem _ (List.mem_cons_of_mem _ List.mem_cons_self), by simp⟩
        · exact ⟨("readout_pulse ", fun _ => ""), by simp, by simp⟩
        · exact ⟨("acquisition ", fun _ => ""), by simp, by simp⟩
  · intro i f hi acc n s hr hs rest ev hrun
    refine Run.leaf (t := s + 0) (by rw [add_zero]; exact hr.startsAt) (by linarith) ?_
    refine Run.leaf (by after_prev) (by linarith) ?_
    refine Run.leaf (by after_prev) (by linarith) ?_
    refine Run.leaf (by after_ref) (by linarith) ?_
    refine Run.leaf (by after_ref) (by linarith) ?_
    exact hrun _ _ (by turn_ready)
  · intro i f hi
    simpa using h3

/-! ## C48: staircases -/

/-- The staircase: for every amplitude the waiting time, the pulse when it is over, and the
acquisition the given delay after the start of the pulse; the next turn begins when the acquisition
is over. -/
theorem staircase_plays (dev : Dev) (amps : List Rat) (dur : Rat)
    (port clock acqPort acqClock : String) (channel : Nat) (acqDelay integration init : Rat)
    (h0 : 0 ≤ init) (h1 : 0 ≤ init + acqDelay) (h2 : 0 ≤ init + acqDelay + integration)
    (hne : amps ≠ []) :
    (staircaseSched dev amps dur port clock acqPort acqClock channel acqDelay integration init).play
      = .ok (inSequence (amps.map (fun amp =>
        { length := init + acqDelay + integration
          plays := [(0, .idle init), (init, .square amp dur port clock),
            (init + acqDelay, .ssb integration acqPort acqClock channel none)] }))) := by
  refine forEach_plays' hne ?_ ?_ ?_ (by intros; simp [Calls.add]) none
  · refine forEach_nodup_prefix _ ["SquarePulse_", "Acquisition_"] (by decide) 3 ?_ amps
    intro i x n
    refine ⟨[_, _, _], fun rest => rfl, ?_, ?_⟩
    · simp [keyOf, lab, String.append_left_inj]
    · intro k hk
      simp only [keyOf, lab, List.mem_cons, List.not_mem_nil, or_false] at hk
      rcases hk with rfl | rfl | rfl <;> simp
  · intro i amp hi acc n s hr hs rest ev hrun
    refine Run.leaf (t := s + 0) (by rw [add_zero]; exact hr.startsAt) (by linarith) ?_
    refine Run.leaf (by after_prev) (by linarith) ?_
    refine Run.leaf (by after_ref) (by linarith) ?_
    exact hrun _ _ (by turn_ready)
  · intro i amp hi
    simpa using h2

end Verif.Experiments
