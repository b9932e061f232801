/-
Frequencies and phases at the outputs.
-/
import Verif.ZiFreq.Props

set_option linter.unusedSimpArgs false
set_option linter.unusedVariables false

namespace Verif.ZiFreq
open Spec

theorem sets_unique {conf : List ((String × String) × Option Rat)} {i p : String} {v w : Rat} (h1 : Sets conf i p v)
    (h2 : Sets conf i p w) : v = w := Option.some.inj (h2.2 _ h1.1)

theorem interm_unique {c : Chan} {i j : Rat} (h1 : Interm c i) (h2 : Interm c j) : i = j := by
  rw [← interm_eq h1, ← interm_eq h2]

/-- What a channel emits is determined by the value of its local oscillator. -/
theorem emits_iff {cfg : Cfg} (hn : (cfg.los.map (fun o => o.name)).Nodup) {conf : List ((String × String) × Option Rat)} {o : Lo}
    (ho : o ∈ cfg.los) {instr : String} (hin : o.instrument = some instr) {v : Rat} (hs : Sets conf instr o.freqParam v)
    {c : Chan} (hl : c.lo = some o.name) {i : Rat} (hi : Interm c i) {f : Rat} : Emits cfg conf c f ↔ f = v + i := by
  constructor
  · rintro ⟨l, p, instr', w, j, e1, e2, e3, e4, e5, e6, rfl⟩
    rw [hl] at e1
    cases e1
    have := List.inj_on_of_nodup_map hn e2 ho e3
    subst this
    rw [hin] at e4
    cases e4
    rw [sets_unique e5 hs, interm_unique e6 hi]
  · rintro rfl
    exact ⟨o.name, o, instr, v, i, hl, ho, rfl, hin, hs, hi, rfl⟩

theorem channel_interm {cfg : Cfg} {pcs : List (String × String)} (hp : Proper cfg pcs) {chans : List Chan} {conf : Conf}
    (h : compile cfg pcs = .ok (chans, conf)) {c : Chan} (hc : c ∈ chans) : ∃ i, Interm c i := by
  rcases (interm_configured hp h).1 c hc with hm | ⟨m, f, _, _, hm⟩
  · exact ⟨0, Or.inl ⟨hm, rfl⟩⟩
  · exact ⟨f, Or.inr hm⟩

/-- If no frequencies are given for a local oscillator that one channel uses, this channel emits at the frequency of its clock. -/
theorem emits_clock_partial {cfg : Cfg} {pcs : List (String × String)} (hp : Proper cfg pcs) {chans : List Chan} {conf : Conf}
    (h : compile cfg pcs = .ok (chans, conf)) {o : Lo} (ho : o ∈ cfg.los) (ha : Alone cfg o) {c : Chan} (hc : c ∈ chans)
    (hl : c.lo = some o.name) (hone : ∀ d ∈ chans, d.lo = some o.name → d = c) {r : Rat} (hr : (c.clock, r) ∈ cfg.clocks)
    (hv : ∀ m, ((c.port, c.clock), m) ∈ cfg.mods → m.lo = none) : Emits cfg conf.generic c r := by
  obtain ⟨i, hi⟩ := channel_interm hp h hc
  obtain ⟨instr, hin⟩ : ∃ instr, o.instrument = some instr := by
    obtain ⟨_, _, _, _, _, _, _, h2, _⟩ := compile_ok h
    exact Option.isSome_iff_exists.1 ((parse_ok h2).2.2.1 o ho)
  obtain ⟨pre, post, e, hpre⟩ := List.append_of_mem hc |>.elim fun a ⟨b, e⟩ => (⟨a, b, e, trivial⟩ : ∃ a b, chans = a ++ c :: b ∧ True)
  have hnd : (chans.map (fun c => (c.device, c.io))).Nodup := (wired_channels hp h).1
  have hs : Sets conf.generic instr o.freqParam (r - i) := by
    refine derived_lo hp h ho ha hin e hl hr hi ?_ ?_
    · intro d hd hdl
      exfalso
      have := hone d (by rw [e]; exact List.mem_append_left _ hd) hdl
      subst this
      rw [e, List.map_append, List.nodup_append] at hnd
      exact hnd.2.2 _ (List.mem_map_of_mem (f := fun c : Chan => (c.device, c.io)) hd) _ (by simp) rfl
    · intro d hd hdl m hm
      have := hone d hd hdl
      subst this
      exact hv m hm
  rw [emits_iff hp.los ho hin hs hl hi]
  ring

/-- With several channels on a local oscillator for which no frequency is given, a channel emits at the frequency of its clock if,
and only if, its clock and its intermediate frequency are as far apart as those of the first of these channels. -/
theorem shared_lo {cfg : Cfg} {pcs : List (String × String)} (hp : Proper cfg pcs) {chans : List Chan} {conf : Conf}
    (h : compile cfg pcs = .ok (chans, conf)) {o : Lo} (ho : o ∈ cfg.los) (ha : Alone cfg o)
    {c : Chan} {pre post : List Chan} (hc : chans = pre ++ c :: post) (hl : c.lo = some o.name)
    {r i : Rat} (hr : (c.clock, r) ∈ cfg.clocks) (hi : Interm c i)
    (hpre : ∀ d ∈ pre, d.lo = some o.name → ∀ q, (d.clock, q) ∉ cfg.clocks)
    (hv : ∀ d ∈ chans, d.lo = some o.name → ∀ m, ((d.port, d.clock), m) ∈ cfg.mods → m.lo = none)
    {d : Chan} (hd : d ∈ chans) (hdl : d.lo = some o.name) {q j : Rat} (hq : (d.clock, q) ∈ cfg.clocks) (hj : Interm d j) :
    Emits cfg conf.generic d q ↔ q - j = r - i := by
  obtain ⟨instr, hin⟩ : ∃ instr, o.instrument = some instr := by
    obtain ⟨_, _, _, _, _, _, _, h2, _⟩ := compile_ok h
    exact Option.isSome_iff_exists.1 ((parse_ok h2).2.2.1 o ho)
  rw [emits_iff hp.los ho hin (derived_lo hp h ho ha hin hc hl hr hi hpre hv) hdl hj]
  constructor <;> intro hh <;> linarith

/-- If a frequency is given for a local oscillator, a channel emits at the frequency of its clock if, and only if, the configured
frequencies add up to it: this is not checked. -/
theorem given_frequencies {cfg : Cfg} {pcs : List (String × String)} (hp : Proper cfg pcs) {chans : List Chan} {conf : Conf}
    (h : compile cfg pcs = .ok (chans, conf)) {o : Lo} (ho : o ∈ cfg.los) (ha : Alone cfg o) {f : Rat} {c : Chan}
    (hc : c ∈ chans) (hl : c.lo = some o.name) {i : Rat} (hi : Interm c i)
    (hv : ∀ d ∈ chans, d.lo = some o.name → ∀ m, ((d.port, d.clock), m) ∈ cfg.mods → m.lo = some f) {g : Rat} :
    Emits cfg conf.generic c g ↔ g = f + i := by
  obtain ⟨instr, hin⟩ : ∃ instr, o.instrument = some instr := by
    obtain ⟨_, _, _, _, _, _, _, h2, _⟩ := compile_ok h
    exact Option.isSome_iff_exists.1 ((parse_ok h2).2.2.1 o ho)
  exact emits_iff hp.los ho hin (given_lo hp h ho ha hin hc hl hv) hl hi

/-- Channels are in the order of the names of their devices and, on a device, of their numbers. -/
theorem channel_order {cfg : Cfg} {pcs : List (String × String)} {chans : List Chan} {conf : Conf}
    (h : compile cfg pcs = .ok (chans, conf)) :
    chans.Pairwise (fun c d => c.device < d.device ∨ (c.device = d.device ∧ c.io ≤ d.io)) := by
  obtain ⟨_, _, cs2, _, _, _, _, h2, _⟩ := compile_ok h
  obtain ⟨p1, p2, _, p4⟩ := parse_ok h2
  refine List.Pairwise.imp_of_mem ?_ p4
  intro a b ha hb hab
  rcases hab with hab | ⟨e, hab⟩
  · exact Or.inl hab
  · refine Or.inr ⟨e, ?_⟩
    have io : ∀ c ∈ chans, c.io ∈ ["channel_0", "channel_1", "channel_2", "channel_3"] := by
      intro c hc
      have := p2 c (p1.mem_iff.1 hc)
      unfold accepted ioIndex at this
      simp only [Bool.and_eq_true, List.isSome_idxOf?] at this
      exact this.1.1.1.2
    have h1 := io a ha
    have h2 := io b hb
    revert hab h1 h2
    generalize a.io = x
    generalize b.io = y
    intro hab h1 h2
    simp only [List.mem_cons, List.not_mem_nil, or_false] at h1 h2
    rcases h1 with rfl | rfl | rfl | rfl <;> rcases h2 with rfl | rfl | rfl | rfl <;> revert hab <;> decide +kernel

/-! ### Phases -/

/-- A channel that emits at the frequency of its clock is behind the clock by the intermediate frequency times the time at which
the pulse starts; all samples of a pulse are behind by the same. -/
theorem phase_offset {v i r : Rat} (hr : r = v + i) (t0 : Rat) {rate : Rat} (k : Nat) :
    clockPhase r t0 rate k - outputPhase v t0 rate k (premodPhase i rate k) = i * t0 := by
  subst hr
  unfold clockPhase outputPhase premodPhase
  ring

/-- Two pulses of an output have the same phase with respect to their clock if, and only if, the intermediate frequency does whole
turns between their starts. -/
theorem phase_coherent {v i r : Rat} (hr : r = v + i) (t1 t2 : Rat) {rate : Rat} (k j : Nat) :
    SamePhase (outputPhase v t1 rate k (premodPhase i rate k) - clockPhase r t1 rate k)
      (outputPhase v t2 rate j (premodPhase i rate j) - clockPhase r t2 rate j) ↔ ∃ n : Int, i * (t2 - t1) = n := by
  have e1 := phase_offset hr t1 (rate := rate) k
  have e2 := phase_offset hr t2 (rate := rate) j
  unfold SamePhase
  have : (outputPhase v t1 rate k (premodPhase i rate k) - clockPhase r t1 rate k) -
      (outputPhase v t2 rate j (premodPhase i rate j) - clockPhase r t2 rate j) = i * (t2 - t1) := by
    have : outputPhase v t1 rate k (premodPhase i rate k) - clockPhase r t1 rate k = - (i * t1) := by linarith
    rw [this]
    have : outputPhase v t2 rate j (premodPhase i rate j) - clockPhase r t2 rate j = - (i * t2) := by linarith
    rw [this]
    ring
  rw [this]

/-- Integration weights undo the modulation of a pulse that starts with the acquisition, sample by sample. -/
theorem weights_demodulate (i rate : Rat) (k : Nat) : premodPhase i rate k + weightPhase i rate k = 0 := by
  unfold premodPhase weightPhase; ring

end Verif.ZiFreq
