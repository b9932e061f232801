/-
C55: the frequencies of ports, stated in terms of the hardware description and hardware options.
-/
import Verif.Settings.FreqProps
import Verif.Settings.OptionsWrites

set_option linter.unusedSimpArgs false
set_option linter.unusedVariables false

namespace Verif.Settings

open Verif.Connect (PC Chan Mode Dir ModType Path)
open Verif.Settings.Spec
open Verif

/-- **C55.** A sequencer uses its oscillator on a QRC, and on other modules exactly if it has an analog
output and the configured intermediate frequency is not zero. -/
theorem nco_enabled (t : ModType) (desc : Chan → Option ChanDesc) (ctl : List (Chan × String))
    (freqs : PC → Option ModFreq) (e : PC × Chan) :
    (initSeq t desc ctl freqs e).ncoEn = true ↔
      t = .qrc ∨ (e.2.mode ≠ .digital ∧ e.2.dir = .output ∧
        ∀ f, freqs e.1 = some f → f.interm ≠ some 0) := by
  have hlen : (outputIndices e.2).length = 0 ↔ e.2.dir = .input := by
    unfold outputIndices
    cases e.2.dir with
    | input => simp
    | output => cases e.2.mode <;> simp
  have hint : (freqs e.1).bind ModFreq.interm = some 0 ↔ ∃ f, freqs e.1 = some f ∧ f.interm = some 0 := by
    cases freqs e.1 <;> simp
  simp only [initSeq, ncoEnabled, Bool.or_eq_true, decide_eq_true_eq, Bool.not_eq_true', Bool.or_eq_false_iff,
    decide_eq_false_iff_not, hlen, hint]
  constructor
  · rintro (h | ⟨⟨h1, h2⟩, h3⟩)
    · exact Or.inl h
    · refine Or.inr ⟨h2, ?_, fun f hf hi => h1 ⟨f, hf, hi⟩⟩
      cases hd : e.2.dir <;> simp_all
  · rintro (h | ⟨h1, h2, h3⟩)
    · exact Or.inl h
    · refine Or.inr ⟨⟨?_, h1⟩, by simp [h2]⟩
      rintro ⟨f, hf, hi⟩
      exact h3 f hf hi

theorem channelToLo_get (loPaths : List (String × Path)) (c : Chan) :
    ∀ d : List (Chan × String),
      Dict.get? (loPaths.foldl (fun d e => Dict.set d e.2.chan e.1) d) c =
        ((loPaths.reverse.find? (fun e => decide (e.2.chan = c))).map Prod.fst).or (Dict.get? d c) := by
  induction loPaths with
  | nil => intro d; simp
  | cons e rest ih =>
    intro d
    rw [List.foldl_cons, ih, List.reverse_cons, List.find?_append]
    cases h : rest.reverse.find? (fun e => decide (e.2.chan = c)) with
    | some x => simp
    | none =>
      by_cases he : e.2.chan = c
      · subst he; simp [Dict.get?_set_self]
      · simp [he, Dict.get?_set_ne _ _ (Ne.symm he)]

/-- **C55.** The local oscillator of a sequencer is the one whose mixer is at its channel, if no two
oscillators are at the same channel. -/
theorem lo_of_channel {loPaths : List (String × Path)}
    (hd : ∀ a ∈ loPaths, ∀ b ∈ loPaths, a.2.chan = b.2.chan → a.1 = b.1)
    (t : ModType) (desc : Chan → Option ChanDesc) (freqs : PC → Option ModFreq) (e : PC × Chan) (name : String) :
    (initSeq t desc (channelToLo loPaths) freqs e).extLo = some name ↔
      ∃ path, (name, path) ∈ loPaths ∧ path.chan = e.2 := by
  have := channelToLo_get loPaths e.2 []
  simp only [initSeq, channelToLo]
  rw [this]
  simp only [Dict.get?_nil, Option.or_none, Option.map_eq_some_iff]
  constructor
  · rintro ⟨x, hx, rfl⟩
    have h1 := List.mem_of_find?_eq_some hx
    have h2 := List.find?_some hx
    exact ⟨x.2, by simpa using h1, by simpa using h2⟩
  · rintro ⟨path, hm, hc⟩
    cases hf : loPaths.reverse.find? (fun x => decide (x.2.chan = e.2)) with
    | none =>
      rw [List.find?_eq_none] at hf
      exact absurd hc (by simpa using hf (name, path) (by simpa using hm))
    | some x =>
      have h1 := List.mem_of_find?_eq_some hf
      have h2 := List.find?_some hf
      exact ⟨x, rfl, hd x (by simpa using h1) _ hm (by simpa [hc] using h2)⟩

/-- The downconverter of a channel. -/
def Spec.downconverter (desc : Chan → Option ChanDesc) (c : Chan) : Option Rat :=
  if c.mode = .complex then (desc c).bind ChanDesc.dc else none

/-- The configured intermediate frequency of a port-clock. -/
def Spec.configuredIf (freqs : PC → Option ModFreq) (pc : PC) : Option Rat := (freqs pc).bind ModFreq.interm

theorem initSeq_dc (t : ModType) (desc : Chan → Option ChanDesc) (ctl : List (Chan × String))
    (freqs : PC → Option ModFreq) (e : PC × Chan) :
    (initSeq t desc ctl freqs e).dc = downconverter desc e.2 := by
  simp only [initSeq, downconverter]
  cases e.2.mode <;> cases desc e.2 <;> simp

/-- **C55.** Frequencies of ports, from hardware description and options.  If compilation succeeds, every
analog port-clock whose clock has a frequency is emitted at it:
* at a complex output of an RF module, by the module's local oscillator at that output and the sequencer's;
* at a channel of a baseband module with a mixer, by the mixer's local oscillator and the sequencer's;
* at an output of a baseband module without a mixer, by the sequencer's alone, unless it is turned off by an
  intermediate frequency of zero.
With `mix_lo = False` the local oscillator alone has the frequency, and the intermediate frequency has to be
configured. -/
theorem ports_emit {clocks : String → Option Rat} {ms ms' : List Mod}
    {ext ext' : List (String × Option Rat)} (h : assignAll clocks ms ext = .ok (ms', ext'))
    {n : Nat} {t : ModType} {desc : Chan → Option ChanDesc} {loPaths : List (String × Path)}
    (hd : ∀ a ∈ loPaths, ∀ b ∈ loPaths, a.2.chan = b.2.chan → a.1 = b.1)
    {freqs : PC → Option ModFreq} {pcs used : List (PC × Chan)}
    (hm : ms[n]? = some (initMod t desc (channelToLo loPaths) freqs pcs used))
    {k : Nat} {e : PC × Chan} (hu : used[k]? = some e) {clock : Rat} (hc : clocks e.1.2 = some clock)
    (ha : e.2.mode ≠ .digital) :
    ∃ m' s', ms'[n]? = some m' ∧ m'.seqs[k]? = some s' ∧ s'.pc = e.1 ∧ s'.chan = e.2 ∧
      (Rf t → e.2.mode = .complex → e.2.dir = .output →
        ∃ lo nco, Dict.get? m'.rf e.2.idx = some (some lo) ∧ s'.freq = some nco ∧
          OnFreq (downconverter desc e.2) lo nco (configuredIf freqs e.1) clock) ∧
      (¬Rf t → ∀ name path, (name, path) ∈ loPaths → path.chan = e.2 →
        ∃ lo nco, loProgram ext' name = some lo ∧ s'.freq = some nco ∧
          ((∀ d, desc e.2 = some d → d.mixLo = true) →
            OnFreq (downconverter desc e.2) lo nco (configuredIf freqs e.1) clock) ∧
          (∀ d, desc e.2 = some d → d.mixLo = false →
            configuredIf freqs e.1 = some nco ∧ emitted (downconverter desc e.2) lo 0 = clock)) ∧
      (¬Rf t → (∀ l ∈ loPaths, l.2.chan ≠ e.2) → e.2.dir = .output → configuredIf freqs e.1 ≠ some 0 →
        s'.freq = some clock) := by
  have hf := (all_tuned h).1
  have hl := hf.length_eq
  obtain ⟨hlt, hget⟩ := List.getElem?_eq_some_iff.mp hm
  obtain ⟨-, -, hs⟩ := (List.forall₂_iff_get.mp hf).2 n hlt (by omega)
  simp only [List.get_eq_getElem, hget] at hs
  have hl2 := hs.length_eq
  have hk : (initMod t desc (channelToLo loPaths) freqs pcs used).seqs[k]? =
      some (initSeq t desc (channelToLo loPaths) freqs e) := by
    simp [initMod, hu]
  obtain ⟨hlt2, hget2⟩ := List.getElem?_eq_some_iff.mp hk
  have ht := (List.forall₂_iff_get.mp hs).2 k hlt2 (by omega)
  simp only [List.get_eq_getElem, hget2] at ht
  set m' := ms'[n]'(by omega) with hm'
  have hn' : n < ms'.length := by omega
  have hk' : k < m'.seqs.length := by omega
  refine ⟨m', m'.seqs[k], List.getElem?_eq_getElem hn', List.getElem?_eq_getElem hk', ?_⟩
  generalize m'.seqs[k] = s' at ht
  obtain ⟨hs', ht⟩ := ht
  refine ⟨by rw [hs']; rfl, by rw [hs']; rfl, ?_⟩
  obtain ⟨h1, h2, h3⟩ := ht clock hc ha
  rw [initSeq_dc] at h1 h2
  refine ⟨h1, ?_, ?_⟩
  · intro hr name path hp hpc
    obtain ⟨lo, nco, a1, a2, a3, a4⟩ := h2 hr name ((lo_of_channel hd t desc freqs e name).mpr ⟨path, hp, hpc⟩)
    refine ⟨lo, nco, ?_, a2, fun hx => a3 ?_, fun d hx hy => a4 ?_⟩
    · simp [loProgram]
      simpa using congrArg (fun o => o.getD none) a1
    · simp only [initSeq]
      cases hdc : desc e.2 with
      | none => rfl
      | some d => exact hx d hdc
    · simp [initSeq, hx, hy]
  · intro hr hno ho hi
    refine (h3 hr ?_ ?_).1
    · cases hx : (initSeq t desc (channelToLo loPaths) freqs e).extLo with
      | none => rfl
      | some name =>
        obtain ⟨path, hp, hpc⟩ := (lo_of_channel hd t desc freqs e name).mp hx
        exact absurd hpc (hno _ hp)
    · rw [nco_enabled]
      refine Or.inr ⟨ha, ho, fun f hf hz => hi ?_⟩
      simp [configuredIf, hf, hz]

/-- **C55.** `SetClockFrequency(clock, None)` sets the sequencer's oscillator back to the frequency it was
compiled with, to the nearest quarter of a Hertz. -/
theorem set_frequency_back {s : SeqF} {clock nco : Rat} {n : Int} (hf : s.freq = some nco)
    (hn : setFreqArg s (some clock) none = .ok n) : |(n : Rat) / 4 - nco| ≤ 1 / 8 := by
  unfold setFreqArg newInterm at hn
  simp only [hf] at hn
  split at hn
  · simp at hn
  · rename_i m hm
    simp only [Except.ok.injEq] at hn
    subst hn
    have := ((Verif.Numeric.nco_freq _).1 _ hm).1
    rw [abs_sub_comm]
    simpa using this

/-- **C56.** The frequencies of all six local oscillators of a QRC are written. -/
theorem lo_written_qrc (s : ModSettings) (i : Nat) (name : String)
    (hi : (i, name) ∈ [(0, "out0_in0_lo_freq"), (1, "out1_in1_lo_freq"), (2, "out2_lo_freq"), (3, "out3_lo_freq"),
      (4, "out4_lo_freq"), (5, "out5_lo_freq")]) :
    (∀ f, getOpt s.los i = some f → Sets (writes .qrc s) name (.num f)) ∧
    (getOpt s.los i = none → Leaves (writes .qrc s) name) := by
  simp only [List.mem_cons, Prod.mk.injEq, List.not_mem_nil, or_false] at hi
  refine ⟨fun f h w => ?_, fun h w => ?_⟩ <;>
    rcases hi with ⟨rfl, rfl⟩ | ⟨rfl, rfl⟩ | ⟨rfl, rfl⟩ | ⟨rfl, rfl⟩ | ⟨rfl, rfl⟩ | ⟨rfl, rfl⟩ <;>
    simp [writes, mem_wr, h, eq_comm]

/-- **C56.** The filters of both outputs of a QRM are configured; it has no coefficients and no markers. -/
theorem filters_written_qrm (f : Filters) :
    (∀ o, o < 2 → ∀ s, Sets (filterWrites .qrm f) (.config o s) (.str (f o s).config.name)) ∧
    (∀ p w, (p, w) ∈ filterWrites .qrm f → ∃ o, o < 2 ∧ ∃ s, p = .config o s) := by
  have hall : ∀ s : Stage, s ∈ stages := by intro s; cases s <;> simp [stages]
  have key : ∀ p w, (p, w) ∈ filterWrites .qrm f ↔ ∃ o, o < 2 ∧ ∃ s, p = .config o s ∧
      w = .str (f o s).config.name := by
    intro p w
    simp [filterWrites, outputWrites, List.mem_flatMap, hall]
  refine ⟨fun o ho s w => ?_, fun p w h => ?_⟩
  · rw [key]
    constructor
    · rintro ⟨o', -, s', hp, hw⟩
      cases hp; exact hw
    · rintro rfl
      exact ⟨o, ho, s, rfl, rfl⟩
  · obtain ⟨o, ho, s, hp, -⟩ := (key p w).mp h
    exact ⟨o, ho, s, hp⟩

end Verif.Settings
