/-
C55: a concrete case, and cases where the code does not do what one expects.
-/
import Verif.Settings.FreqInit

set_option linter.unusedSimpArgs false
set_option linter.unusedVariables false

namespace Verif.Settings

open Verif.Connect (PC Chan Mode Dir ModType Path Elem)
open Verif.Numeric (isClose determineFreqs ncoFreq)
open Verif.Settings.Spec

namespace Ex

def out0 : Chan := ⟨.complex, .output, 0⟩
def out1 : Chan := ⟨.complex, .output, 1⟩
def q0 : PC := ("q0:mw", "q0.01")
def q1 : PC := ("q1:mw", "q1.01")
def r0 : PC := ("q0:res", "q0.ro")

/-- Clocks at 5 and 7 GHz. -/
def clocks : String → Option Rat
  | "q0.01" => some 5000000000
  | "q1.01" => some 5200000000
  | "q0.ro" => some 7000000000
  | _ => none

/-- Configured: the local oscillator for `q0`, the sequencer's oscillator for `q1` (the same output),
the sequencer's oscillator for the readout. -/
def freqs : PC → Option ModFreq
  | ("q0:mw", "q0.01") => some ⟨none, some 4900000000⟩
  | ("q1:mw", "q1.01") => some ⟨some 300000000, some 4900000000⟩
  | ("q0:res", "q0.ro") => some ⟨some 100000000, none⟩
  | _ => none

/-- A QCM-RF with two port-clocks on an output, and a QRM behind a mixer. -/
def mods : List Mod :=
  [initMod .qcmRf (fun _ => none) [] freqs [(q0, out0), (q1, out0)] [(q0, out0), (q1, out0)],
   initMod .qrm (fun _ => some ⟨none, true⟩) [(out0, "lo")] freqs [(r0, out0)] [(r0, out0)]]

def mods' : List Mod :=
  [⟨.qcmRf, [(0, some 4900000000)],
     [⟨q0, out0, none, none, true, true, some 100000000⟩,
      ⟨q1, out0, none, none, true, true, some 300000000⟩]⟩,
   ⟨.qrm, [(0, none)], [⟨r0, out0, some "lo", none, true, true, some 100000000⟩]⟩]

end Ex

open Ex

/-- The hypothesis of `all_tuned` holds in a case with configured and derived frequencies on modules with
and without local oscillators of their own. -/
theorem example_found :
    assignAll clocks mods [("lo", none)] = .ok (mods', [("lo", some 6900000000)]) := by
  decide +kernel

example : List.Forall₂ (fun m m' => m'.type = m.type ∧ Kept m.rf m'.rf ∧
    List.Forall₂ (Tuned m.type clocks ⟨[("lo", some 6900000000)], m'.rf⟩) m.seqs m'.seqs)
    mods mods' ∧ Kept [("lo", none)] [("lo", some (6900000000 : Rat))] :=
  all_tuned example_found

/-- The hypothesis of `configured_lo_used` holds. -/
example : ∃ m', mods'[0]? = some m' ∧ Verif.Dict.get? m'.rf 0 = some (some 4900000000) :=
  configured_lo_used example_found (n := 0) rfl (by decide)
    (f := 4900000000) (by
      intro e he _
      simp only [List.mem_cons, List.not_mem_nil, or_false] at he
      rcases he with rfl | rfl
      · exact ⟨none, by decide +kernel⟩
      · exact ⟨some 300000000, by decide +kernel⟩)
    ⟨(q0, out0), by simp, rfl⟩

/-- The hypothesis of `frequencies_found` holds for a sequencer with a configured oscillator. -/
example : Fits .qcmRf clocks ⟨[], [(0, some 4900000000)]⟩
    ⟨q1, out0, none, none, true, true, some 300000000⟩ := by
  intro clock hc hm
  have : clock = 5200000000 := by
    have : clocks q1.2 = some 5200000000 := by decide +kernel
    rw [this] at hc
    exact (Option.some.inj hc).symm
  subst this
  refine ⟨fun _ => ⟨rfl, fun _ => ⟨by decide, by simp, 4900000000, rfl, ?_⟩, by simp⟩,
    fun h => absurd (Or.inl rfl) h, fun h => absurd (Or.inl rfl) h⟩
  intro x hx
  simp only [Option.some.injEq] at hx
  subst hx
  refine ⟨?_, by simp, fun x hx => by simpa using hx⟩
  simp only [emitted, wanted]
  norm_num

/-- The hypotheses of `set_frequency_rf` hold: the clock is moved by 50 MHz. -/
example : setFreqArg ⟨q0, out0, none, none, true, true, some 100000000⟩ (some 5000000000)
    (some 5050000000) = .ok 600000000 := by decide +kernel

/-- The hypothesis of `lo_frequency_extracted` holds. -/
example : extractLos [] [([(r0, ⟨"cluster0", 1, out0, none⟩)], [("lo", ⟨"cluster0", 1, out0, none⟩)])]
    [(q0, ⟨none, some 1⟩), (r0, ⟨none, some 6900000000⟩)] = [("lo", some 6900000000)] := by
  decide +kernel

/-- The hypotheses of `ports_emit` hold for the readout behind a mixer: the second module, its first
port-clock. -/
example : ∃ m' s', mods'[1]? = some m' ∧ m'.seqs[0]? = some s' ∧ s'.pc = r0 ∧ s'.chan = out0 ∧
    ∃ lo nco, loProgram [("lo", some 6900000000)] "lo" = some lo ∧ s'.freq = some nco ∧
      OnFreq none lo nco (some 100000000) 7000000000 := by
  obtain ⟨m', s', h1, h2, h3, h4, -, h5, -⟩ := ports_emit (loPaths := [("lo", ⟨"cluster0", 1, out0, none⟩)])
    example_found (by simp) (n := 1) (t := .qrm) (desc := fun _ => some ⟨none, true⟩) (freqs := freqs)
    (pcs := [(r0, out0)]) (used := [(r0, out0)]) (by decide +kernel) (k := 0) (e := (r0, out0)) rfl
    (clock := 7000000000) (by decide +kernel) (by decide)
  obtain ⟨lo, nco, a1, a2, a3, -⟩ := h5 (by simp [Rf]) "lo" _ (List.mem_singleton.mpr rfl) rfl
  exact ⟨m', s', h1, h2, h3, h4, lo, nco, a1, a2, a3 (by simp)⟩

/-- The hypotheses of `set_frequency_back` hold. -/
example : setFreqArg ⟨q0, out0, none, none, true, true, some 100000000⟩ (some 5000000000) none =
    .ok 400000000 := by decide +kernel

/-! ### Findings -/

/-- With a downconverter the new frequency goes the wrong way: the clock is at 5 GHz behind a
downconverter at 9 GHz (local oscillator 3.9 GHz, sequencer 100 MHz); setting the clock to 5.05 GHz
makes the port emit 4.95 GHz. -/
theorem downconverter_set_frequency_wrong :
    ∃ (s : SeqF) (lo nco : Rat) (n : Int), s.dc = some 9000000000 ∧ s.freq = some nco ∧
      emitted s.dc lo nco = 5000000000 ∧
      assignSeq .qcmRf clocks ⟨[], [(0, some lo)]⟩ { s with freq := none } =
        .ok (s, ⟨[], [(0, some lo)]⟩) ∧
      setFreqArg s (some 5000000000) (some 5050000000) = .ok n ∧
      emitted s.dc lo (n / 4) = 4950000000 :=
  ⟨⟨q0, out0, none, some 9000000000, true, true, some 100000000⟩, 3900000000, 100000000, 600000000,
    rfl, rfl, by decide +kernel, by decide +kernel, by decide +kernel, by decide +kernel⟩

/-- A port-clock without a local oscillator frequency makes the frequency that another port-clock on the
same output configures be forgotten: the oscillator, configured at 4.9 GHz, is set to another frequency. -/
theorem configured_lo_forgotten :
    let freqs : PC → Option ModFreq := fun pc =>
      if pc = q0 then some ⟨none, some 4900000000⟩ else some ⟨some 100000000, none⟩
    rfSettings freqs [(q0, out0), (q1, out0)] = [(0, none)] ∧
    ∃ ms', assignAll clocks [initMod .qcmRf (fun _ => none) [] freqs [(q0, out0), (q1, out0)]
        [(q1, out0)]] [] = .ok ([ms'], []) ∧ ms'.rf = [(0, some 5100000000)] :=
  ⟨by decide +kernel,
   ⟨.qcmRf, [(0, some 5100000000)], [⟨q1, out0, none, none, true, true, some 100000000⟩]⟩,
    by decide +kernel, rfl⟩

/-- Two port-clocks on an output that configure different frequencies of its local oscillator are not
refused: the last one counts. -/
theorem different_lo_accepted :
    let freqs : PC → Option ModFreq := fun pc =>
      if pc = q0 then some ⟨none, some 4900000000⟩ else some ⟨none, some 5100000000⟩
    ∃ ms', assignAll clocks [initMod .qcmRf (fun _ => none) [] freqs [(q0, out0), (q1, out0)]
        [(q0, out0), (q1, out0)]] [] = .ok ([ms'], []) ∧ ms'.rf = [(0, some 5100000000)] :=
  ⟨⟨.qcmRf, [(0, some 5100000000)],
    [⟨q0, out0, none, none, true, true, some (-100000000)⟩,
     ⟨q1, out0, none, none, true, true, some 100000000⟩]⟩, by decide +kernel, rfl⟩

/-- The configured frequency of a local oscillator whose description has an `instrument_name` is
ignored. -/
theorem named_lo_frequency_ignored (given : List String)
    (clusters : List (List (PC × Path) × List (String × Path))) (freqs : List (PC × ModFreq))
    (name : String) (h : name ∈ given) :
    Verif.Dict.get? (extractLos given clusters freqs) name = some none := by
  unfold extractLos
  have h0 : Verif.Dict.get? (given.map (fun n => (n, (none : Option Rat)))) name = some none := by
    cases hg : Verif.Dict.get? (given.map (fun n => (n, (none : Option Rat)))) name with
    | none =>
      rw [Verif.Dict.get?_eq_none_iff] at hg
      exact absurd (by simpa [Verif.Dict.keys] using h) hg
    | some v =>
      have := Verif.Dict.mem_of_get? hg
      simp only [List.mem_map, Prod.mk.injEq] at this
      obtain ⟨_, _, _, rfl⟩ := this
      rfl
  have hkeep : ∀ (l : List (String × Path)) (path : Path) (lo : Option Rat)
      (d : List (String × Option Rat)), Verif.Dict.get? d name = some none →
      Verif.Dict.get? (l.foldl (fun d l =>
        if path = l.2 ∧ l.1 ∉ Verif.Dict.keys d then d ++ [(l.1, lo)] else d) d) name = some none := by
    intro l path lo d hd
    have := (nameLo_inner (path := path) (lo := lo) (name := name) (f := none) l d (Or.inl hd)).1
    rcases this with this | this
    · exact this
    · rw [hd] at this; simp at this
  have hcl : ∀ (e : PC × ModFreq) (cs : List (List (PC × Path) × List (String × Path)))
      (d : List (String × Option Rat)), Verif.Dict.get? d name = some none →
      Verif.Dict.get? (cs.foldl (fun d c => nameLo c.1 c.2 d e) d) name = some none := by
    intro e cs
    induction cs with
    | nil => exact fun _ => id
    | cons c cs ih =>
      intro d hd
      rw [List.foldl_cons]
      apply ih
      unfold nameLo
      split
      · exact hd
      · exact hkeep _ _ _ _ hd
  revert h0
  generalize (given.map (fun n => (n, (none : Option Rat)))) = d0
  induction freqs generalizing d0 with
  | nil => exact id
  | cons e fs ih =>
    intro hd
    rw [List.foldl_cons]
    exact ih _ (hcl e _ _ hd)

/-- A port-clock that comes first and has no frequency for the local oscillator hides the frequency that
another port-clock with the same mixer configures. -/
theorem first_port_clock_counts :
    let path : Path := ⟨"cluster0", 1, out0, none⟩
    extractLos [] [([(q0, path), (q1, path)], [("lo", path)])]
      [(q0, ⟨some 100000000, none⟩), (q1, ⟨none, some 4900000000⟩)] = [("lo", none)] := by
  decide +kernel

/-- A mixer whose local oscillator is used by no port-clock with modulation frequencies: the oscillator
is dropped from the configuration but not from the path, and looking it up raises a `KeyError`. -/
theorem lo_without_frequencies_key_error :
    let path : Path := ⟨"cluster0", 1, out0, none⟩
    let los := extractLos [] [([(r0, path)], [("lo", path)])] []
    assignAll clocks [initMod .qrm (fun _ => none) (channelToLo [("lo", path)]) (fun _ => none)
      [(r0, out0)] [(r0, out0)]] los = .error .keyError := by
  decide +kernel

/-- With `mix_lo` false the frequency of the clock is to override the configured frequency of the local
oscillator (a warning says so), but then the different frequency is refused. -/
theorem mix_lo_false_cannot_override :
    assignBaseband 5000000000 ⟨q0, out0, some "lo", none, false, true, some 100000000⟩
      (some (some 4900000000)) = .error .valueError ∧
    assignBaseband 5000000000 ⟨q0, out0, some "lo", none, false, true, some 100000000⟩
      (some none) = .ok (⟨q0, out0, some "lo", none, false, true, some 100000000⟩, some 5000000000) := by
  constructor <;> decide +kernel

/-- A local oscillator that feeds two mixers on the same cluster is known for the last of them only
(`Connect.shared_lo_forgotten`).  The sequencer of the other mixer is treated as if there were no mixer:
its oscillator is set to the frequency of the clock, whatever the local oscillator does. -/
theorem forgotten_lo_full_frequency :
    ∃ ms', assignAll clocks [initMod .qcm (fun _ => none)
        (channelToLo [("lo", (⟨"cluster0", 1, out1, none⟩ : Path))]) (fun _ => none)
        [(q0, out0)] [(q0, out0)]] [("lo", some 4900000000)] =
        .ok ([ms'], [("lo", some 4900000000)]) ∧
      ms'.seqs.map SeqF.freq = [some 5000000000] :=
  ⟨⟨.qcm, [(0, none)], [⟨q0, out0, none, none, true, true, some 5000000000⟩]⟩,
    by decide +kernel, rfl⟩

end Verif.Settings
