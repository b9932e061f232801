/-
C58: examples, and what is left from earlier programs.
-/
import Verif.Prepare.More

set_option linter.unusedSimpArgs false
set_option linter.unusedVariables false

namespace Verif.Prepare

open Verif.Prepare.Spec
open Verif.Connect (Chan Mode Dir ModType)

section
variable {σ : Type} [DecidableEq σ]

/-- **C58.** A parameter of a sequencer for which the settings have no value is left as it is. -/
theorem prepare_leaves {run : Run σ} (hr : CalOk run) {force : Bool} {t : ModType} (ht : t ≠ .qtm)
    {p : Program σ} {d d' : Dev σ} (hc : Coherent d) (hn : (p.seqs.map Prod.fst).Nodup)
    (h : prepare force run t p d = .ok d') {k : Nat} {s : Analog σ} (hs : (k, s) ∈ p.seqs) :
    (s.ncoEn = false → d'.hw (.seq k .ncoFreq) = d.hw (.seq k .ncoFreq)) ∧
    (s.length = none → d'.hw (.seq k .length) = d.hw (.seq k .length)) ∧
    (s.threshold = none → d'.hw (.seq k .threshold) = d.hw (.seq k .threshold)) ∧
    (s.rotation = none → d'.hw (.seq k .rotation) = d.hw (.seq k .rotation)) ∧
    (s.trigAddr = none → d'.hw (.seq k .trigAddr) = d.hw (.seq k .trigAddr)) ∧
    (s.trigEn = none → d'.hw (.seq k .trigEn) = d.hw (.seq k .trigEn)) ∧
    (t = .qrc → d'.hw (.seq k .phase) = d.hw (.seq k .phase) ∧ d'.hw (.seq k .ratio) = d.hw (.seq k .ratio)) := by
  obtain ⟨ws, cs, hres⟩ := prepare_result hr ht hc hn h
  have key : ∀ {q : SeqParam}, q ≠ .sync → (∀ c ∈ cs, ¬Changes c (.seq k q)) →
      (∀ v, (.seq k q, v) ∉ mixW t d.cache (k, s)) → (∀ v, (.seq k q, v) ∉ seqWrites t k s) →
      d'.hw (.seq k q) = d.hw (.seq k q) := by
    intro q h1 h2 h3 h4
    rw [hres.step.hw _ h2, hres.inSeq (k, s) hs, last_none.mpr h3, last_none.mpr h4, if_neg (fun h => h1 h.1)]
    rfl
  have hmix : ∀ {q : SeqParam}, q ≠ .phase ∧ q ≠ .ratio → ∀ v, (.seq k q, v) ∉ mixW t d.cache (k, s) := by
    intro q hq v hv
    unfold mixW at hv
    split at hv
    · simp at hv
    · rcases mixWrites_mem hv with h | h <;> rw [Param.seq.injEq] at h
      · exact hq.1 h.2
      · exact hq.2 h.2
  have hin : ∀ {q : SeqParam} {w : Val σ}, q ≠ .acqI → q ≠ .acqQ → q ≠ .acq →
      (Param.seq k q, w) ∉ inWrites t k s := by
    intro q w h1 h2 h3 hm
    rcases mem_in hm with h | h | h
    · exact h1 h
    · exact h2 h
    · exact h3 h
  refine ⟨fun hx => ?_, fun hx => ?_, fun hx => ?_, fun hx => ?_, fun hx => ?_, fun hx => ?_, fun hx => ⟨?_, ?_⟩⟩
  iterate 6
    refine key (by simp) (not_changed hres (by simp)) (hmix (by simp)) ?_
    intro v
    simp [mem_seqWrites ht, mem_analog, mem_base, mem_readout, mem_out, hin, hx]
  all_goals
    have hcs : ∀ q : SeqParam, ∀ c ∈ cs, ¬Changes c (.seq k q) := by
      intro q c hcm
      rw [hres.cals] at hcm
      rcases List.mem_append.mp hcm with hcm | hcm
      · obtain ⟨k', -, hq, -⟩ := sideband_mem.mp hcm
        exact absurd hx hq
      · unfold loCals at hcm
        split at hcm
        · simp at hcm
        · rw [if_pos hx] at hcm; simp at hcm
    refine key (by simp) (hcs _) ?_ ?_
    · intro v; simp [mixW, hx]
    · intro v
      rw [mem_seqWrites ht]
      simp [mem_analog, mem_base, mem_readout, mem_out, hin]

/-- The trigger of an earlier program stays on: the settings of a program without thresholded acquisitions
have no value for `thresholded_acq_trigger_en`. -/
theorem trigger_left_on {run : Run σ} (hr : CalOk run) {force : Bool} {t : ModType} (ht : t ≠ .qtm)
    {p : Program σ} {d d' : Dev σ} (hc : Coherent d) (hn : (p.seqs.map Prod.fst).Nodup)
    (h : prepare force run t p d = .ok d') {k : Nat} {s : Analog σ} (hs : (k, s) ∈ p.seqs)
    (hnone : s.trigEn = none) (hon : d.hw (.seq k .trigEn) = .bool true) :
    d'.hw (.seq k .trigEn) = .bool true := by
  rw [(prepare_leaves hr ht hc hn h hs).2.2.2.2.2.1 hnone, hon]

/-- The result of a sideband calibration is overwritten by the corrections of the settings when a program
with the same frequency is prepared again. -/
theorem calibration_lost {run : Run σ} (hr : CalOk run) {force : Bool} {t : ModType} (ht : t ≠ .qtm)
    (hq : t ≠ .qrc) {p : Program σ} {d d' : Dev σ} (hc : Coherent d) (hn : (p.seqs.map Prod.fst).Nodup)
    (h : prepare force run t p d = .ok d') {k : Nat} {s : Analog σ} (hs : (k, s) ∈ p.seqs) {f phase : Rat}
    (hf : s.freq = some f) (hsame : d.cache (.seq k .ncoFreq) = some (.num f)) (hphase : s.phase = some phase) :
    d'.hw (.seq k .phase) = .num phase := by
  refine (prepare_mixer hr ht hq hc hn h hs ?_).1 phase hphase
  rintro ⟨-, s', hs', -, -, hnew, -⟩
  have h1 := Dict.get?_of_mem hn hs
  have h2 := Dict.get?_of_mem hn hs'
  rw [h1] at h2
  obtain rfl := Option.some.inj h2
  exact hnew f hf hsame

/-- Channel `complex_output_1` is accepted for a QRM-RF (`Connect`), but then the sequencer is connected to
no output. -/
theorem second_output_unconnected {run : Run σ} (hr : CalOk run) {force : Bool}
    {p : Program σ} {d d' : Dev σ} (hc : Coherent d) (hn : (p.seqs.map Prod.fst).Nodup)
    (h : prepare force run .qrmRf p d = .ok d') {k : Nat} {s : Analog σ} (hs : (k, s) ∈ p.seqs)
    (hchan : s.chan = ⟨.complex, .output, 1⟩) (hout : s.outs = Settings.outputIndices s.chan) :
    ∀ i < outputs .qrmRf, d'.hw (.seq k (.out i)) = .str "off" := by
  intro i hi
  refine (prepare_outputs hr (by simp) hc hn h hs hout hi).2 ?_
  intro part hp
  simp only [OnOutput, hchan, outputs] at hp hi
  omega

/-- The mixer corrections of a QRC are ignored. -/
theorem qrc_mixer_ignored {run : Run σ} (hr : CalOk run) {force : Bool}
    {p : Program σ} {d d' : Dev σ} (hc : Coherent d) (hn : (p.seqs.map Prod.fst).Nodup)
    (h : prepare force run .qrc p d = .ok d') {k : Nat} {s : Analog σ} (hs : (k, s) ∈ p.seqs) :
    d'.hw (.seq k .phase) = d.hw (.seq k .phase) ∧ d'.hw (.seq k .ratio) = d.hw (.seq k .ratio) :=
  (prepare_leaves hr (by simp) hc hn h hs).2.2.2.2.2.2 rfl

end

/-! ### A concrete module -/

namespace Ex

/-- A driver whose calibrations set the corrections they are for, and which forgets their values. -/
def run : Run Nat := fun c d =>
  match c with
  | .sideband k =>
    { d with
      hw := fun p => if p = .seq k .phase then .num 7 else if p = .seq k .ratio then .num 8 else d.hw p
      cache := fun p => if p = .seq k .phase ∨ p = .seq k .ratio then none else d.cache p }
  | .lo o =>
    { d with
      hw := fun p => if p = .glob s!"out{o}_offset_path0" ∨ p = .glob s!"out{o}_offset_path1" then .num 9 else d.hw p
      cache := fun p => if p = .glob s!"out{o}_offset_path0" ∨ p = .glob s!"out{o}_offset_path1" then none
        else d.cache p }

theorem run_ok : CalOk run := by
  refine ⟨?_, ?_, ?_, ?_⟩
  · intro c d hc p v h
    cases c with
    | sideband k =>
      simp only [run] at h ⊢
      by_cases hp : p = .seq k .phase ∨ p = .seq k .ratio
      · rw [if_pos hp] at h; cases h
      · rw [if_neg hp] at h
        rw [if_neg (fun h => hp (Or.inl h)), if_neg (fun h => hp (Or.inr h))]
        exact hc p v h
    | lo o =>
      simp only [run] at h ⊢
      by_cases hp : p = .glob s!"out{o}_offset_path0" ∨ p = .glob s!"out{o}_offset_path1"
      · rw [if_pos hp] at h; cases h
      · rw [if_neg hp] at h; rw [if_neg hp]; exact hc p v h
  · intro c d p h
    cases c with
    | sideband k =>
      simp only [Changes, not_or] at h
      simp only [run]
      rw [if_neg h.1, if_neg h.2]
    | lo o =>
      simp only [run]
      exact if_neg h
  · intro k d p h
    simp only [run]
    exact if_neg (by rintro (rfl | rfl) <;> exact h _ rfl)
  · intro o d p h
    simp only [run]
    exact if_neg (by rintro (rfl | rfl) <;> exact h _ rfl)

/-- A new module. -/
def fresh : Dev Nat := ⟨fun _ => .none, fun _ => none, []⟩

theorem fresh_coherent : Coherent fresh := fun _ _ h => by cases h

/-- A sequencer for readout at 100 MHz with automatic calibration. -/
def readout : Analog Nat where
  syncEn := true
  chan := ⟨.complex, .output, 0⟩
  outs := [0, 1]
  ins := [0, 1]
  sequence := 42
  reads := [(3, (true, 2))]
  trigEn := some true
  trigAddr := some 3
  trigInvert := false
  ncoEn := true
  offsetI := 0
  offsetQ := 1/10
  gainI := 1
  gainQ := 1
  freq := some 100000000
  phase := some 0
  ratio := some 1
  autoSideband := true
  length := some 1000
  threshold := some (1/2)
  rotation := some 45
  ttlInput := none
  ttlThreshold := none
  autoBin := none

def settings : Settings.ModSettings where
  off0 := none
  off1 := none
  gain := (none, none)
  att := { out0 := some 10, out1 := none, in0 := none }
  los := [(0, some 7000000000)]

def program : Program Nat where
  seqs := [(2, readout)]
  settings := some (settings, .init)
  loCal := fun _ => .loChange
  mapping := some [(2, [0, 1])]
  traces := [1]

/-- The program is accepted, with calibrations of the sideband and of the leakage at first and none later. -/
theorem accepted : ∃ d1 d2, prepare false run .qrmRf program fresh = .ok d1 ∧
    d1.cals = [.sideband 2, .lo 0] ∧ d1.hw (.seq 2 .phase) = .num 7 ∧ d1.hw (.seq 2 .sync) = .bool true ∧
    d1.hw (.seq 3 .sync) = .bool false ∧ d1.hw (.seq 2 (.out 0)) = .str "IQ" ∧
    d1.hw (.seq 2 .acq) = .str "in0" ∧ d1.hw .scopeSelect = .nat 2 ∧
    d1.hw (.glob "out0_att") = .lit (.int 10) ∧ d1.hw (.glob "out0_offset_path0") = .num 9 ∧
    prepare false run .qrmRf program d1 = .ok d2 ∧ d2.cals = [.sideband 2, .lo 0] ∧
    d2.hw (.seq 2 .phase) = .num 0 ∧ d2.hw (.glob "out0_offset_path0") = .num 9 := by
  refine ⟨_, _, rfl, ?_, ?_, ?_, ?_, ?_, ?_, ?_, ?_, ?_, rfl, ?_, ?_, ?_⟩ <;> decide +kernel

/-- What the first preparation calibrated is overwritten by the second one, since the frequency has not
changed: with automatic calibration the settings have the defaults 0 and 1 (types/qblox.py:1496-1510), not
`None`. -/
theorem calibration_overwritten : ∃ d1 d2, prepare false run .qrmRf program fresh = .ok d1 ∧
    prepare false run .qrmRf program d1 = .ok d2 ∧ d1.hw (.seq 2 .phase) = .num 7 ∧
    d2.hw (.seq 2 .phase) = .num 0 := by
  obtain ⟨d1, d2, h1, -, h2, -, -, -, -, -, -, -, h3, -, h4, -⟩ := accepted
  exact ⟨d1, d2, h1, h3, h2, h4⟩

/-- What the theorems say about this program. -/
theorem example_sequencer : ∀ d1, prepare false run .qrmRf program fresh = .ok d1 →
    Sequencer .qrmRf d1.hw 2 readout ∧ (∀ part, OnOutput .qrmRf readout.chan 0 part → part = "IQ") ∧
    SidebandCal .qrmRf program fresh 2 ∧ LeakageCal .qrmRf program fresh 0 ∧ TraceOn program 2 := by
  intro d1 h
  refine ⟨prepare_sequencer run_ok (by simp) fresh_coherent (by simp [program]) h (by simp [program])
    (by simp [readout]), ?_, ?_, ?_, ?_⟩
  · intro part hp; exact hp.2.2.2
  · exact ⟨by simp, readout, by simp [program], rfl, rfl, by simp [fresh], by simp [fresh]⟩
  · exact ⟨settings, .init, rfl, ⟨_, rfl, rfl⟩, Or.inl ⟨rfl, _, _, ⟨rfl, rfl⟩, rfl, by simp [fresh]⟩⟩
  · exact ⟨1, by simp [program], _, rfl, [0, 1], by simp, by simp⟩

/-- The program has thresholded acquisitions; the next one does not. -/
def plain : Program Nat :=
  { program with seqs := [(2, { readout with trigEn := none, trigAddr := none, threshold := none })] }

theorem trigger_stays : ∃ d1 d2, prepare false run .qrmRf program fresh = .ok d1 ∧
    prepare false run .qrmRf plain d1 = .ok d2 ∧ d2.hw (.seq 2 .trigEn) = .bool true := by
  refine ⟨_, _, rfl, rfl, ?_⟩
  decide +kernel

/-- A sequencer with two trace acquisitions channels on different sequencers is refused. -/
theorem traces_refused : prepare false run .qrmRf
    { program with seqs := [(2, readout), (3, readout)], mapping := some [(2, [0]), (3, [1])], traces := [0, 1] }
    fresh = .error .valueError := by
  rfl

/-- A QRC sequencer without NCO is refused. -/
theorem qrc_refused : prepare false run .qrc
    { program with seqs := [(2, { readout with ncoEn := false })] } fresh = .error .valueError := by
  rfl

/-- A QTM. -/
def timetag : Timetag Nat where
  syncEn := true
  outs := []
  ins := [4]
  sequence := 11
  reads := []
  analogThreshold := some (1/2)
  acq := { AcqSet.Qtm.init with source := some .first, ref := some .start, trace := some .scope,
                                trigEn := some true, aHigh := 2 }

theorem qtm_accepted : ∃ d1, prepareQtm false [(4, timetag)] fresh = .ok d1 ∧ IoChannel d1.hw 4 timetag ∧
    d1.hw (.io 4 .mode) = .str "input" ∧ d1.hw (.io 4 .addrHigh) = .nat 2 := by
  refine ⟨_, rfl, ?_, ?_, ?_⟩
  · exact prepare_timetag (seqs := [(4, timetag)]) fresh_coherent (by simp) (by simp [OwnChannel, timetag]) rfl
      (by simp) (by simp [timetag])
  · decide +kernel
  · decide +kernel

end Ex

end Verif.Prepare
