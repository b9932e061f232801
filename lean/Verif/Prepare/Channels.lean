/-
C58: outputs, inputs, mixers, settings of the module, and everything else.
-/
import Verif.Prepare.Props

set_option linter.unusedSimpArgs false
set_option linter.unusedVariables false

namespace Verif.Prepare

open Verif.Prepare.Spec
open Verif.Connect (Chan Mode Dir ModType)
open Verif.Settings.Spec (Sets Leaves)

variable {σ : Type} [DecidableEq σ]

omit [DecidableEq σ] in
theorem numOuts_eq (t : ModType) : numOuts t = outputs t := by cases t <;> rfl

theorem prepare_out {run : Run σ} (hr : CalOk run) {force : Bool} {t : ModType} (ht : t ≠ .qtm)
    {p : Program σ} {d d' : Dev σ} (hc : Coherent d) (hn : (p.seqs.map Prod.fst).Nodup)
    (h : prepare force run t p d = .ok d') {k : Nat} {s : Analog σ} (hs : (k, s) ∈ p.seqs) {i : Nat}
    (hi : i < outputs t) :
    d'.hw (.seq k (.out i)) = .str (if isRf t then rfOut s i else basebandOut s i) := by
  obtain ⟨ws, cs, hres⟩ := prepare_result hr ht hc hn h
  refine seq_value hres hs (by simp) ?_ ?_
  · simp only [mem_seqWrites ht, mem_analog, mem_out]
    exact Or.inr (Or.inr (Or.inl (Or.inr (Or.inr (Or.inr (Or.inr (Or.inr (Or.inl
      ⟨i, by rw [numOuts_eq]; exact hi, rfl, rfl⟩))))))))
  · intro w hw
    simp only [mem_seqWrites ht, mem_analog, mem_base, mem_readout, mem_out, reduceCtorEq, false_and,
      and_false, exists_false, false_or, or_false, SeqParam.out.injEq] at hw
    rcases hw with ⟨j, -, rfl, rfl⟩ | hw
    · rfl
    · rcases mem_in hw with h | h | h <;> cases h

/-- **C58.** After `prepare`, a sequencer is connected to the outputs of its channel and to no other, with
the right part of the signal on each. -/
theorem prepare_outputs {run : Run σ} (hr : CalOk run) {force : Bool} {t : ModType} (ht : t ≠ .qtm)
    {p : Program σ} {d d' : Dev σ} (hc : Coherent d) (hn : (p.seqs.map Prod.fst).Nodup)
    (h : prepare force run t p d = .ok d') {k : Nat} {s : Analog σ} (hs : (k, s) ∈ p.seqs)
    (hout : s.outs = Settings.outputIndices s.chan) {i : Nat} (hi : i < outputs t) :
    (∀ part, OnOutput t s.chan i part → d'.hw (.seq k (.out i)) = .str part) ∧
    ((∀ part, ¬OnOutput t s.chan i part) → d'.hw (.seq k (.out i)) = .str "off") := by
  rw [prepare_out hr ht hc hn h hs hi]
  have hbase : ∀ {t : ModType}, t = .qcm ∨ t = .qrm →
      (∀ part, OnOutput t s.chan i part → basebandOut s i = part) ∧
      ((∀ part, ¬OnOutput t s.chan i part) → basebandOut s i = "off") := by
    intro t ht
    have hO : ∀ part, OnOutput t s.chan i part ↔
        (s.chan.mode = .complex ∧ s.chan.dir = .output ∧ i = 2 * s.chan.idx ∧ part = "I") ∨
        (s.chan.mode = .complex ∧ s.chan.dir = .output ∧ i = 2 * s.chan.idx + 1 ∧ part = "Q") ∨
        (s.chan.mode = .real ∧ s.chan.dir = .output ∧ i = s.chan.idx ∧ part = "I") := by
      intro part; rcases ht with rfl | rfl <;> rfl
    unfold basebandOut
    simp only [hO, hout]
    generalize s.chan = c
    obtain ⟨md, dr, ix⟩ := c
    refine ⟨fun part hp => ?_, fun hp => ?_⟩
    · rcases hp with ⟨h1, h2, h3, rfl⟩ | ⟨h1, h2, h3, rfl⟩ | ⟨h1, h2, h3, rfl⟩ <;>
        simp only at h1 h2 h3 <;> subst h1 <;> subst h2 <;> subst h3 <;>
        simp [Settings.outputIndices]
    · cases md <;> cases dr <;> simp only [Settings.outputIndices, List.not_mem_nil, if_false,
        List.mem_cons, or_false, ite_self]
      · simp only [reduceCtorEq, false_and, true_and, or_false, false_or, not_or, not_and] at hp
        rw [if_neg]
        rintro (h | h)
        · exact (hp "I").1 h rfl
        · exact (hp "Q").2 h rfl
      · simp only [reduceCtorEq, false_and, true_and, or_false, false_or, not_or, not_and] at hp
        rw [if_neg]
        intro h; exact hp "I" h rfl
  have hrf : ∀ {t : ModType}, t = .qcmRf ∨ t = .qrmRf ∨ t = .qrc →
      (∀ part, OnOutput t s.chan i part → rfOut s i = part) ∧
      ((∀ part, ¬OnOutput t s.chan i part) → rfOut s i = "off") := by
    intro t ht
    have hO : ∀ part, OnOutput t s.chan i part ↔
        s.chan.mode = .complex ∧ s.chan.dir = .output ∧ i = s.chan.idx ∧ part = "IQ" := by
      intro part; rcases ht with rfl | rfl | rfl <;> rfl
    unfold rfOut
    simp only [hO, hout]
    generalize s.chan = c
    obtain ⟨md, dr, ix⟩ := c
    refine ⟨fun part hp => ?_, fun hp => ?_⟩
    · obtain ⟨h1, h2, h3, rfl⟩ := hp
      simp only at h1 h2 h3
      subst h1; subst h2; subst h3
      simp [Settings.outputIndices]
    · cases md <;> cases dr <;> simp [Settings.outputIndices]
      have := hp "IQ"
      simp at this
      omega
  cases t with
  | qtm => exact absurd rfl ht
  | qcm => simpa [isRf] using hbase (Or.inl rfl)
  | qrm => simpa [isRf] using hbase (Or.inr rfl)
  | qcmRf => simpa [isRf] using hrf (Or.inl rfl)
  | qrmRf => simpa [isRf] using hrf (Or.inr (Or.inl rfl))
  | qrc => simpa [isRf] using hrf (Or.inr (Or.inr rfl))

/-- An input parameter of a sequencer. -/
theorem prepare_in {run : Run σ} (hr : CalOk run) {force : Bool} {t : ModType} (ht : t ≠ .qtm)
    {p : Program σ} {d d' : Dev σ} (hc : Coherent d) (hn : (p.seqs.map Prod.fst).Nodup)
    (h : prepare force run t p d = .ok d') {k : Nat} {s : Analog σ} (hs : (k, s) ∈ p.seqs) {q : SeqParam}
    {v : Val σ} (hm : (.seq k q, v) ∈ inWrites t k s)
    (hu : ∀ w, (.seq k q, w) ∈ inWrites t k s → w = v) : d'.hw (.seq k q) = v := by
  obtain ⟨ws, cs, hres⟩ := prepare_result hr ht hc hn h
  have hq := mem_in hm
  refine seq_value hres hs (by rcases hq with rfl | rfl | rfl <;> simp) ?_ ?_
  · simp only [mem_seqWrites ht, mem_analog]
    exact Or.inr (Or.inr (Or.inl (Or.inr (Or.inr (Or.inr (Or.inr (Or.inr (Or.inr (Or.inl hm)))))))))
  · intro w hw
    rcases hq with rfl | rfl | rfl <;>
    · simp only [mem_seqWrites ht, mem_analog, mem_base, mem_readout, mem_out, reduceCtorEq, false_and,
        and_false, exists_false, false_or, or_false] at hw
      exact hu w hw

theorem inputIndices_cases {c : Chan} {measure : Option (List Chan)} (hp : ProperInputs c measure) :
    (inputsOf c measure = [] ∧ inputIndices c measure = []) ∨
    (∃ m, inputsOf c measure = [m] ∧ inputIndices c measure = ioIndices m) ∨
    ((∀ m ∈ inputsOf c measure, m = ⟨.real, .input, 0⟩ ∨ m = ⟨.real, .input, 1⟩) ∧
      ⟨.real, .input, 0⟩ ∈ inputsOf c measure ∧ ⟨.real, .input, 1⟩ ∈ inputsOf c measure ∧
      inputIndices c measure = [0, 1]) := by
  obtain ⟨md, dr, ix⟩ := c
  unfold inputIndices inputsOf
  cases dr with
  | input =>
    rw [hp.1 rfl]
    exact Or.inr (Or.inl ⟨_, rfl, rfl⟩)
  | output =>
    cases measure with
    | none => exact Or.inl ⟨rfl, rfl⟩
    | some ms =>
      rcases hp.2 ms rfl with ⟨m, rfl⟩ | ⟨hl, h1, h2, h3⟩
      · exact Or.inr (Or.inl ⟨m, rfl, rfl⟩)
      · refine Or.inr (Or.inr ⟨h1, h2, h3, ?_⟩)
        match ms, hl with
        | [], _ => rfl
        | [m], hl => exact absurd rfl hl
        | a :: b :: l, _ => rfl

theorem inputIndices_iff {c : Chan} {measure : Option (List Chan)} (hp : ProperInputs c measure) (i : Nat) :
    i ∈ inputIndices c measure ↔ InputOf (inputsOf c measure) i := by
  unfold InputOf
  rcases inputIndices_cases hp with ⟨h1, h2⟩ | ⟨m, h1, h2⟩ | ⟨h1, h2, h3, h4⟩
  · simp [h1, h2]
  · rw [h1, h2]
    unfold ioIndices
    cases hm : m.mode <;> simp [hm]
  · rw [h4]
    simp only [List.mem_cons, List.not_mem_nil, or_false]
    constructor
    · rintro (rfl | rfl)
      · exact ⟨_, h2, Or.inr ⟨by simp, rfl⟩⟩
      · exact ⟨_, h3, Or.inr ⟨by simp, rfl⟩⟩
    · rintro ⟨m, hm, h⟩
      rcases h1 m hm with rfl | rfl <;> simp at h <;> simp [h]

/-- **C58.** After `prepare`, a sequencer of a QRM reads exactly the inputs of its channels. -/
theorem prepare_inputs {run : Run σ} (hr : CalOk run) {force : Bool}
    {p : Program σ} {d d' : Dev σ} (hc : Coherent d) (hn : (p.seqs.map Prod.fst).Nodup)
    (h : prepare force run .qrm p d = .ok d') {k : Nat} {s : Analog σ} (hs : (k, s) ∈ p.seqs)
    {measure : Option (List Chan)} (hp : ProperInputs s.chan measure) (hin : s.ins = inputIndices s.chan measure)
    {i : Nat} (hi : i < 2) :
    (Reads d'.hw k i ↔ InputOf (inputsOf s.chan measure) i) ∧
    (¬InputOf (inputsOf s.chan measure) i →
      d'.hw (.seq k (if i = 0 then .acqI else .acqQ)) = .str "off") := by
  have e0 : d'.hw (.seq k .acqI) = .str (if 0 ∈ s.ins then "in0" else "off") :=
    prepare_in hr (by simp) hc hn h hs (by simp [inWrites]) (by intro w; simp [inWrites])
  have e1 : d'.hw (.seq k .acqQ) = .str (if 1 ∈ s.ins then "in1" else "off") :=
    prepare_in hr (by simp) hc hn h hs (by simp [inWrites]) (by intro w; simp [inWrites])
  rw [← inputIndices_iff hp, ← hin]
  unfold Reads
  rw [e0, e1]
  rcases (by omega : i = 0 ∨ i = 1) with rfl | rfl
  · by_cases hm : 0 ∈ s.ins <;> simp [hm, e0]
  · by_cases hm : 1 ∈ s.ins <;> simp [hm, e1]

/-- **C58.** After `prepare`, a sequencer of a QRM-RF or QRC reads the complex input of its channels, or
none. -/
theorem prepare_inputs_rf {run : Run σ} (hr : CalOk run) {force : Bool} {t : ModType}
    (ht : t = .qrmRf ∨ t = .qrc)
    {p : Program σ} {d d' : Dev σ} (hc : Coherent d) (hn : (p.seqs.map Prod.fst).Nodup)
    (h : prepare force run t p d = .ok d') {k : Nat} {s : Analog σ} (hs : (k, s) ∈ p.seqs)
    {measure : Option (List Chan)} (hp : ProperInputs s.chan measure) (hin : s.ins = inputIndices s.chan measure)
    (hmode : ∀ c ∈ inputsOf s.chan measure, c.mode = .complex) :
    (∀ i, i < (if t = .qrc then 2 else 1) → (∃ c ∈ inputsOf s.chan measure, c.idx = i) →
      d'.hw (.seq k .acq) = .str s!"in{i}") ∧
    (inputsOf s.chan measure = [] → d'.hw (.seq k .acq) = .str "off") := by
  have hins : (inputsOf s.chan measure = [] → s.ins = []) ∧
      ∀ c ∈ inputsOf s.chan measure, s.ins = [2 * c.idx, 2 * c.idx + 1] := by
    rw [hin]
    rcases inputIndices_cases hp with ⟨h1, h2⟩ | ⟨m, h1, h2⟩ | ⟨h1, h2, h3, h4⟩
    · simp [h1, h2]
    · rw [h1, h2]
      have := hmode m (by rw [h1]; simp)
      simp [ioIndices, this]
    · exact absurd (hmode _ h2) (by simp)
  have key : ∀ {v : Val σ}, (.seq k .acq, v) ∈ inWrites t k s → d'.hw (.seq k .acq) = v := by
    intro v hm
    refine prepare_in hr (by rcases ht with rfl | rfl <;> simp) hc hn h hs hm ?_
    intro w hw
    rcases ht with rfl | rfl <;>
    · simp only [inWrites, List.mem_cons, List.not_mem_nil, or_false, Prod.mk.injEq, true_and] at hm hw
      rw [hm, hw]
  refine ⟨?_, fun he => key ?_⟩
  · rintro i hi ⟨c, hcm, rfl⟩
    refine key ?_
    have he := hins.2 c hcm
    rcases ht with rfl | rfl
    · simp only [reduceCtorEq, if_false] at hi
      have : c.idx = 0 := by omega
      simp [inWrites, he, this]; rfl
    · simp only [if_true] at hi
      rcases (by omega : c.idx = 0 ∨ c.idx = 1) with h0 | h0 <;> simp [inWrites, he, h0] <;> rfl
  · have := hins.1 he
    rcases ht with rfl | rfl <;> simp [inWrites, this]

/-! ### Mixers -/

/-- **C58.** The mixer corrections of the settings are set, unless the sideband was calibrated. -/
theorem prepare_mixer {run : Run σ} (hr : CalOk run) {force : Bool} {t : ModType} (ht : t ≠ .qtm) (hq : t ≠ .qrc)
    {p : Program σ} {d d' : Dev σ} (hc : Coherent d) (hn : (p.seqs.map Prod.fst).Nodup)
    (h : prepare force run t p d = .ok d') {k : Nat} {s : Analog σ} (hs : (k, s) ∈ p.seqs)
    (hcal : ¬SidebandCal t p d k) :
    (IfSome s.phase fun x => d'.hw (.seq k .phase) = .num x) ∧
    (IfSome s.ratio fun x => d'.hw (.seq k .ratio) = .num x) := by
  obtain ⟨ws, cs, hres⟩ := prepare_result hr ht hc hn h
  have hch : ∀ q c, c ∈ cs → ¬Changes c (.seq k q) := by
    intro q c hcm
    cases c with
    | lo o => simp [Changes, LeakageOf]
    | sideband j =>
      intro hch
      have hj : j = k := by
        simp only [Changes, Param.seq.injEq] at hch
        rcases hch with h | h <;> exact h.1.symm
      subst hj
      rw [hres.cals] at hcm
      rcases List.mem_append.mp hcm with hcm | hcm
      · obtain ⟨k', he, hk'⟩ := sideband_mem.mp hcm
        cases he; exact hcal hk'
      · unfold loCals at hcm
        split at hcm
        · simp at hcm
        · split at hcm <;> simp at hcm
  have hneed : calNeeded d.cache (k, s) = false := by
    cases hb : calNeeded d.cache (k, s) with
    | false => rfl
    | true =>
      rw [calNeeded, Bool.and_eq_true, ncoChanged_iff] at hb
      exact absurd ⟨hq, s, hs, hb.1, hb.2⟩ hcal
  have hw : mixW t d.cache (k, s) = mixerWrites k s := by
    rw [mixW, if_neg hq, mixWrites, hneed]; simp
  constructor
  · intro x hx
    rw [hres.step.hw _ (hch _), hres.inSeq (k, s) hs, hw, last_eq (v := .num x)]
    · rfl
    · simp [mixerWrites, mem_opt, hx]
    · intro w; simp [mixerWrites, mem_opt, hx]
  · intro x hx
    rw [hres.step.hw _ (hch _), hres.inSeq (k, s) hs, hw, last_eq (v := .num x)]
    · rfl
    · simp [mixerWrites, mem_opt, hx]
    · intro w; simp [mixerWrites, mem_opt, hx]

/-! ### Sequencers that are not in the program -/

/-- **C58.** A sequencer that is not in the program does not take part: it does not synchronise, and
otherwise it is left alone. -/
theorem prepare_unused {run : Run σ} (hr : CalOk run) {force : Bool} {t : ModType} (ht : t ≠ .qtm)
    {p : Program σ} {d d' : Dev σ} (hc : Coherent d) (hn : (p.seqs.map Prod.fst).Nodup)
    (h : prepare force run t p d = .ok d') {k : Nat} (hk : ∀ s, (k, s) ∉ p.seqs) :
    (k < sequencers t → d'.hw (.seq k .sync) = .bool false) ∧
    ∀ q, q ≠ .sync → d'.hw (.seq k q) = d.hw (.seq k q) := by
  obtain ⟨ws, cs, hres⟩ := prepare_result hr ht hc hn h
  have hk' : k ∉ p.seqs.map Prod.fst := by
    intro hm
    obtain ⟨e, he, rfl⟩ := List.mem_map.mp hm
    exact hk e.2 he
  have hch : ∀ q c, c ∈ cs → ¬Changes c (.seq k q) := by
    intro q c hcm
    cases c with
    | lo o => simp [Changes, LeakageOf]
    | sideband j =>
      intro hch
      have hj : j = k := by
        simp only [Changes, Param.seq.injEq] at hch
        rcases hch with h | h <;> exact h.1.symm
      subst hj
      rw [hres.cals] at hcm
      rcases List.mem_append.mp hcm with hcm | hcm
      · obtain ⟨k', he, -, s, hs, -⟩ := sideband_mem.mp hcm
        cases he; exact hk s hs
      · unfold loCals at hcm
        split at hcm
        · simp at hcm
        · split at hcm <;> simp at hcm
  constructor
  · intro hlt
    rw [hres.step.hw _ (hch _), hres.otherSeq k hk', if_pos ⟨rfl, by rw [numSeqs_eq]; exact hlt⟩]
    rfl
  · intro q hq
    rw [hres.step.hw _ (hch _), hres.otherSeq k hk', if_neg (fun h => hq h.1)]
    rfl

/-! ### Settings of the module -/

omit [DecidableEq σ] in
theorem last_lo_global {t : ModType} {p : Program σ} {m : Settings.ModSettings} {f : Settings.Filters}
    (hs : p.settings = some (m, f)) (n : String) (v : Val σ) :
    (.glob n, v) ∈ globalWrites t p ++ loW t p ↔ ∃ w, v = .lit w ∧ (n, w) ∈ Settings.writes t m := by
  simp only [globalWrites, loW, hs, List.mem_append, List.mem_map, Prod.mk.injEq, Param.glob.injEq, reduceCtorEq,
    false_and, and_false, exists_false, or_false, loWrites, List.mem_flatMap, mem_opt]
  have key : ∀ w, (n, w) ∈ Settings.writes t m ↔ (n, w) ∈ Settings.writes t { m with los := [] } ∨
      ∃ e ∈ loParams t, n = e.2 ∧ ∃ x, Settings.getOpt m.los e.1 = some x ∧ w = .num x := by
    intro w
    cases t <;> simp only [Settings.writes, loParams, List.mem_append, Settings.mem_wr, List.mem_cons,
      List.not_mem_nil, or_false, Settings.getOpt, Dict.get?_nil, Option.getD_none, Option.map_none, reduceCtorEq,
      and_false, false_and, exists_false, exists_eq_or_imp, exists_eq_left, Option.map_eq_some_iff, or_assoc,
      List.not_mem_nil, false_or]
    all_goals simp only [eq_comm (a := w)]
  constructor
  · rintro (⟨⟨n', w⟩, hw, rfl, rfl⟩ | ⟨e, he, hn, x, hx, rfl⟩)
    · exact ⟨w, rfl, (key w).mpr (Or.inl hw)⟩
    · exact ⟨_, rfl, (key _).mpr (Or.inr ⟨e, he, hn, x, hx, rfl⟩)⟩
  · rintro ⟨w, rfl, hw⟩
    rcases (key w).mp hw with hw | ⟨e, he, hn, x, hx, rfl⟩
    · exact Or.inl ⟨(n, w), hw, rfl, rfl⟩
    · exact Or.inr ⟨e, he, hn, x, hx, rfl⟩

theorem glob_not_changed {t : ModType} {p : Program σ} {d d' : Dev σ} {ws : List (Param × Val σ)} {cs : List Cal}
    (hres : Result t p d d' ws cs) (hout : ∀ e ∈ p.seqs, e.2.outs = Settings.outputIndices e.2.chan) {n : String}
    (hcal : ∀ o, LeakageCal t p d o → ¬LeakageOf o (.glob n)) : ∀ c ∈ cs, ¬Changes c (.glob n) := by
  intro c hcm
  cases c with
  | sideband j => simp [Changes]
  | lo o =>
    refine hcal o ?_
    rw [hres.cals] at hcm
    rcases List.mem_append.mp hcm with hcm | hcm
    · obtain ⟨k', he, -⟩ := sideband_mem.mp hcm; cases he
    · obtain ⟨o', he, ho⟩ := (lo_mem hout).mp hcm
      cases he; exact ho

/-- **C58.** Offsets, gains, attenuations and local oscillators have the values of the settings of the
module (C55, C56), unless a calibration changes them; what has no setting is left alone. -/
theorem prepare_globals {run : Run σ} (hr : CalOk run) {force : Bool} {t : ModType} (ht : t ≠ .qtm)
    {p : Program σ} {d d' : Dev σ} (hc : Coherent d) (hn : (p.seqs.map Prod.fst).Nodup)
    (hout : ∀ e ∈ p.seqs, e.2.outs = Settings.outputIndices e.2.chan)
    (h : prepare force run t p d = .ok d') {m : Settings.ModSettings} {f : Settings.Filters}
    (hs : p.settings = some (m, f)) {n : String}
    (hcal : ∀ o, LeakageCal t p d o → ¬LeakageOf o (.glob n)) :
    (∀ v, Sets (Settings.writes t m) n v → d'.hw (.glob n) = .lit v) ∧
    (Leaves (Settings.writes t m) n → d'.hw (.glob n) = d.hw (.glob n)) := by
  obtain ⟨ws, cs, hres⟩ := prepare_result hr ht hc hn h
  rw [hres.step.hw _ (glob_not_changed hres hout hcal), hres.glob, ← last_append]
  constructor
  · intro v hv
    rw [last_eq (v := .lit v)]
    · rfl
    · exact (last_lo_global hs n _).mpr ⟨v, rfl, (hv v).mpr rfl⟩
    · intro w hw
      obtain ⟨w', rfl, hw'⟩ := (last_lo_global hs n w).mp hw
      rw [(hv w').mp hw']
  · intro hl
    rw [last_none.mpr]
    · rfl
    · intro v hv
      obtain ⟨w', -, hw'⟩ := (last_lo_global hs n v).mp hv
      exact hl w' hw'

/-- **C58.** The filters have the values of the settings of the module. -/
theorem prepare_filters {run : Run σ} (hr : CalOk run) {force : Bool} {t : ModType} (ht : t ≠ .qtm)
    {p : Program σ} {d d' : Dev σ} (hc : Coherent d) (hn : (p.seqs.map Prod.fst).Nodup)
    (h : prepare force run t p d = .ok d') {m : Settings.ModSettings} {f : Settings.Filters}
    (hs : p.settings = some (m, f)) (x : Settings.FParam) :
    (∀ v, Sets (Settings.filterWrites t f) x v → d'.hw (.filt x) = .lit v) ∧
    (Leaves (Settings.filterWrites t f) x → d'.hw (.filt x) = d.hw (.filt x)) := by
  obtain ⟨ws, cs, hres⟩ := prepare_result hr ht hc hn h
  have hch : ∀ c ∈ cs, ¬Changes c (.filt x) := by
    intro c _; cases c <;> simp [Changes, LeakageOf]
  have hmem : ∀ v, (.filt x, v) ∈ globalWrites t p ↔ ∃ w, v = .lit w ∧ (x, w) ∈ Settings.filterWrites t f := by
    intro v
    simp only [globalWrites, hs, List.mem_append, List.mem_map, Prod.mk.injEq, Param.filt.injEq, reduceCtorEq,
      false_and, and_false, exists_false, false_or]
    constructor
    · rintro ⟨⟨x', w⟩, hw, rfl, rfl⟩; exact ⟨w, rfl, hw⟩
    · rintro ⟨w, rfl, hw⟩; exact ⟨(x, w), hw, rfl, rfl⟩
  rw [hres.step.hw _ hch, hres.filt]
  constructor
  · intro v hv
    rw [last_eq (v := .lit v)]
    · rfl
    · exact (hmem _).mpr ⟨v, rfl, (hv v).mpr rfl⟩
    · intro w hw
      obtain ⟨w', rfl, hw'⟩ := (hmem w).mp hw
      rw [(hv w').mp hw']
  · intro hl
    rw [last_none.mpr]
    · rfl
    · intro v hv
      obtain ⟨w', -, hw'⟩ := (hmem v).mp hv
      exact hl w' hw'

/-- **C58.** The scope of a readout module records the sequencer with traces, triggered by it and averaged;
with no traces the selection is left alone. -/
theorem prepare_scope {run : Run σ} (hr : CalOk run) {force : Bool} {t : ModType}
    (ht : t = .qrm ∨ t = .qrmRf ∨ t = .qrc)
    {p : Program σ} {d d' : Dev σ} (hc : Coherent d) (hn : (p.seqs.map Prod.fst).Nodup)
    (h : prepare force run t p d = .ok d') :
    (∀ k, TraceOn p k → d'.hw .scopeSelect = .nat k) ∧
    ((∀ k, ¬TraceOn p k) → d'.hw .scopeSelect = d.hw .scopeSelect) ∧
    (∀ path < if t = .qrc then 4 else 2,
      d'.hw (.scopeMode path) = .str "sequencer" ∧ d'.hw (.scopeAvg path) = .bool true) := by
  obtain ⟨ws, cs, hres⟩ := prepare_result hr (by rcases ht with rfl | rfl | rfl <;> simp) hc hn h
  have hch : ∀ x : Param, kind x = 4 ∨ kind x = 5 → ∀ c ∈ cs, ¬Changes c x := by
    intro x hx c _ hch
    cases c <;> simp only [Changes, LeakageOf] at hch <;> rcases hch with rfl | rfl <;> simp [kind] at hx
  obtain ⟨o, ho, h1, h2⟩ := hres.scope ht
  obtain ⟨g1, g2⟩ := (scopeOf_ok p o).mp ho
  refine ⟨fun k hk => ?_, fun hk => ?_, fun path hp => ?_⟩
  · rw [hres.step.hw _ (hch _ (by simp [kind])), h1, g1 k hk]; rfl
  · rw [hres.step.hw _ (hch _ (by simp [kind])), h1]
    cases o with
    | none => rfl
    | some k => exact absurd (g2 k rfl) (hk k)
  · constructor
    · rw [hres.step.hw _ (hch _ (by simp [kind])), h2 _ rfl, last_eq (v := .str "sequencer")]
      · rfl
      · rcases ht with rfl | rfl | rfl <;> simpa [scopeWrites] using hp
      · intro w hw
        simp only [scopeWrites, List.mem_flatMap, List.mem_cons, List.not_mem_nil, or_false, Prod.mk.injEq,
          reduceCtorEq, false_and, or_false] at hw
        obtain ⟨_, -, -, rfl⟩ := hw; rfl
    · rw [hres.step.hw _ (hch _ (by simp [kind])), h2 _ rfl, last_eq (v := .bool true)]
      · rfl
      · rcases ht with rfl | rfl | rfl <;> simpa [scopeWrites] using hp
      · intro w hw
        simp only [scopeWrites, List.mem_flatMap, List.mem_cons, List.not_mem_nil, or_false, Prod.mk.injEq,
          reduceCtorEq, false_and, false_or] at hw
        obtain ⟨_, -, -, rfl⟩ := hw; rfl

end Verif.Prepare
