/-
C71: every operation of the library becomes the instructions that do what it asks for, or is refused.
-/
import Verif.Strategies.Lemmas
import Verif.EndToEnd.Props

set_option linter.unusedSimpArgs false
set_option linter.unusedVariables false

namespace Verif.Strategies

open Verif.Flatten (Info)
open Verif.Waves (Entry WfDict SelfHashed addIfUnique addPath generateData round12)
open Spec

variable {K : Type} [DecidableEq K]

/-- The kind of each operation. -/
theorem factory_wave (re im : List Rat) (port : String) :
    factory .analog (Lib.wave re im port).data = .ok .pulse ∧
    factory .timetag (Lib.wave re im port).data = .error .valueError := by
  constructor <;> rfl

theorem factory_offset (x y : Rat) (port : String) :
    factory .analog (Lib.offset x y port).data = .ok .offset ∧
    factory .timetag (Lib.offset x y port).data = .error .valueError := by
  constructor <;> rfl

theorem factory_idle (d : Rat) (m : Mod) : factory m (Lib.idle d).data = .ok .idle := by
  cases m <;> rfl

theorem factory_shiftPhase (d : Rat) :
    factory .analog (Lib.shiftPhase d).data = .ok .phaseShift ∧
    factory .timetag (Lib.shiftPhase d).data = .ok .idle := by
  constructor <;> rfl

theorem factory_resetPhase :
    factory .analog Lib.resetPhase.data = .ok .resetPhase ∧ factory .timetag Lib.resetPhase.data = .ok .idle := by
  constructor <;> rfl

theorem factory_setFrequency (new old : Option Rat) :
    factory .analog (Lib.setFrequency new old).data = .ok .setFreq ∧
    factory .timetag (Lib.setFrequency new old).data = .ok .idle := by
  constructor <;> rfl

theorem factory_latchReset (port : String) (d : Rat) (m : Mod) :
    factory m (Lib.latchReset port d).data = .ok .latchReset := by
  cases m <;> rfl

theorem factory_timestamp (port : String) :
    factory .analog (Lib.timestamp port).data = .ok .pulse ∧
    factory .timetag (Lib.timestamp port).data = .ok .timestamp := by
  constructor <;> rfl

/-- An operation that is a pulse or an acquisition. -/
theorem genOne_plain {c : Config K} {mem mem' : Mem K} {i : Info Data} {d : Data} {op : Q1.Op}
    (hd : dataOf i = .ok d) (h : genOne c mem i = .ok (mem', op)) {k : Kind} (hk : factory c.mod d = .ok k)
    (h1 : ∀ n, k ≠ .loop n) (h2 : ∀ a, k ≠ .conditional a) (h3 : k ≠ .ret) :
    ∃ s, op = .leaf ⟨Flatten.ns i.timing, decide (i.name = "IdlePulse"), d.isParam, d.isRT, s, none⟩ ∧
      (match d.acq with
        | some a => genAcq c mem i d a k
        | none => genOther c mem i.name d k) = .ok (mem', s) := by
  unfold genOne at h
  rw [hd] at h
  simp only [Except.bind, hk] at h
  cases k
  case loop n => exact absurd rfl (h1 n)
  case conditional a => exact absurd rfl (h2 a)
  case ret => exact absurd rfl h3
  all_goals
    cases hg : d.acq with
    | none =>
      rw [hg] at h
      simp only at h ⊢
      split at h
      · simp at h
      · rename_i r hr
        simp only [Except.ok.injEq, Prod.mk.injEq] at h
        obtain ⟨rfl, rfl⟩ := h
        exact ⟨r.2, rfl, hr⟩
    | some a =>
      rw [hg] at h
      simp only at h ⊢
      split at h
      · simp at h
      · rename_i r hr
        simp only [Except.ok.injEq, Prod.mk.injEq] at h
        obtain ⟨rfl, rfl⟩ := h
        exact ⟨r.2, rfl, hr⟩

theorem genOne_error {c : Config K} {mem : Mem K} {i : Info Data} {d : Data} {x : Mem K × Q1.Op}
    (hd : dataOf i = .ok d) (h : genOne c mem i = .ok x) : ∃ k, factory c.mod d = .ok k := by
  unfold genOne at h
  rw [hd] at h
  obtain ⟨d', hd', h⟩ := bind_ok h
  obtain ⟨k, hk, _⟩ := bind_ok h
  simp only [Except.ok.injEq] at hd'
  subst hd'
  exact ⟨k, hk⟩

theorem near {x : Rat} {n : Int} (h : Numeric.expandAwg x 65536 = .ok n) : Near n x := by
  obtain ⟨h1, h2, h3, h4⟩ := (Numeric.amplitude_range x).2 n h
  have e : (n : Rat) / 32768 - x = -(x * 32768 - n) / 32768 := by ring
  refine ⟨h1, h2, ?_, fun hx => ?_⟩
  · rw [e, abs_div, abs_neg, div_le_div_iff₀ (by norm_num) (by norm_num)]
    norm_num
    exact h3
  · have h4 := h4 hx
    rw [e, abs_div, abs_neg, div_le_div_iff₀ (by norm_num) (by norm_num)]
    norm_num at h4 ⊢
    linarith

/-- The index of a weight. -/
theorem holds_of_add {hash : List Int → K} (hinj : Function.Injective hash) {d : List (Entry K)}
    (h : WfDict d ∧ SelfHashed hash d) {w : List Rat} (ha : (addIfUnique hash d w).1 = d) :
    Holds d (addIfUnique hash d w).2 w := by
  obtain ⟨e, he, hi, hk⟩ := Waves.add_entry hash d w
  rw [ha] at he
  refine ⟨e, he, hi, fun f hf hfi => List.inj_on_of_nodup_map h.1.2 hf he (by rw [hfi, hi]), ?_, ?_⟩
  all_goals
    have hr : round12 e.data = round12 w := hinj (by rw [← h.2 e he, hk])
  · have := congrArg List.length hr
    simpa [round12] using this
  · intro k x hx
    obtain ⟨y, hy, hb⟩ := Waves.round12_at hr hx
    exact ⟨y, hy, hb⟩

/-- What a pulse asks for. -/
theorem asks_wave {c : Config K} {mem : Mem K} (hinj : Function.Injective c.hash) (hok : MemOk c.hash mem)
    {d : Data} {re im : List Rat} (hd : d.wave = some (re, im)) (hre : re ≠ []) (hl : im.length = re.length)
    {s : Q1.Strategy} (h : genPulse c mem d = .ok (mem, s)) (b : Q1.RegFile) :
    (s.events b = [⟨0, .updParam, []⟩] ∧ (∀ x ∈ re, |x| < 1 / 32768) ∧ ∀ y ∈ im, |y| < 1 / 32768) ∨
    ∃ (gI gQ : Int) (a b' : Nat), s.events b = [⟨0, .setAwgGain, [gI, gQ]⟩, ⟨0, .play, [a, b']⟩] ∧
      Waves.Plays mem.awg gI a re ∧ Waves.Plays mem.awg gQ b' im := by
  obtain ⟨re', im', hw, hm, hc, hs⟩ := genPulse_ok h
  rw [hd] at hw
  simp only [Option.some.injEq, Prod.mk.injEq] at hw
  obtain ⟨rfl, rfl⟩ := hw
  have hm : mem.awg = (generateData c.hash mem.awg re im).1 := congrArg Mem.awg hm
  obtain ⟨_, _, _, h4, h5⟩ := Waves.pulse_played c.hash hinj mem.awg hok.1.1 hok.1.2 hre hl
  rw [← hm] at h4
  rcases hs with ⟨h1, rfl⟩ | ⟨h1, gI, gQ, h2, h3, rfl⟩
  · left
    exact ⟨rfl, h5 (by rw [h1]; rfl)⟩
  · right
    generalize (generateData c.hash mem.awg re im).2 = r at *
    obtain ⟨i0, i1⟩ := r
    cases i0 with
    | none =>
      cases i1 with
      | none => exact absurd rfl h1
      | some y =>
        have := h4 gI gQ y y (by unfold Waves.emitPulse; simp [h2, h3, Except.bind])
        exact ⟨gI, gQ, y, y, rfl, this⟩
    | some x =>
      cases i1 with
      | none =>
        have := h4 gI gQ x x (by unfold Waves.emitPulse; simp [h2, h3, Except.bind])
        exact ⟨gI, gQ, x, x, rfl, this⟩
      | some y =>
        have := h4 gI gQ x y (by unfold Waves.emitPulse; simp [h2, h3, Except.bind])
        exact ⟨gI, gQ, x, y, rfl, this⟩

theorem toGrid_close {t : Rat} {n : Int} (h : Numeric.toGridTime t 1 = .ok n) :
    |(n : Rat) - t * 1000000000| ≤ 11 / 10000 := by
  unfold Numeric.toGridTime Numeric.gridTolerance at h
  simp only at h
  split at h
  · simp at h
  · rename_i hn
    simp only [Except.ok.injEq] at h
    push Not at hn
    rw [← h, abs_sub_comm]
    exact hn.1

/-! ### Which acquisitions are accepted -/

/-- **C71, acquisitions.** Accepted are exactly the supported combinations of protocol and bin mode. -/
theorem acquisition_accepted (m : Mod) (a : Acq) (port : String) (dur : Rat) :
    (∃ k, factory m (Lib.acquire a port dur).data = .ok k) ↔ Compatible m a.protocol a.binMode := by
  obtain ⟨p, b, ch, ws, f0, f1⟩ := a
  cases m
  · simp only [factory, Lib.data, acqAnalog, checkMode, qrmModes, Compatible, weightedProtocols, List.lookup]
    by_cases h1 : p = "SSBIntegrationComplex"
    · subst h1; cases b <;> simp
    by_cases h2 : p = "Trace"
    · subst h2; cases b <;> simp
    by_cases h3 : p = "ThresholdedAcquisition"
    · subst h3; cases b <;> simp
    by_cases h4 : p = "WeightedThresholdedAcquisition"
    · subst h4; cases b <;> simp
    by_cases h5 : p = "TriggerCount"
    · subst h5; cases b <;> simp
    by_cases h6 : p = "ThresholdedTriggerCount"
    · subst h6; cases b <;> simp
    by_cases h7 : p = "WeightedIntegratedSeparated"
    · subst h7; cases b <;> simp
    by_cases h8 : p = "NumericalSeparatedWeightedIntegration"
    · subst h8; cases b <;> simp
    by_cases h9 : p = "NumericalWeightedIntegration"
    · subst h9; cases b <;> simp
    simp [h1, h2, h3, h4, h5, h6, h7, h8, h9, beq_iff_eq, beq_eq_false_iff_ne.mpr h1, beq_eq_false_iff_ne.mpr h2,
      beq_eq_false_iff_ne.mpr h3, beq_eq_false_iff_ne.mpr h4, beq_eq_false_iff_ne.mpr h5, beq_eq_false_iff_ne.mpr h6,
      beq_eq_false_iff_ne.mpr h7, beq_eq_false_iff_ne.mpr h8, beq_eq_false_iff_ne.mpr h9]
  · simp only [factory, Lib.data, acqTimetag, checkMode, qtmModes, Compatible, List.lookup]
    by_cases h1 : p = "TriggerCount"
    · subst h1; cases b <;> simp
    by_cases h2 : p = "ThresholdedTriggerCount"
    · subst h2; cases b <;> simp
    by_cases h3 : p = "DualThresholdedTriggerCount"
    · subst h3; cases b <;> simp
    by_cases h4 : p = "Timetag"
    · subst h4; cases b <;> simp
    by_cases h5 : p = "Trace"
    · subst h5; cases b <;> simp
    by_cases h6 : p = "TimetagTrace"
    · subst h6; cases b <;> simp
    simp [h1, h2, h3, h4, h5, h6, beq_eq_false_iff_ne.mpr h1, beq_eq_false_iff_ne.mpr h2,
      beq_eq_false_iff_ne.mpr h3, beq_eq_false_iff_ne.mpr h4, beq_eq_false_iff_ne.mpr h5, beq_eq_false_iff_ne.mpr h6]

theorem acqAnalog_kind {a : Acq} {k : Kind} (h : acqAnalog a = .ok k) :
    (a.protocol ∈ squareProtocols ∧ k = .square) ∨ (a.protocol ∈ weightedProtocols ∧ k = .weighed) ∨
    (a.protocol ∈ countProtocols ∧ k = .ttl) := by
  have hc := (acquisition_accepted .analog a "" 0).mp ⟨k, h⟩
  unfold acqAnalog at h
  split at h
  · simp at h
  · split at h
    · rename_i h1
      simp only [Except.ok.injEq] at h
      exact .inl ⟨h1, h.symm⟩
    · rename_i h1
      split at h
      · rename_i h2
        simp only [Except.ok.injEq] at h
        exact .inr (.inl ⟨h2, h.symm⟩)
      · rename_i h2
        simp only [Except.ok.injEq] at h
        refine .inr (.inr ⟨?_, h.symm⟩)
        unfold Compatible at hc
        simp only at hc
        rcases hc with ⟨hc | hc, _⟩ | ⟨hc, _⟩ | ⟨hc, _⟩ | ⟨hc, _⟩
        · exact absurd (by simp at hc ⊢; tauto) h1
        · exact absurd hc h2
        · exact absurd (by simp [hc]) h1
        · simp [countProtocols, hc]
        · simp [countProtocols, hc]

theorem acqTimetag_kind {a : Acq} {k : Kind} (h : acqTimetag a = .ok k) :
    (a.protocol ∈ tagProtocols ∧ k = .timetag false) ∨ (a.protocol ∈ scopeProtocols ∧ k = .timetag true) := by
  have hc := (acquisition_accepted .timetag a "" 0).mp ⟨k, h⟩
  unfold acqTimetag at h
  split at h
  · simp at h
  · split at h
    · rename_i h1
      simp only [Except.ok.injEq] at h
      exact .inl ⟨h1, h.symm⟩
    · rename_i h1
      simp only [Except.ok.injEq] at h
      refine .inr ⟨?_, h.symm⟩
      unfold Compatible at hc
      simp only at hc
      rcases hc with ⟨hc, _⟩ | ⟨hc, _⟩ | ⟨hc, _⟩ | ⟨hc, _⟩
      · exact absurd (by simp [hc]) h1
      · simp only [List.mem_cons, List.not_mem_nil, or_false] at hc h1
        simp only [scopeProtocols, List.mem_cons, List.not_mem_nil, or_false]
        tauto
      · exact absurd (by simp [hc]) h1
      · simp [scopeProtocols, hc]

/-! ### What the instructions do -/

/-- **C71, one operation.** -/
theorem gen_asks {c : Config K} {mem : Mem K} (hinj : Function.Injective c.hash) (hok : MemOk c.hash mem)
    {i : Info Data} {lib : Lib} (hd : dataOf i = .ok lib.data) (hs : Sampled lib) {op : Q1.Op}
    (h : genOne c mem i = .ok (mem, op)) :
    ∃ l : Q1.Leaf, op = .leaf l ∧ l.debug = none ∧
      ∀ b : Q1.RegFile, Asks c.mod mem c.freq c.acqIndex lib (l.events b) := by
  cases hm : c.mod with
  | analog =>
    cases lib with
    | wave re im port =>
      obtain ⟨s, rfl, hg⟩ := genOne_plain hd h (by rw [hm]; exact (factory_wave re im port).1) (by simp) (by simp)
        (by simp)
      exact ⟨_, rfl, rfl, fun b => ⟨rfl, asks_wave hinj hok (d := (Lib.wave re im port).data) rfl hs.1 hs.2
        (show genPulse c mem _ = _ from hg) b⟩⟩
    | offset x y port =>
      obtain ⟨s, rfl, hg⟩ := genOne_plain hd h (by rw [hm]; exact (factory_offset x y port).1) (by simp) (by simp)
        (by simp)
      refine ⟨_, rfl, rfl, fun b => ⟨rfl, ?_⟩⟩
      obtain ⟨a, ha, hg⟩ := bind_ok (show (lift (Numeric.expandAwg x 65536)).bind _ = _ from hg)
      obtain ⟨b', hb, hg⟩ := bind_ok hg
      simp only [Except.ok.injEq, Prod.mk.injEq] at hg
      obtain ⟨_, rfl⟩ := hg
      exact ⟨a, b', rfl, near (lift_ok ha), near (lift_ok hb)⟩
    | idle dur =>
      obtain ⟨s, rfl, hg⟩ := genOne_plain hd h (factory_idle dur _) (by simp) (by simp) (by simp)
      refine ⟨_, rfl, rfl, fun b => ?_⟩
      simp only [Lib.data, genOther, Except.ok.injEq, Prod.mk.injEq] at hg
      obtain ⟨_, rfl⟩ := hg
      rfl
    | shiftPhase deg =>
      obtain ⟨s, rfl, hg⟩ := genOne_plain hd h (by rw [hm]; exact (factory_shiftPhase deg).1) (by simp) (by simp)
        (by simp)
      refine ⟨_, rfl, rfl, fun b => ?_⟩
      simp only [Lib.data, genOther, Except.ok.injEq, Prod.mk.injEq, Option.getD_some] at hg
      obtain ⟨_, rfl⟩ := hg
      by_cases h0 : deg = 0
      · exact .inl ⟨h0, by simp [Q1.Leaf.events, h0, Q1.Strategy.events]⟩
      · obtain ⟨h1, h2, k, h3⟩ := Numeric.nco_phase deg
        exact .inr ⟨Numeric.ncoPhase deg, by simp [Q1.Leaf.events, h0, Q1.Strategy.events], h1, h2, k, h3⟩
    | resetPhase =>
      obtain ⟨s, rfl, hg⟩ := genOne_plain hd h (by rw [hm]; exact factory_resetPhase.1) (by simp) (by simp)
        (by simp)
      refine ⟨_, rfl, rfl, fun b => ?_⟩
      simp only [Lib.data, genOther, Except.ok.injEq, Prod.mk.injEq] at hg
      obtain ⟨_, rfl⟩ := hg
      rfl
    | setFrequency new old =>
      obtain ⟨s, rfl, hg⟩ := genOne_plain hd h (by rw [hm]; exact (factory_setFrequency new old).1) (by simp) (by simp)
        (by simp)
      refine ⟨_, rfl, rfl, fun b => ?_⟩
      obtain ⟨n, hn, hg⟩ := bind_ok (show (freqArg c i.name _).bind _ = _ from hg)
      simp only [Except.ok.injEq, Prod.mk.injEq] at hg
      obtain ⟨_, rfl⟩ := hg
      unfold freqArg at hn
      simp only [Lib.data] at hn
      split at hn
      · simp at hn
      · simp at hn
      · rename_i x1 o f0 hif
        have hf : c.freq = some f0 := by
          split at hif
          · exact hif
          · simp at hif
        cases new with
        | none =>
          have := (Numeric.nco_freq f0).1 n (lift_ok hn)
          exact ⟨n, f0, o, hf, rfl, rfl, by simpa using this.1⟩
        | some x =>
          have := (Numeric.nco_freq (f0 + x - o)).1 n (lift_ok hn)
          refine ⟨n, f0, o, hf, rfl, rfl, ?_⟩
          rw [show f0 + (match some x with | some x => x - o | none => 0) = f0 + x - o by simp; ring]
          exact this.1
    | latchReset port dur =>
      obtain ⟨s, rfl, hg⟩ := genOne_plain hd h (factory_latchReset port dur _) (by simp) (by simp) (by simp)
      refine ⟨_, rfl, rfl, fun b => ?_⟩
      simp only [Lib.data, genOther, Except.ok.injEq, Prod.mk.injEq] at hg
      obtain ⟨_, rfl⟩ := hg
      rfl
    | timestamp port =>
      obtain ⟨s, rfl, hg⟩ := genOne_plain hd h (by rw [hm]; exact (factory_timestamp port).1) (by simp) (by simp)
        (by simp)
      simp [Lib.data, genOther, genPulse] at hg
    | acquire a port dur =>
      obtain ⟨k, hk⟩ := genOne_error hd h
      rw [hm] at hk
      have hk' := hk
      rw [← hm] at hk'
      rcases acqAnalog_kind (show acqAnalog a = .ok k from hk) with ⟨hp, rfl⟩ | ⟨hp, rfl⟩ | ⟨hp, rfl⟩
      all_goals
        obtain ⟨s, rfl, hg⟩ := genOne_plain hd h hk' (by simp) (by simp) (by simp)
        refine ⟨_, rfl, rfl, fun b => ?_⟩
        obtain ⟨_, _, hg⟩ := bind_ok (show (checkBin (c.bin i) a.binMode).bind _ = _ from hg)
        simp only at hg
      · simp only [Except.ok.injEq, Prod.mk.injEq] at hg
        obtain ⟨_, rfl⟩ := hg
        exact .inl ⟨hp, _, rfl⟩
      · obtain ⟨⟨m', n0, n1⟩, hr, hg⟩ := bind_ok hg
        simp only [Except.ok.injEq, Prod.mk.injEq] at hg
        obtain ⟨rfl, rfl⟩ := hg
        obtain ⟨w0, w1, hw, _, hr'⟩ := genWeights_ok hr
        simp only [Prod.mk.injEq] at hr'
        obtain ⟨hm1, h0, h1⟩ := hr'
        have hm1 : m'.weights = _ := congrArg Mem.weights hm1
        simp only at hm1
        have hpre := Waves.add_prefix c.hash m'.weights w0
        have hpre' := Waves.add_prefix c.hash (addIfUnique c.hash m'.weights w0).1 w1
        rw [← hm1] at hpre'
        have e0 : (addIfUnique c.hash m'.weights w0).1 = m'.weights := hpre'.eq_of_length_le hpre.length_le
        rw [e0] at hm1 h1
        refine .inr (.inl ⟨hp, _, w0, w1, n0, n1, hw, rfl, ?_, ?_⟩)
        · rw [h0]; exact holds_of_add hinj hok.2 e0
        · rw [h1]; exact holds_of_add hinj hok.2 hm1.symm
      · obtain ⟨t, ht, hg⟩ := bind_ok hg
        simp only [Except.ok.injEq, Prod.mk.injEq] at hg
        obtain ⟨_, rfl⟩ := hg
        exact .inr (.inr ⟨hp, _, t, toGrid_close (lift_ok ht), rfl⟩)
  | timetag =>
    cases lib with
    | wave re im port =>
      obtain ⟨k, hk⟩ := genOne_error hd h
      rw [hm, (factory_wave re im port).2] at hk
      simp at hk
    | offset x y port =>
      obtain ⟨k, hk⟩ := genOne_error hd h
      rw [hm, (factory_offset x y port).2] at hk
      simp at hk
    | idle dur =>
      obtain ⟨s, rfl, hg⟩ := genOne_plain hd h (factory_idle dur _) (by simp) (by simp) (by simp)
      refine ⟨_, rfl, rfl, fun b => ?_⟩
      simp only [Lib.data, genOther, Except.ok.injEq, Prod.mk.injEq] at hg
      obtain ⟨_, rfl⟩ := hg
      rfl
    | shiftPhase deg =>
      obtain ⟨s, rfl, hg⟩ := genOne_plain hd h (by rw [hm]; exact (factory_shiftPhase deg).2) (by simp) (by simp)
        (by simp)
      refine ⟨_, rfl, rfl, fun b => ?_⟩
      simp only [Lib.data, genOther, Except.ok.injEq, Prod.mk.injEq] at hg
      obtain ⟨_, rfl⟩ := hg
      rfl
    | resetPhase =>
      obtain ⟨s, rfl, hg⟩ := genOne_plain hd h (by rw [hm]; exact factory_resetPhase.2) (by simp) (by simp)
        (by simp)
      refine ⟨_, rfl, rfl, fun b => ?_⟩
      simp only [Lib.data, genOther, Except.ok.injEq, Prod.mk.injEq] at hg
      obtain ⟨_, rfl⟩ := hg
      rfl
    | setFrequency new old =>
      obtain ⟨s, rfl, hg⟩ := genOne_plain hd h (by rw [hm]; exact (factory_setFrequency new old).2) (by simp) (by simp)
        (by simp)
      refine ⟨_, rfl, rfl, fun b => ?_⟩
      simp only [Lib.data, genOther, Except.ok.injEq, Prod.mk.injEq] at hg
      obtain ⟨_, rfl⟩ := hg
      rfl
    | latchReset port dur =>
      obtain ⟨s, rfl, hg⟩ := genOne_plain hd h (factory_latchReset port dur _) (by simp) (by simp) (by simp)
      refine ⟨_, rfl, rfl, fun b => ?_⟩
      simp only [Lib.data, genOther, Except.ok.injEq, Prod.mk.injEq] at hg
      obtain ⟨_, rfl⟩ := hg
      rfl
    | timestamp port =>
      obtain ⟨s, rfl, hg⟩ := genOne_plain hd h (by rw [hm]; exact (factory_timestamp port).2) (by simp) (by simp)
        (by simp)
      refine ⟨_, rfl, rfl, fun b => ?_⟩
      simp only [Lib.data, genOther, Except.ok.injEq, Prod.mk.injEq] at hg
      obtain ⟨_, rfl⟩ := hg
      exact ⟨rfl, rfl⟩
    | acquire a port dur =>
      obtain ⟨k, hk⟩ := genOne_error hd h
      rw [hm] at hk
      have hk' := hk
      rw [← hm] at hk'
      have hkk := acqTimetag_kind (show acqTimetag a = .ok k from hk)
      obtain ⟨scope, rfl⟩ : ∃ scope, k = .timetag scope := by
        rcases hkk with ⟨_, rfl⟩ | ⟨_, rfl⟩ <;> exact ⟨_, rfl⟩
      obtain ⟨s, rfl, hg⟩ := genOne_plain hd h hk' (by simp) (by simp) (by simp)
      refine ⟨_, rfl, rfl, fun b => ?_⟩
      obtain ⟨_, _, hg⟩ := bind_ok (show (checkBin (c.bin i) a.binMode).bind _ = _ from hg)
      simp only at hg
      obtain ⟨f0, h0, hg⟩ := bind_ok hg
      obtain ⟨f1, h1, hg⟩ := bind_ok hg
      obtain ⟨t, ht, hg⟩ := bind_ok hg
      simp only [Except.ok.injEq, Prod.mk.injEq] at hg
      obtain ⟨_, rfl⟩ := hg
      obtain ⟨a0, a1, a2⟩ := (Numeric.fine_delay a.fineStart).1 f0 (lift_ok h0)
      obtain ⟨b0, b1, b2⟩ := (Numeric.fine_delay a.fineEnd).1 f1 (lift_ok h1)
      refine ⟨(c.bin i).val b, t, f0, f1, toGrid_close (lift_ok ht), a2, b2, ?_⟩
      have e0 : (f0.toNat : Int) = f0 := Int.toNat_of_nonneg a0
      have e1 : (f1.toNat : Int) = f1 := Int.toNat_of_nonneg b0
      rcases hkk with ⟨hp, hs'⟩ | ⟨hp, hs'⟩
      · simp only [Kind.timetag.injEq] at hs'
        subst hs'
        exact .inl ⟨hp, by simp only [Q1.Leaf.events, Q1.Strategy.events, e0, e1]⟩
      · simp only [Kind.timetag.injEq] at hs'
        subst hs'
        exact .inr ⟨hp, by simp only [Q1.Leaf.events, Q1.Strategy.events, e0, e1]⟩

end Verif.Strategies
