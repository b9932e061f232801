/-
C47: what a measurement plays, and when.
-/
import Verif.Experiments.Measure
import Verif.Experiments.Cpmg

set_option linter.unusedSimpArgs false
set_option linter.unusedVariables false

namespace Verif.Experiments

open Verif.Timing (Err)
open Spec (ns4)

variable {L : Type}

/-- One more operation with entries after the one before. -/
macro "m_after" : tactic => `(tactic|
  (refine StartsAt.of_eq (startsAt_prev _ _ (by simp)) ?_
   simp [itemOf, Op.delay, infoOp, infosDuration, Timing.RefPt.frac]))

theorem RunD.of_eq {acc : List Placed} {n : Nat} {calls : Calls L} {ev : List (Rat × L)}
    {m e e' : Rat} (h : RunD acc n calls ev m e') (he : e = e') : RunD acc n calls ev m e := by
  rw [he]; exact h

/-- The first operation of a schedule, or one that refers to the start of one at 0. -/
theorem startsAt_zero {acc : List Placed} (h : acc = [] ∨ ∃ q tl, acc = q :: tl ∧ q.2 = 0 ∧
    q.1.delay = none) : StartsAt acc none (some .start) 0 0 := by
  refine ⟨by simp, ?_⟩
  rcases h with rfl | ⟨q, tl, rfl, h0, hd⟩
  · exact .inl ⟨rfl, rfl, rfl⟩
  · exact .inr ⟨q, by simp, by simp, by simp, by simp [h0, hd, Timing.RefPt.frac]⟩

theorem keys_append (a b : Calls L) : ∀ n, ∃ m, (a.append b).keys n = a.keys n ++ b.keys m := by
  induction h : sizeOf a using Nat.strong_induction_on generalizing a with
  | _ k ih =>
    intro n
    cases a with
    | nil => exact ⟨n, rfl⟩
    | cons op label rel ref pt rest =>
      obtain ⟨m, hm⟩ := ih _ (by rw [← h]; simp) rest rfl (n + 1)
      exact ⟨m, by simp [Calls.append, Calls.keys, hm]⟩

/-- No labels: the names are different. -/
def Calls.noLabels : Calls L → Bool
  | .nil => true
  | .cons _ label _ _ _ rest => label.isNone && rest.noLabels

theorem noLabels_nodup (c : Calls L) (h : c.noLabels = true) (n : Nat) :
    (c.keys n).Nodup ∧ ∀ k ∈ c.keys n, ∃ m, k = .uuid m ∧ n ≤ m := by
  induction hs : sizeOf c using Nat.strong_induction_on generalizing c n with
  | _ k ih =>
    cases c with
    | nil => simp [Calls.keys]
    | cons op label rel ref pt rest =>
      simp only [Calls.noLabels, Bool.and_eq_true, Option.isNone_iff_eq_none] at h
      obtain ⟨rfl, h⟩ := h
      obtain ⟨h1, h2⟩ := ih _ (by rw [← hs]; simp) rest h (n + 1) rfl
      simp only [Calls.keys, keyOf, List.nodup_cons, List.mem_cons]
      refine ⟨⟨fun hm => ?_, h1⟩, ?_⟩
      · obtain ⟨m, he, hl⟩ := h2 _ hm
        cases he; omega
      · rintro k (rfl | hk)
        · exact ⟨n, rfl, le_rfl⟩
        · obtain ⟨m, he, hl⟩ := h2 _ hk
          exact ⟨m, he, by omega⟩

/-- How long the acquisition of a protocol takes: what the configuration says, or the number of
weights divided by their sampling rate. -/
inductive AcquiresFor (a : MeasureArgs) : String → Rat → Prop
  | ssb : AcquiresFor a "SSBIntegrationComplex" a.acqDur
  | thresholded : AcquiresFor a "ThresholdedAcquisition" a.acqDur
  | trace : AcquiresFor a "Trace" a.acqDur
  | separated {n m : Nat} {r : Rat} : a.weightsA = some n → a.weightsB = some m →
      a.samplingRate = some r → AcquiresFor a "NumericalSeparatedWeightedIntegration" (n / r)
  | weighted {n m : Nat} {r : Rat} : a.weightsA = some n → a.weightsB = some m →
      a.samplingRate = some r → AcquiresFor a "NumericalWeightedIntegration" (n / r)
  | weightedThresholded {n m : Nat} {r : Rat} : a.weightsA = some n → a.weightsB = some m →
      a.samplingRate = some r → AcquiresFor a "WeightedThresholdedAcquisition" (n / r)

theorem measureDuration_iff (a : MeasureArgs) (p : String) (d : Rat) :
    measureDuration a p = .ok d ↔ AcquiresFor a p d := by
  constructor
  · intro h
    unfold measureDuration at h
    split at h
    · rename_i hp
      cases h
      rcases hp with rfl | rfl | rfl
      · exact .ssb
      · exact .thresholded
      · exact .trace
    · split at h
      · rename_i hp
        split at h
        · rename_i n m r h1 h2 h3
          cases h
          rcases hp with rfl | rfl | rfl
          · exact .separated h1 h2 h3
          · exact .weighted h1 h2 h3
          · exact .weightedThresholded h1 h2 h3
        · cases h
      · cases h
  · intro h
    cases h with
    | ssb => simp [measureDuration]
    | thresholded => simp [measureDuration]
    | trace => simp [measureDuration]
    | separated h1 h2 h3 => simp [measureDuration, h1, h2, h3]
    | weighted h1 h2 h3 => simp [measureDuration, h1, h2, h3]
    | weightedThresholded h1 h2 h3 => simp [measureDuration, h1, h2, h3]

theorem AcquiresFor.ne {a : MeasureArgs} {p : String} {d : Rat} (h : AcquiresFor a p d) :
    p ≠ "LongTimeTrace" := by
  cases h <;> decide

/-- The calls of a measurement that is no long time trace. -/
def stdCalls (a : MeasureArgs) (p : String) (d : Rat) : Calls (List Info) :=
  (fun r => if a.resetPhase then Calls.add (infoOp [⟨0, 0, .resetPhase a.clock⟩]) none r else r) <|
    .addStart (infoOp [⟨0, a.pulseDur, .square (some a.pulseAmp) (some a.port) a.clock⟩]) <|
    (fun r => if a.hasGate then
      Calls.addStart (infoOp [⟨0, a.pulseDur, .square (a.gateAmp.map (fun x => (x, 0))) a.gatePort
        "cl0.baseband"⟩]) r else r) <|
    .addStart (infoOp [⟨a.acqDelay, d, .acquire p a.port a.clock (a.channelOverride.getD a.channel)
      a.index (if p = "Trace" then false else a.append.getD false)⟩]) .nil

/-- What a measurement plays, as a list of operations. -/
def stdEvents (a : MeasureArgs) (p : String) (d : Rat) : List (Rat × List Info) :=
  (if a.resetPhase then [(0, [⟨0, 0, .resetPhase a.clock⟩])] else []) ++
  ((0, [⟨0, a.pulseDur, .square (some a.pulseAmp) (some a.port) a.clock⟩]) ::
  ((if a.hasGate then
    [(0, [⟨0, a.pulseDur, .square (a.gateAmp.map (fun x => (x, 0))) a.gatePort "cl0.baseband"⟩])]
    else []) ++
  [(0, [⟨a.acqDelay, d, .acquire p a.port a.clock (a.channelOverride.getD a.channel)
      a.index (if p = "Trace" then false else a.append.getD false)⟩])]))

theorem stdCalls_spec (a : MeasureArgs) (p : String) (d : Rat) (hp : 0 ≤ a.pulseDur)
    (delay : Option Rat) :
    (Op.sched delay (stdCalls a p d)).play = .ok (stdEvents a p d) ∧
    (Op.sched delay (stdCalls a p d)).duration = .ok (max a.pulseDur (a.acqDelay + d)) := by
  have hmm : ∀ x y : Rat, 0 ≤ x → max x y = max (max 0 x) y := by
    intro x y h; rw [max_eq_right h]
  refine RunD.spec ?_ ?_ (noLabels_nodup _ ?_ 0).1 delay
  · unfold stdCalls stdEvents
    cases hr : a.resetPhase <;> cases hg : a.hasGate <;>
      simp only [if_true, Bool.false_eq_true, if_false, List.nil_append, List.cons_append]
    · refine RunD.leaf (t := 0) (startsAt_zero (.inl rfl)) le_rfl ?_
      refine RunD.leaf (t := 0) (by m_after) le_rfl ?_
      refine RunD.of_eq (.nil _ _ _) ?_
      simp [infosDuration, hp]
    · refine RunD.leaf (t := 0) (startsAt_zero (.inl rfl)) le_rfl ?_
      refine RunD.leaf (t := 0) (by m_after) le_rfl ?_
      refine RunD.leaf (t := 0) (by m_after) le_rfl ?_
      refine RunD.of_eq (.nil _ _ _) ?_
      simp [infosDuration, hp]
    · refine RunD.leaf (t := 0) (Ready.startsAt (.inl ⟨rfl, rfl⟩)) le_rfl ?_
      refine RunD.leaf (t := 0) (by m_after) le_rfl ?_
      refine RunD.leaf (t := 0) (by m_after) le_rfl ?_
      refine RunD.of_eq (.nil _ _ _) ?_
      simp [infosDuration, hp]
    · refine RunD.leaf (t := 0) (Ready.startsAt (.inl ⟨rfl, rfl⟩)) le_rfl ?_
      refine RunD.leaf (t := 0) (by m_after) le_rfl ?_
      refine RunD.leaf (t := 0) (by m_after) le_rfl ?_
      refine RunD.leaf (t := 0) (by m_after) le_rfl ?_
      refine RunD.of_eq (.nil _ _ _) ?_
      simp [infosDuration, hp]
  · unfold stdCalls
    cases a.resetPhase <;> simp [Calls.add, Calls.addStart]
  · unfold stdCalls
    cases a.resetPhase <;> cases a.hasGate <;> simp [Calls.add, Calls.addStart, Calls.noLabels]

/-- A measurement that is no long time trace is made of these calls. -/
theorem dispersive_std {a : MeasureArgs} {o : Op (List Info)} (h : dispersiveMeasurement a = .ok o)
    (hl : a.protocol.getD a.protocolDefault ≠ "LongTimeTrace") :
    ∃ d, AcquiresFor a (a.protocol.getD a.protocolDefault) d ∧
      o = (match a.freq with
        | none => .sched a.delay (stdCalls a (a.protocol.getD a.protocolDefault) d)
        | some f => .sched none (
          .add (infoOp [⟨0, 0, .setFreq a.clock (some f)⟩]) none <|
          .add (.sched a.delay (stdCalls a (a.protocol.getD a.protocolDefault) d)) none <|
          .add (infoOp [⟨0, 0, .setFreq a.clock none⟩]) none .nil)) := by
  have hl' : a.protocol ≠ some "LongTimeTrace" := by
    intro h; apply hl; rw [h]; rfl
  unfold dispersiveMeasurement measurePulses at h
  rw [if_neg hl'] at h
  cases hsq : a.squarePulse with
  | false => rw [if_pos hsq] at h; cases h
  | true =>
    rw [if_neg (by simp [hsq])] at h
    simp only [measureAcquisition, if_neg hl] at h
    cases hd : measureDuration a (a.protocol.getD a.protocolDefault) with
    | error e => rw [hd] at h; cases h
    | ok d =>
      rw [hd] at h
      refine ⟨d, (measureDuration_iff _ _ _).1 hd, ?_⟩
      have hc : Calls.append (((fun r => if a.resetPhase then
          Calls.add (infoOp [⟨0, 0, .resetPhase a.clock⟩]) none r else r) <|
          .addStart (infoOp [⟨0, a.pulseDur, .square (some a.pulseAmp) (some a.port) a.clock⟩]) <|
          (fun r => if a.hasGate then
            Calls.addStart (infoOp [⟨0, a.pulseDur, .square (a.gateAmp.map (fun x => (x, 0))) a.gatePort
              "cl0.baseband"⟩]) r else r) .nil))
          (.addStart (infoOp [⟨a.acqDelay, d, .acquire (a.protocol.getD a.protocolDefault)
            a.port a.clock (a.channelOverride.getD a.channel) a.index
            (if a.protocol.getD a.protocolDefault = "Trace" then false else a.append.getD false)⟩]) .nil)
          = stdCalls a (a.protocol.getD a.protocolDefault) d := by
        unfold stdCalls
        cases a.resetPhase <;> cases a.hasGate <;>
          simp [Calls.add, Calls.addStart, Calls.append]
      cases hf : a.freq with
      | none =>
        rw [hf] at h
        simp only [Except.ok.injEq] at h
        rw [← h]
        simp only [← hc]
      | some f =>
        rw [hf] at h
        simp only [Except.ok.injEq] at h
        rw [← h]
        simp only [← hc]

/-! ## C47: the timing of a measurement -/

/-- A measurement: the phase reset (if wanted) and the readout pulse (and the gate pulse, if there is
one) start with it, the acquisition window starts the acquisition delay later and has the duration of
the configuration or of the weights; the measurement lasts until the pulse and the window are over. -/
theorem measure_timing {a : MeasureArgs} {o : Op (List Info)} (h : dispersiveMeasurement a = .ok o)
    (hl : a.protocol.getD a.protocolDefault ≠ "LongTimeTrace") (hf : a.freq = none)
    (hp : 0 ≤ a.pulseDur) :
    ∃ d evs, AcquiresFor a (a.protocol.getD a.protocolDefault) d ∧ o.play = .ok evs ∧
      o.duration = .ok (max a.pulseDur (a.acqDelay + d)) ∧
      spans evs =
        (if a.resetPhase then [(0, 0, .resetPhase a.clock)] else []) ++
        ((0, a.pulseDur, .square (some a.pulseAmp) (some a.port) a.clock) ::
        ((if a.gateAmp.isSome ∨ a.gatePort.isSome then
          [(0, a.pulseDur, .square (a.gateAmp.map (fun x => (x, 0))) a.gatePort "cl0.baseband")]
          else []) ++
        [(a.acqDelay, a.acqDelay + d, .acquire (a.protocol.getD a.protocolDefault) a.port a.clock
            (a.channelOverride.getD a.channel) a.index
            (if a.protocol.getD a.protocolDefault = "Trace" then false else a.append.getD false))])) := by
  obtain ⟨d, hd, ho⟩ := dispersive_std h hl
  rw [hf] at ho
  simp only at ho
  obtain ⟨h1, h2⟩ := stdCalls_spec a (a.protocol.getD a.protocolDefault) d hp a.delay
  refine ⟨d, _, hd, by rw [ho]; exact h1, by rw [ho]; exact h2, ?_⟩
  simp only [spans, stdEvents, List.flatMap_append, List.flatMap_cons, List.flatMap_nil, List.map_cons,
    List.map_nil, List.append_nil, MeasureArgs.hasGate, Bool.or_eq_true]
  congr 1
  · split <;> simp
  · simp only [List.cons_append, List.nil_append, zero_add]
    congr 2
    split <;> simp

/-- The operation after a measurement starts when it is over, plus the delay. -/
theorem next_after_measure {o : Op L} {evs : List (Rat × L)} {D : Rat} (hplay : o.play = .ok evs)
    (hdur : o.duration = .ok D) (x : L) (d : Rat) (h0 : 0 ≤ D + o.delay.getD 0) :
    (Op.sched none (.add o none (.add (.leaf x d) none .nil))).play
      = .ok (evs ++ [(D + o.delay.getD 0, x)]) := by
  refine Run.play ?_ (by simp [Calls.add]) (by simp [Calls.add, Calls.keys, keyOf]) none
  have := Run.op (L := L) (acc := []) (n := 0) (label := none) (rel := 0) (ref := none) (pt := none)
    (rest := .add (.leaf x d) none .nil) (ev := [(D + o.delay.getD 0, x)]) (t := 0) hdur hplay
    (Ready.startsAt (.inl ⟨rfl, rfl⟩)) le_rfl ?_
  · rw [later_zero] at this; exact this
  · refine Run.leaf ?_ h0 (.nil _ _)
    refine StartsAt.of_eq (startsAt_prev _ _ (by simp)) ?_
    simp [itemOf, Timing.RefPt.frac]

/-- The delay of a measurement without a frequency of its own is the one that was given. -/
theorem measure_delay {a : MeasureArgs} {o : Op (List Info)} (h : dispersiveMeasurement a = .ok o)
    (hf : a.freq = none) : o.delay.getD 0 = a.nextDelay := by
  unfold dispersiveMeasurement at h
  cases h1 : measurePulses a .nil with
  | error e => rw [h1] at h; cases h
  | ok p =>
    cases h2 : measureAcquisition a with
    | error e => rw [h1, h2] at h; cases h
    | ok q =>
      rw [h1, h2, hf] at h
      simp only [Except.ok.injEq] at h
      subst h
      simp only [Op.delay, MeasureArgs.delay]
      split
      · rename_i h0; simp [h0]
      · rfl

/-- With a frequency of its own: the frequency is set at the start and set back when the measurement
is over plus the delay; the schedule itself has no delay. -/
theorem measure_with_freq {a : MeasureArgs} {o : Op (List Info)} {f d : Rat}
    (h : dispersiveMeasurement a = .ok o) (hf : a.freq = some f) (hp : 0 ≤ a.pulseDur)
    (hd : AcquiresFor a (a.protocol.getD a.protocolDefault) d)
    (h0 : 0 ≤ max a.pulseDur (a.acqDelay + d) + a.nextDelay) :
    ∃ evs, o.play = .ok evs ∧ o.delay = none ∧
      spans evs =
        (0, 0, .setFreq a.clock (some f)) ::
        ((if a.resetPhase then [(0, 0, .resetPhase a.clock)] else []) ++
        ((0, a.pulseDur, .square (some a.pulseAmp) (some a.port) a.clock) ::
        ((if a.gateAmp.isSome ∨ a.gatePort.isSome then
          [(0, a.pulseDur, .square (a.gateAmp.map (fun x => (x, 0))) a.gatePort "cl0.baseband")]
          else []) ++
        [(a.acqDelay, a.acqDelay + d, .acquire (a.protocol.getD a.protocolDefault) a.port a.clock
            (a.channelOverride.getD a.channel) a.index
            (if a.protocol.getD a.protocolDefault = "Trace" then false else a.append.getD false)),
         (max a.pulseDur (a.acqDelay + d) + a.nextDelay,
           max a.pulseDur (a.acqDelay + d) + a.nextDelay, .setFreq a.clock none)]))) := by
  have hl : a.protocol.getD a.protocolDefault ≠ "LongTimeTrace" := hd.ne
  obtain ⟨d', hd', ho⟩ := dispersive_std h hl
  have hdd : d' = d := by
    have h1 := (measureDuration_iff _ _ _).2 hd
    have h2 := (measureDuration_iff _ _ _).2 hd'
    rw [h1] at h2; cases h2; rfl
  subst hdd
  rw [hf] at ho
  simp only at ho
  obtain ⟨h1, h2⟩ := stdCalls_spec a (a.protocol.getD a.protocolDefault) d' hp a.delay
  have hdel : a.delay.getD 0 = a.nextDelay := by
    simp only [MeasureArgs.delay]
    split
    · rename_i h0; simp [h0]
    · rfl
  refine ⟨(0, [⟨0, 0, .setFreq a.clock (some f)⟩]) ::
    (later 0 (stdEvents a (a.protocol.getD a.protocolDefault) d') ++
      [(max a.pulseDur (a.acqDelay + d') + a.nextDelay, [⟨0, 0, .setFreq a.clock none⟩])]), ?_,
    by rw [ho]; rfl, ?_⟩
  · rw [ho]
    refine Run.play ?_ (by simp [Calls.add]) (by simp [Calls.add, Calls.keys, keyOf]) none
    refine Run.leaf (Ready.startsAt (.inl ⟨rfl, rfl⟩)) le_rfl ?_
    refine Run.op h2 h1 (by m_after) le_rfl ?_
    refine Run.leaf ?_ h0 (.nil _ _)
    refine StartsAt.of_eq (startsAt_prev _ _ (by simp)) ?_
    simp [itemOf, Timing.RefPt.frac, Op.delay, hdel]
  · rw [later_zero]
    simp only [spans, stdEvents, List.flatMap_append, List.flatMap_cons, List.flatMap_nil,
      List.map_cons, List.map_nil, List.append_nil, MeasureArgs.hasGate, Bool.or_eq_true,
      List.append_assoc, List.cons_append, List.nil_append]
    congr 1
    · simp
    · congr 1
      · split <;> simp
      · congr 1
        · simp
        · congr 1
          · split <;> simp
          · simp

end Verif.Experiments
