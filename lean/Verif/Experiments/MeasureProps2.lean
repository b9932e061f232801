/-
C47: long time traces, several elements measured together, optical measurements; concrete cases.
-/
import Verif.Experiments.MeasureProps

set_option linter.unusedSimpArgs false
set_option linter.unusedVariables false

namespace Verif.Experiments

open Verif.Timing (Err)
open Spec (ns4)

variable {L : Type}

/-! ## C47: long time traces -/

theorem longBody_spec (a : MeasureArgs) (h : 0 ≤ a.acqDur) :
    (longBody a).play = .ok [(0, [⟨0, 0, .resetPhase a.clock⟩]),
      (0, [⟨0, a.acqDur, .acquire "SSBIntegrationComplex" a.port a.clock 0 a.index true⟩])] ∧
    (longBody a).duration = .ok a.acqDur := by
  refine RunD.spec ?_ (by simp [Calls.add]) (noLabels_nodup _ (by
    simp [Calls.add, Calls.addStart, Calls.noLabels]) 0).1 none
  refine RunD.leaf (t := 0) (Ready.startsAt (.inl ⟨rfl, rfl⟩)) le_rfl ?_
  refine RunD.leaf (t := 0) (by m_after) le_rfl ?_
  refine RunD.of_eq (.nil _ _ _) ?_
  simp [infosDuration, h]

theorem spans_later (t : Rat) (l : List (Rat × List Info)) :
    spans (later t l) = (spans l).map (fun e => (t + e.1, t + e.2.1, e.2.2)) := by
  simp only [spans, later, List.flatMap_map, List.map_flatMap, List.map_map, Function.comp_def,
    add_assoc]

theorem spans_append (a b : List (Rat × List Info)) : spans (a ++ b) = spans a ++ spans b := by
  simp [spans]

/-- A long time trace that is asked for: the voltage is on from the start; acquisitions from the
acquisition delay on, one after the other, each with a phase reset, all in one bin of channel 0
(whatever the channel of the element is); then the voltage is off and 4 ns pass. With a gate pulse,
it has the duration of all acquisitions and starts with the measurement. -/
theorem measure_long_time_trace {a : MeasureArgs} {o : Op (List Info)} {n : Nat}
    (h : dispersiveMeasurement a = .ok o) (hl : a.protocol = some "LongTimeTrace")
    (hf : a.freq = none) (hn : a.numPoints = .int n) (hd : 0 ≤ a.acqDur) (ha : 0 ≤ a.acqDelay) :
    a.append = some true ∧ ∃ evs, o.play = .ok evs ∧
      o.duration = .ok (a.acqDelay + n * a.acqDur + ns4) ∧
      spans evs =
        (0, 0, .offset a.pulseAmp.1 a.pulseAmp.2 a.port a.clock) ::
        ((if a.gateAmp.isSome ∨ a.gatePort.isSome then
          [(0, n * a.acqDur, .square (a.gateAmp.map (fun x => (x, 0))) a.gatePort "cl0.baseband")]
          else []) ++
        ((List.range n).flatMap (fun k : Nat =>
          [(a.acqDelay + k * a.acqDur, a.acqDelay + k * a.acqDur, .resetPhase a.clock),
           (a.acqDelay + k * a.acqDur, a.acqDelay + (k + 1) * a.acqDur,
             .acquire "SSBIntegrationComplex" a.port a.clock 0 a.index true)]) ++
        [(a.acqDelay + n * a.acqDur, a.acqDelay + n * a.acqDur, .offset 0 0 a.port a.clock),
         (a.acqDelay + n * a.acqDur, a.acqDelay + n * a.acqDur + ns4, .idle)])) := by
  have h4 : (0 : Rat) ≤ ns4 := by unfold ns4; norm_num
  have hm : (0 : Rat) ≤ n * a.acqDur := mul_nonneg (by positivity) hd
  unfold dispersiveMeasurement measurePulses measureAcquisition at h
  rw [if_pos hl] at h
  simp only [hl, Option.getD_some, if_true, hn] at h
  cases hap : a.append.getD false with
  | false => rw [if_pos hap] at h; cases h
  | true =>
    refine ⟨?_, ?_⟩
    · cases hx : a.append with
      | none => rw [hx] at hap; cases hap
      | some b => rw [hx] at hap; cases b <;> first | rfl | cases hap
    rw [if_neg (by simp [hap]), hf] at h
    simp only [Except.ok.injEq] at h
    subst h
    obtain ⟨hb1, hb2⟩ := longBody_spec a hd
    have hloop1 : (Op.loop n (longBody a)).play = .ok (repeated a.acqDur
        [(0, [⟨0, 0, .resetPhase a.clock⟩]),
         (0, [⟨0, a.acqDur, .acquire "SSBIntegrationComplex" a.port a.clock 0 a.index true⟩])] n) := by
      simp only [Op.play, hb1, hb2]
    have hloop2 : (Op.loop n (longBody a)).duration = .ok (n * a.acqDur) := by
      simp only [Op.duration, hb2]
    have hrep : spans (later a.acqDelay (repeated a.acqDur
        [(0, [⟨0, 0, .resetPhase a.clock⟩]),
         (0, [⟨0, a.acqDur, .acquire "SSBIntegrationComplex" a.port a.clock 0 a.index true⟩])] n))
        = (List.range n).flatMap (fun k : Nat =>
          [(a.acqDelay + k * a.acqDur, a.acqDelay + k * a.acqDur, .resetPhase a.clock),
           (a.acqDelay + k * a.acqDur, a.acqDelay + (k + 1) * a.acqDur,
             .acquire "SSBIntegrationComplex" a.port a.clock 0 a.index true)]) := by
      rw [spans_later, repeated_eq]
      simp only [spans, List.flatMap_assoc, List.map_flatMap]
      congr 1
      funext k
      simp only [List.map_cons, List.map_nil, List.flatMap_cons, List.flatMap_nil, List.append_nil,
        List.cons_append, List.nil_append, add_zero, List.cons.injEq, Prod.mk.injEq, and_true,
        true_and]
      ring
    cases hg : a.hasGate with
    | false =>
      have hg' : ¬ (a.gateAmp.isSome = true ∨ a.gatePort.isSome = true) := by
        simpa [MeasureArgs.hasGate] using hg
      refine ⟨(0, [⟨0, 0, .offset a.pulseAmp.1 a.pulseAmp.2 a.port a.clock⟩]) ::
        (later a.acqDelay (repeated a.acqDur
          [(0, [⟨0, 0, .resetPhase a.clock⟩]),
           (0, [⟨0, a.acqDur, .acquire "SSBIntegrationComplex" a.port a.clock 0 a.index true⟩])] n) ++
          [(a.acqDelay + n * a.acqDur, [⟨0, 0, .offset 0 0 a.port a.clock⟩]),
          (a.acqDelay + n * a.acqDur, [⟨0, ns4, .idle⟩])]), ?_⟩
      rw [← and_assoc]
      refine ⟨RunD.spec ?_ (by simp [Calls.append, Calls.add]) (noLabels_nodup _ (by
        simp [Calls.append, Calls.add, Calls.noLabels]) 0).1 _, ?_⟩
      · simp only [Calls.append, Bool.false_eq_true, if_false]
        refine RunD.leaf (t := 0) (Ready.startsAt (.inl ⟨rfl, rfl⟩)) le_rfl ?_
        refine RunD.op hloop2 hloop1 (by m_after) ha ?_
        refine RunD.leaf ?_ (by linarith) ?_
        · refine StartsAt.of_eq (startsAt_prev _ _ (by simp)) ?_
          simp [itemOf, Timing.RefPt.frac, Op.delay]
        refine RunD.leaf (by m_after) (by linarith) ?_
        refine RunD.of_eq (.nil _ _ _) ?_
        simp only [infosDuration, List.foldl_nil, zero_add, add_zero]
        have e : (4 / 1000000000 : Rat) = ns4 := rfl
        rw [e, max_self, max_eq_right (show (0 : Rat) ≤ a.acqDelay + n * a.acqDur by linarith),
          max_self, max_eq_right (by linarith)]
      · rw [if_neg hg']
        have : ∀ (x : Rat × List Info) (l : List (Rat × List Info)),
            spans (x :: l) = spans [x] ++ spans l := fun x l => spans_append [x] l
        rw [this, spans_append, hrep]
        simp [spans]
    | true =>
      have hg' : (a.gateAmp.isSome = true ∨ a.gatePort.isSome = true) := by
        simpa [MeasureArgs.hasGate] using hg
      refine ⟨(0, [⟨0, 0, .offset a.pulseAmp.1 a.pulseAmp.2 a.port a.clock⟩]) ::
        (0, [⟨0, n * a.acqDur, .square (a.gateAmp.map (fun x => (x, 0))) a.gatePort
              "cl0.baseband"⟩]) ::
        (later a.acqDelay (repeated a.acqDur
          [(0, [⟨0, 0, .resetPhase a.clock⟩]),
           (0, [⟨0, a.acqDur, .acquire "SSBIntegrationComplex" a.port a.clock 0 a.index true⟩])] n) ++
          [(a.acqDelay + n * a.acqDur, [⟨0, 0, .offset 0 0 a.port a.clock⟩]),
          (a.acqDelay + n * a.acqDur, [⟨0, ns4, .idle⟩])]), ?_⟩
      rw [← and_assoc]
      refine ⟨RunD.spec ?_ (by simp [Calls.append, Calls.add]) (noLabels_nodup _ (by
        simp [Calls.append, Calls.add, Calls.noLabels]) 0).1 _, ?_⟩
      · simp only [Calls.append, if_true]
        refine RunD.leaf (t := 0) (Ready.startsAt (.inl ⟨rfl, rfl⟩)) le_rfl ?_
        refine RunD.leaf (t := 0) (by m_after) le_rfl ?_
        refine RunD.op hloop2 hloop1 (by m_after) ha ?_
        refine RunD.leaf ?_ (by linarith) ?_
        · refine StartsAt.of_eq (startsAt_prev _ _ (by simp)) ?_
          simp [itemOf, Timing.RefPt.frac, Op.delay]
        refine RunD.leaf (by m_after) (by linarith) ?_
        refine RunD.of_eq (.nil _ _ _) ?_
        simp only [infosDuration, List.foldl_nil, zero_add, add_zero]
        have e : (4 / 1000000000 : Rat) = ns4 := rfl
        rw [e, max_self, max_eq_right hm,
          max_eq_right (show (n * a.acqDur : Rat) ≤ a.acqDelay + n * a.acqDur by linarith),
          max_self, max_eq_right (by linarith)]
      · rw [if_pos hg']
        have : ∀ (x : Rat × List Info) (l : List (Rat × List Info)),
            spans (x :: l) = spans [x] ++ spans l := fun x l => spans_append [x] l
        rw [this, this (_, _) (_ ++ _), spans_append, hrep]
        simp [spans]

/-! ## C47: several elements measured together -/

theorem dropDelay_play (o : Op L) : o.dropDelay.play = o.play := by
  cases o <;> simp [Op.dropDelay, Op.play]

theorem dropDelay_duration (o : Op L) : o.dropDelay.duration = o.duration := by
  cases o <;> simp [Op.dropDelay, Op.duration]

theorem dropDelay_delay (o : Op L) : o.dropDelay.delay = none := by
  cases o <;> simp [Op.dropDelay, Op.delay]

/-- What is known of one of the elements: what it plays and for how long. -/
structure Single (L : Type) where
  op : Op L
  evs : List (Rat × L)
  dur : Rat
  plays : op.play = .ok evs
  lasts : op.duration = .ok dur

theorem together_noLabels (os : List (Op L)) : (together os).noLabels = true := by
  induction os with
  | nil => rfl
  | cons o os ih => simp [together, Calls.noLabels, ih]

theorem together_runs (ss : List (Single L)) : ∀ (acc : List Placed) (n : Nat) (p : Placed) (m : Rat),
    p ∈ acc → p.1.key = .uuid 0 → p.1.delay = none → p.2 = 0 →
    RunD acc n (together (ss.map (·.op))) (ss.flatMap (·.evs)) m
      (ss.foldl (fun m s => max m s.dur) m) := by
  induction ss with
  | nil => intro acc n p m _ _ _ _; exact .nil _ _ _
  | cons s ss ih =>
    intro acc n p m hp hk hd h0
    have := RunD.op (acc := acc) (n := n) (op := s.op.dropDelay) (label := none) (rel := 0)
      (ref := some (.uuid 0)) (pt := some .start) (t := 0) (m := m)
      (rest := together (ss.map (·.op))) (ev := ss.flatMap (·.evs))
      (by rw [dropDelay_duration]; exact s.lasts) (by rw [dropDelay_play]; exact s.plays) ?_ le_rfl
      (ih _ _ p _ (List.mem_cons_of_mem _ hp) hk hd h0)
    · rw [later_zero] at this
      simpa [together] using this
    · refine StartsAt.of_eq (startsAt_ref _ _ (by simp) hp hk) ?_
      simp [hd, h0, Timing.RefPt.frac]

/-- Elements that are measured together all start at the same time; the measurement lasts as long as
the longest of them, and the next operation is delayed by the smallest of the delays there are. -/
theorem multiplexed_plays (s : Single L) (ss : List (Single L)) (h0 : ∀ x ∈ s :: ss, 0 ≤ x.dur) :
    (multiplexed ((s :: ss).map (·.op))).play = .ok ((s :: ss).flatMap (·.evs)) ∧
    (∃ D, (multiplexed ((s :: ss).map (·.op))).duration = .ok D ∧ (∃ x ∈ s :: ss, x.dur = D) ∧
      ∀ x ∈ s :: ss, x.dur ≤ D) ∧
    ((∀ x ∈ s :: ss, x.op.delay = none) → (multiplexed ((s :: ss).map (·.op))).delay = none) ∧
    ((∃ x ∈ s :: ss, x.op.delay ≠ none) → ∃ d, (multiplexed ((s :: ss).map (·.op))).delay = some d ∧
      (∃ x ∈ s :: ss, x.op.delay = some d) ∧ ∀ x ∈ s :: ss, ∀ e, x.op.delay = some e → d ≤ e) := by
  have hrun : RunD [] 0 (.add s.op.dropDelay none (together (ss.map (·.op))))
      (s.evs ++ ss.flatMap (·.evs)) 0 (ss.foldl (fun m s => max m s.dur) (max 0 (0 + s.dur))) := by
    have := RunD.op (L := L) (acc := []) (n := 0) (op := s.op.dropDelay) (label := none) (rel := 0)
      (ref := none) (pt := none) (t := 0) (m := 0)
      (rest := together (ss.map (·.op))) (ev := ss.flatMap (·.evs))
      (by rw [dropDelay_duration]; exact s.lasts) (by rw [dropDelay_play]; exact s.plays)
      (Ready.startsAt (.inl ⟨rfl, rfl⟩)) le_rfl
      (together_runs ss _ _ _ _ List.mem_cons_self rfl (dropDelay_delay _) rfl)
    rw [later_zero] at this
    exact this
  have hspec := RunD.spec hrun (by simp [Calls.add]) (noLabels_nodup _ (by
    simp [Calls.add, Calls.noLabels, together_noLabels]) 0).1 (minDelay ((s :: ss).map (·.op)))
  have hs0 := h0 s (by simp)
  refine ⟨hspec.1, ⟨_, hspec.2, ?_⟩, ?_, ?_⟩
  · rw [zero_add, max_eq_right hs0]
    have key : ∀ (l : List (Single L)) (m : Rat), (l.foldl (fun m s => max m s.dur) m = m ∨
        ∃ x ∈ l, x.dur = l.foldl (fun m s => max m s.dur) m) ∧
        m ≤ l.foldl (fun m s => max m s.dur) m ∧ ∀ x ∈ l, x.dur ≤ l.foldl (fun m s => max m s.dur) m := by
      intro l
      induction l with
      | nil => intro m; simp
      | cons x l ih =>
        intro m
        obtain ⟨i1, i2, i3⟩ := ih (max m x.dur)
        simp only [List.foldl_cons]
        refine ⟨?_, le_trans (le_max_left _ _) i2, ?_⟩
        · rcases i1 with h | ⟨y, hy, h⟩
          · rcases max_choice m x.dur with hm | hm
            · left; rw [h, hm]
            · right; exact ⟨x, by simp, by rw [h, hm]⟩
          · right; exact ⟨y, by simp [hy], h⟩
        · intro y hy
          rcases List.mem_cons.1 hy with rfl | hy
          · exact le_trans (le_max_right _ _) i2
          · exact i3 y hy
    obtain ⟨k1, k2, k3⟩ := key ss s.dur
    constructor
    · rcases k1 with h | ⟨x, hx, h⟩
      · exact ⟨s, by simp, h.symm⟩
      · exact ⟨x, by simp [hx], h⟩
    · intro x hx
      rcases List.mem_cons.1 hx with rfl | hx
      · exact k2
      · exact k3 x hx
  · show _ → minDelay ((s :: ss).map (·.op)) = none
    generalize s :: ss = l
    intro h
    induction l with
    | nil => rfl
    | cons x l ih =>
      simp only [List.map_cons, minDelay, h x (by simp)]
      exact ih (fun y hy => h y (by simp [hy]))
  · show _ → ∃ d, minDelay ((s :: ss).map (·.op)) = some d ∧ _
    generalize s :: ss = l
    have key : ∀ l : List (Single L),
        (minDelay (l.map (·.op)) = none ∧ ∀ x ∈ l, x.op.delay = none) ∨
        ∃ d, minDelay (l.map (·.op)) = some d ∧ (∃ x ∈ l, x.op.delay = some d) ∧
          ∀ x ∈ l, ∀ e, x.op.delay = some e → d ≤ e := by
      intro l
      induction l with
      | nil => left; simp [minDelay]
      | cons x l ih =>
        simp only [List.map_cons, minDelay]
        rcases ih with ⟨i1, i2⟩ | ⟨d, i1, ⟨y, hy, hyd⟩, i3⟩
        · cases hx : x.op.delay with
          | none =>
            left
            simp only [i1, true_and]
            intro y hy
            rcases List.mem_cons.1 hy with rfl | hy
            · exact hx
            · exact i2 y hy
          | some e =>
            right
            simp only [i1]
            refine ⟨e, rfl, ⟨x, by simp, hx⟩, ?_⟩
            intro y hy e' he'
            rcases List.mem_cons.1 hy with rfl | hy
            · rw [hx] at he'; cases he'; exact le_rfl
            · rw [i2 y hy] at he'; cases he'
        · right
          cases hx : x.op.delay with
          | none =>
            simp only [i1]
            refine ⟨d, rfl, ⟨y, by simp [hy], hyd⟩, ?_⟩
            intro z hz e' he'
            rcases List.mem_cons.1 hz with rfl | hz
            · rw [hx] at he'; cases he'
            · exact i3 z hz e' he'
          | some e =>
            simp only [i1]
            refine ⟨min e d, rfl, ?_, ?_⟩
            · rcases min_choice e d with hm | hm
              · exact ⟨x, by simp, by rw [hm]; exact hx⟩
              · exact ⟨y, by simp [hy], by rw [hm]; exact hyd⟩
            · intro z hz e' he'
              rcases List.mem_cons.1 hz with rfl | hz
              · rw [hx] at he'; cases he'; exact min_le_left _ _
              · exact le_trans (min_le_right _ _) (i3 z hz e' he')
    rintro ⟨x, hx, hne⟩
    rcases key l with ⟨-, h⟩ | h
    · exact absurd (h x hx) hne
    · exact h

/-- Without the acquisition delay, the operation after a measurement of several elements starts when
the longest window has been integrated, if all have the same acquisition delay (and no pulse outlasts
its window). -/
theorem multiplexed_next (as : List MeasureArgs) (delay : Rat) (hd0 : delay ≠ 0) (ss : List (Single (List Info)))
    (s : Single (List Info)) (hs : ss = s :: ss.tail)
    (hlen : as.length = ss.length) (ds : List Rat) (hdl : ds.length = ss.length)
    (hmeas : ∀ (i : Nat) a x d, as[i]? = some a → ss[i]? = some x → ds[i]? = some d →
      dispersiveMeasurement a = .ok x.op ∧ a.freq = none ∧ 0 ≤ a.pulseDur ∧
      AcquiresFor a (a.protocol.getD a.protocolDefault) d ∧ a.pulseDur ≤ a.acqDelay + d ∧
      a.acqDelay = delay ∧ a.nextDelay = -delay) (D : Rat)
    (hD : (multiplexed (ss.map (·.op))).duration = .ok D) :
    (∃ d ∈ ds, D + (multiplexed (ss.map (·.op))).delay.getD 0 = d) ∧
    ∀ d ∈ ds, d ≤ D + (multiplexed (ss.map (·.op))).delay.getD 0 := by
  have hall : ∀ (i : Nat) x, ss[i]? = some x → ∃ d, ds[i]? = some d ∧ x.dur = delay + d ∧
      x.op.delay = some (-delay) := by
    intro i x hx
    have hi : i < ss.length := by rcases List.getElem?_eq_some_iff.1 hx with ⟨h, -⟩; exact h
    obtain ⟨h1, h2, h3, h4, h5, h6, h7⟩ := hmeas i as[i] x ds[i]
      (List.getElem?_eq_getElem _) hx (List.getElem?_eq_getElem _)
    have hl : as[i].protocol.getD as[i].protocolDefault ≠ "LongTimeTrace" := h4.ne
    obtain ⟨d', evs, hd', -, hdur, -⟩ := measure_timing h1 hl h2 h3
    have hdd : d' = ds[i] := by
      have e1 := (measureDuration_iff _ _ _).2 h4
      have e2 := (measureDuration_iff _ _ _).2 hd'
      rw [e1] at e2; cases e2; rfl
    refine ⟨ds[i], List.getElem?_eq_getElem _, ?_, ?_⟩
    · rw [x.lasts] at hdur
      simp only [Except.ok.injEq] at hdur
      rw [hdur, hdd, max_eq_right h5, h6]
    · have := measure_delay h1 h2
      obtain ⟨d2, -, ho⟩ := dispersive_std h1 hl
      rw [h2] at ho
      simp only at ho
      rw [ho]
      show as[i].delay = _
      rw [MeasureArgs.delay, h7, if_neg (by simpa using hd0)]
  have hnn : ∀ x ∈ s :: ss.tail, 0 ≤ x.dur := by
    intro x hx
    rw [← hs] at hx
    obtain ⟨i, hi⟩ := List.mem_iff_getElem?.1 hx
    have hlt : i < ss.length := by rcases List.getElem?_eq_some_iff.1 hi with ⟨h, -⟩; exact h
    obtain ⟨h1, h2, h3, h4, h5, h6, h7⟩ := hmeas i as[i] x ds[i]
      (List.getElem?_eq_getElem _) hi (List.getElem?_eq_getElem _)
    obtain ⟨d, hd, he, -⟩ := hall i x hi
    have : ds[i] = d := by
      have := List.getElem?_eq_getElem (l := ds) (i := i) (by omega)
      rw [this] at hd; cases hd; rfl
    rw [he, ← this, ← h6]
    linarith
  obtain ⟨-, ⟨D', hD', ⟨x, hx, hxD⟩, hmax⟩, -, hdel⟩ := multiplexed_plays s ss.tail hnn
  rw [← hs] at hD' hx hmax hdel
  rw [hD'] at hD
  cases hD
  have hmem : ∀ y ∈ ss, y.op.delay = some (-delay) := by
    intro y hy
    obtain ⟨i, hi⟩ := List.mem_iff_getElem?.1 hy
    obtain ⟨-, -, -, h⟩ := hall i y hi
    exact h
  obtain ⟨d, h1, ⟨y, hy, hyd⟩, -⟩ := hdel ⟨x, hx, by rw [hmem x hx]; simp⟩
  rw [hmem y hy] at hyd
  cases hyd
  rw [h1]
  simp only [Option.getD_some]
  constructor
  · obtain ⟨i, hi⟩ := List.mem_iff_getElem?.1 hx
    obtain ⟨d, hd, he, -⟩ := hall i x hi
    refine ⟨d, List.mem_iff_getElem?.2 ⟨i, hd⟩, ?_⟩
    rw [← hxD, he]; ring
  · intro d hd
    obtain ⟨i, hi⟩ := List.mem_iff_getElem?.1 hd
    have hlt : i < ds.length := by rcases List.getElem?_eq_some_iff.1 hi with ⟨h, -⟩; exact h
    have hlt' : i < ss.length := by omega
    obtain ⟨d', hd', he, -⟩ := hall i ss[i] (List.getElem?_eq_getElem _)
    rw [hi] at hd'
    cases hd'
    have := hmax ss[i] (List.getElem_mem _)
    rw [he] at this
    linarith

/-! ## C47: optical measurements -/

theorem opticalPulses_length (t0 : Rat) : ∀ (as ds : List Rat) (ps cs : List String),
    as.length = ds.length → ds.length = ps.length → ps.length = cs.length →
    (opticalPulses t0 as ds ps cs).length = as.length
  | [], [], [], [], _, _, _ => rfl
  | a :: as, d :: ds, p :: ps, c :: cs, h1, h2, h3 => by
    simp only [opticalPulses, List.length_cons]
    rw [opticalPulses_length t0 as ds ps cs (by simpa using h1) (by simpa using h2) (by simpa using h3)]

theorem opticalPulses_get (t0 : Rat) : ∀ (as ds : List Rat) (ps cs : List String) (i : Nat) a d p c,
    as[i]? = some a → ds[i]? = some d → ps[i]? = some p → cs[i]? = some c →
    (opticalPulses t0 as ds ps cs)[i]? = some ⟨t0, d, .square (some (a, 0)) (some p) c⟩
  | a :: as, d :: ds, p :: ps, c :: cs, 0, _, _, _, _, h1, h2, h3, h4 => by
    simp at h1 h2 h3 h4; simp [opticalPulses, h1, h2, h3, h4]
  | a :: as, d :: ds, p :: ps, c :: cs, i + 1, _, _, _, _, h1, h2, h3, h4 => by
    simp at h1 h2 h3 h4
    simpa [opticalPulses] using opticalPulses_get t0 as ds ps cs i _ _ _ _ h1 h2 h3 h4
  | [], _, _, _, i, _, _, _, _, h1, _, _, _ => by simp at h1
  | _ :: _, [], _, _, i, _, _, _, _, _, h2, _, _ => by simp at h2
  | _ :: _, _ :: _, [], _, i, _, _, _, _, _, _, h3, _ => by simp at h3
  | _ :: _, _ :: _, _ :: _, [], i, _, _, _, _, _, _, _, h4 => by simp at h4

/-- An optical measurement with lists of the same length and a known protocol is one operation: all
pulses start together, the i-th with the i-th amplitude, duration, port and clock; the acquisition
starts the acquisition delay after the pulses (before them if it is negative), and the first of them
starts at 0. -/
theorem optical_timing {a : OpticalArgs} {o : Op (List Info)} (h : opticalMeasurement a = .ok o) :
    a.amps.length = a.durs.length ∧ a.durs.length = a.ports.length ∧
    a.ports.length = a.clocks.length ∧
    ∃ evs tp ta, o.play = .ok evs ∧ 0 ≤ tp ∧ 0 ≤ ta ∧ (tp = 0 ∨ ta = 0) ∧ ta - tp = a.acqDelay ∧
      (spans evs).length = a.amps.length + 1 ∧
      (∀ (i : Nat) x d p c, a.amps[i]? = some x → a.durs[i]? = some d → a.ports[i]? = some p →
        a.clocks[i]? = some c →
        (spans evs)[i]? = some (tp, tp + d, .square (some (x, 0)) (some p) c)) ∧
      (spans evs)[a.amps.length]? = some (ta, ta + a.acqDur,
        .acquire (a.protocol.getD a.protocolDefault) a.acqPort a.acqClock
          (a.channelOverride.getD a.channel) a.index (a.append.getD true)) := by
  unfold opticalMeasurement at h
  split at h
  · cases h
  · rename_i hlen
    rw [not_not] at hlen
    split at h
    · cases h
    · split at h
      · cases h
      · cases h
        obtain ⟨h1, h2, h3⟩ := hlen
        have hl := opticalPulses_length (max 0 (-a.acqDelay)) a.amps a.durs a.ports a.clocks h1 h2 h3
        refine ⟨h1, h2, h3, _, max 0 (-a.acqDelay), max 0 a.acqDelay, rfl, le_max_left _ _,
          le_max_left _ _, ?_, ?_, ?_, ?_, ?_⟩
        · rcases le_total 0 a.acqDelay with hd | hd
          · left; rw [max_eq_left (by linarith)]
          · right; rw [max_eq_left hd]
        · rcases le_total 0 a.acqDelay with hd | hd
          · rw [max_eq_right hd, max_eq_left (by linarith)]; ring
          · rw [max_eq_left hd, max_eq_right (by linarith)]; ring
        · simp [spans, hl]
        · intro i x d p c e1 e2 e3 e4
          have := opticalPulses_get (max 0 (-a.acqDelay)) _ _ _ _ i x d p c e1 e2 e3 e4
          have hi : i < a.amps.length := by
            rcases List.getElem?_eq_some_iff.1 e1 with ⟨h, -⟩; exact h
          simp only [spans, List.flatMap_cons, List.flatMap_nil, List.append_nil, List.getElem?_map]
          rw [List.getElem?_append_left (by omega), this]
          simp
        · simp only [spans, List.flatMap_cons, List.flatMap_nil, List.append_nil, List.getElem?_map]
          rw [List.getElem?_append_right (by omega), hl]
          simp

theorem infosDuration_max (i : Info) (is : List Info) :
    (∃ j ∈ i :: is, j.t0 + j.dur = infosDuration (i :: is)) ∧
    ∀ j ∈ i :: is, j.t0 + j.dur ≤ infosDuration (i :: is) := by
  have key : ∀ (l : List Info) (m : Rat),
      (l.foldl (fun m j => max m (j.t0 + j.dur)) m = m ∨
        ∃ x ∈ l, x.t0 + x.dur = l.foldl (fun m j => max m (j.t0 + j.dur)) m) ∧
      m ≤ l.foldl (fun m j => max m (j.t0 + j.dur)) m ∧
      ∀ x ∈ l, x.t0 + x.dur ≤ l.foldl (fun m j => max m (j.t0 + j.dur)) m := by
    intro l
    induction l with
    | nil => intro m; simp
    | cons x l ih =>
      intro m
      obtain ⟨i1, i2, i3⟩ := ih (max m (x.t0 + x.dur))
      simp only [List.foldl_cons]
      refine ⟨?_, le_trans (le_max_left _ _) i2, ?_⟩
      · rcases i1 with h | ⟨y, hy, h⟩
        · rcases max_choice m (x.t0 + x.dur) with hm | hm
          · left; rw [h, hm]
          · right; exact ⟨x, by simp, by rw [h, hm]⟩
        · right; exact ⟨y, by simp [hy], h⟩
      · intro y hy
        rcases List.mem_cons.1 hy with rfl | hy
        · exact le_trans (le_max_right _ _) i2
        · exact i3 y hy
  obtain ⟨k1, k2, k3⟩ := key is (i.t0 + i.dur)
  refine ⟨?_, ?_⟩
  · rcases k1 with h | ⟨x, hx, h⟩
    · exact ⟨i, by simp, h.symm⟩
    · exact ⟨x, by simp [hx], h⟩
  · intro x hx
    rcases List.mem_cons.1 hx with rfl | hx
    · exact k2
    · exact k3 x hx

/-- An optical measurement lasts until the last of its pulses and the acquisition is over. -/
theorem optical_duration {a : OpticalArgs} {o : Op (List Info)} (h : opticalMeasurement a = .ok o) :
    ∃ evs D, o.play = .ok evs ∧ o.duration = .ok D ∧ (∃ s ∈ spans evs, s.2.1 = D) ∧
      ∀ s ∈ spans evs, s.2.1 ≤ D := by
  unfold opticalMeasurement at h
  split at h
  · cases h
  · split at h
    · cases h
    · split at h
      · cases h
      · cases h
        refine ⟨_, _, rfl, rfl, ?_⟩
        have hne : ∀ (l : List Info) (x : Info), ∃ i is, l ++ [x] = i :: is := by
          intro l x; cases l <;> simp
        obtain ⟨i, is, hl⟩ := hne (opticalPulses (max 0 (-a.acqDelay)) a.amps a.durs a.ports a.clocks)
          ⟨max 0 a.acqDelay, a.acqDur, .acquire (a.protocol.getD a.protocolDefault) a.acqPort a.acqClock
            (a.channelOverride.getD a.channel) a.index (a.append.getD true)⟩
        rw [hl]
        obtain ⟨⟨j, hj, h1⟩, h2⟩ := infosDuration_max i is
        simp only [spans, List.flatMap_cons, List.flatMap_nil, List.append_nil, List.mem_map]
        refine ⟨⟨_, ⟨j, hj, rfl⟩, by simpa using h1⟩, ?_⟩
        rintro s ⟨j, hj, rfl⟩
        simpa using h2 j hj

/-- Lists of different lengths are rejected. -/
theorem optical_rejects (a : OpticalArgs) (h : ¬ (a.amps.length = a.durs.length ∧
    a.durs.length = a.ports.length ∧ a.ports.length = a.clocks.length)) :
    opticalMeasurement a = .error .valueError := by
  unfold opticalMeasurement; rw [if_pos h]

end Verif.Experiments
