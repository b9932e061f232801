/-
C58: preparing an analog module sets it to what was compiled.
-/
import Verif.Prepare.Result

set_option linter.unusedSimpArgs false
set_option linter.unusedVariables false

namespace Verif.Prepare

open Verif.Prepare.Spec
open Verif.Connect (Chan Mode Dir ModType)
open Verif.Settings.Spec (Sets Leaves)

variable {σ : Type} [DecidableEq σ]

/-! ### Scope traces -/

/-- The numbers agree, and `o` is what they are. -/
def Same (l : List Nat) (o : Option Nat) : Prop := (∀ k ∈ l, o = some k) ∧ ∀ k, o = some k → k ∈ l

theorem same_cons (k : Nat) (f : Option Nat) (l : List Nat) (o : Option Nat) :
    Same (f.toList ++ k :: l) o ↔ (∀ j, f = some j → j = k) ∧ Same (k :: l) o := by
  cases f with
  | none => simp
  | some j =>
    simp only [Option.toList_some, List.cons_append, List.nil_append, Option.some.injEq, forall_eq', Same]
    constructor
    · rintro ⟨h1, h2⟩
      have e1 := h1 j (by simp)
      have e2 := h1 k (by simp)
      have : j = k := by rw [e1] at e2; exact Option.some.inj e2
      subst this
      refine ⟨rfl, fun x hx => h1 x (List.mem_cons_of_mem _ hx), fun x hx => ?_⟩
      rcases List.mem_cons.mp (h2 x hx) with h | h
      · simp [h]
      · exact h
    · rintro ⟨rfl, h1, h2⟩
      refine ⟨fun x hx => ?_, fun x hx => List.mem_cons_of_mem _ (h2 x hx)⟩
      rcases List.mem_cons.mp hx with h | h
      · rw [h]; exact h1 j (by simp)
      · exact h1 x h

theorem scope_inner (ch : Nat) : ∀ (m : List (Nat × List Nat)) (f o : Option Nat),
    m.foldlM (scopeStep ch) f = .ok o ↔
      Same (f.toList ++ (m.filter fun e => decide (ch ∈ e.2)).map Prod.fst) o
  | [], f, o => by
    cases f <;> cases o <;> simp [FoldM.nil, Same, pure, Except.pure, eq_comm]
  | e :: m, f, o => by
    rw [FoldM.ok_cons]
    by_cases hm : ch ∈ e.2
    · simp only [List.filter_cons, hm, decide_true, if_true, List.map_cons]
      rw [same_cons]
      have hs : ∀ x, scopeStep ch f e = .ok x ↔ (∀ j, f = some j → j = e.1) ∧ x = some e.1 := by
        intro x
        unfold scopeStep
        rw [if_pos hm]
        cases f with
        | none => simp [eq_comm]
        | some j =>
          by_cases hj : j = e.1
          · subst hj; simp [eq_comm]
          · simp [hj]
      constructor
      · rintro ⟨x, hx, h⟩
        obtain ⟨h1, rfl⟩ := (hs x).mp hx
        exact ⟨h1, by simpa using (scope_inner ch m _ o).mp h⟩
      · rintro ⟨h1, h2⟩
        exact ⟨some e.1, (hs _).mpr ⟨h1, rfl⟩, (scope_inner ch m _ o).mpr (by simpa using h2)⟩
    · have hs : scopeStep ch f e = .ok f := by unfold scopeStep; rw [if_neg hm]
      simp only [List.filter_cons, hm, decide_false, Bool.false_eq_true, if_false, hs, Except.ok.injEq,
        exists_eq_left']
      exact scope_inner ch m f o

theorem same_trans (a b : List Nat) (o : Option Nat) :
    (∃ x, Same a x ∧ Same (x.toList ++ b) o) ↔ Same (a ++ b) o := by
  constructor
  · rintro ⟨x, ⟨h1, h2⟩, h3, h4⟩
    cases x with
    | none =>
      have : a = [] := by
        cases a with
        | nil => rfl
        | cons k a => exact absurd (h1 k (by simp)) (by simp)
      subst this
      exact ⟨by simpa using h3, by simpa using h4⟩
    | some j =>
      have ho := h3 j (by simp)
      refine ⟨fun k hk => ?_, fun k hk => ?_⟩
      · rcases List.mem_append.mp hk with h | h
        · rw [ho, ← h1 k h]
        · exact h3 k (List.mem_append_right _ h)
      · rw [ho] at hk; cases hk
        exact List.mem_append_left _ (h2 j rfl)
  · rintro ⟨h1, h2⟩
    cases a with
    | nil => exact ⟨none, by simp [Same], by simpa [Same] using ⟨h1, h2⟩⟩
    | cons j a =>
      have ho : o = some j := h1 j (by simp)
      subst ho
      refine ⟨some j, ⟨fun k hk => h1 k (List.mem_append_left _ hk), ?_⟩, ?_, ?_⟩
      · rintro k hk; cases hk; simp
      · intro k hk
        rcases List.mem_append.mp hk with h | h
        · simp at h; rw [h]
        · exact h1 k (List.mem_append_right _ h)
      · rintro k hk; cases hk; simp

theorem scope_outer (m : List (Nat × List Nat)) : ∀ (traces : List Nat) (f o : Option Nat),
    traces.foldlM (fun found ch => m.foldlM (scopeStep ch) found) f = .ok o ↔
      Same (f.toList ++ traces.flatMap fun ch => (m.filter fun e => decide (ch ∈ e.2)).map Prod.fst) o
  | [], f, o => by cases f <;> cases o <;> simp [FoldM.nil, Same, pure, Except.pure, eq_comm]
  | ch :: traces, f, o => by
    rw [FoldM.ok_cons, List.flatMap_cons, ← List.append_assoc, ← same_trans]
    simp only [scope_inner, scope_outer m traces]

omit [DecidableEq σ] in
theorem scopeOf_ok (p : Program σ) (o : Option Nat) :
    scopeOf p = .ok o ↔ (∀ k, TraceOn p k → o = some k) ∧ ∀ k, o = some k → TraceOn p k := by
  unfold scopeOf
  cases hm : p.mapping with
  | none =>
    simp only [TraceOn, hm, reduceCtorEq, false_and, exists_false, and_false, false_implies, implies_true, true_and,
      Except.ok.injEq]
    cases o <;> simp
  | some m =>
    simp only [scopeSeq, scope_outer]
    have : ∀ k, k ∈ (none : Option Nat).toList ++
        (p.traces.flatMap fun ch => (m.filter fun e => decide (ch ∈ e.2)).map Prod.fst) ↔ TraceOn p k := by
      intro k
      simp only [Option.toList_none, List.nil_append, List.mem_flatMap, List.mem_map, List.mem_filter,
        decide_eq_true_eq, TraceOn, hm, Option.some.injEq, exists_eq_left']
      constructor
      · rintro ⟨ch, hch, ⟨k', chs⟩, ⟨h1, h2⟩, rfl⟩; exact ⟨ch, hch, chs, h1, h2⟩
      · rintro ⟨ch, hch, chs, h1, h2⟩; exact ⟨ch, hch, (k, chs), ⟨h1, h2⟩, rfl⟩
    simp only [Same, this]

omit [DecidableEq σ] in
theorem scopeOf_iff (p : Program σ) :
    (∃ o, scopeOf p = .ok o) ↔ ∀ j k, TraceOn p j → TraceOn p k → j = k := by
  constructor
  · rintro ⟨o, ho⟩ j k hj hk
    obtain ⟨h, -⟩ := (scopeOf_ok p o).mp ho
    have h1 := h j hj; rw [h k hk] at h1
    exact (Option.some.inj h1).symm
  · intro h
    by_cases he : ∃ k, TraceOn p k
    · obtain ⟨k, hk⟩ := he
      exact ⟨some k, (scopeOf_ok p _).mpr ⟨fun j hj => by rw [h j k hj hk], fun j hj => by cases hj; exact hk⟩⟩
    · exact ⟨none, (scopeOf_ok p _).mpr ⟨fun j hj => absurd ⟨j, hj⟩ he, fun j hj => by cases hj⟩⟩

/-! ### Accepted programs -/

omit [DecidableEq σ] in
theorem numSeqs_eq (t : ModType) : numSeqs t = sequencers t := by cases t <;> rfl

/-- **C58.** A program is accepted by `prepare` exactly if its sequencers exist, all of them use the NCO if
the module is a QRC, and the traces of a readout module are recorded by one sequencer only. -/
theorem prepare_accepts {run : Run σ} (hr : CalOk run) (force : Bool) {t : ModType} (ht : t ≠ .qtm)
    (p : Program σ) {d : Dev σ} (hc : Coherent d) (hn : (p.seqs.map Prod.fst).Nodup) :
    (∃ d', prepare force run t p d = .ok d') ↔
      (∀ e ∈ p.seqs, e.1 < sequencers t ∧ (t = .qrc → e.2.ncoEn = true)) ∧
      (t = .qrm ∨ t = .qrmRf ∨ t = .qrc → ∀ j k, TraceOn p j → TraceOn p k → j = k) := by
  rw [← scopeOf_iff, ← numSeqs_eq]
  cases t with
  | qtm => exact absurd rfl ht
  | qcm => simpa [prepare, Valid] using (result_qcm hr (force := force) (Or.inl rfl) hc hn).2
  | qcmRf => simpa [prepare, Valid] using (result_qcm hr (force := force) (Or.inr rfl) hc hn).2
  | qrm => simpa [prepare, Valid] using (result_qrm hr (force := force) (Or.inl rfl) hc hn).2
  | qrmRf => simpa [prepare, Valid] using (result_qrm hr (force := force) (Or.inr (Or.inl rfl)) hc hn).2
  | qrc => simpa [prepare, Valid] using (result_qrm hr (force := force) (Or.inr (Or.inr rfl)) hc hn).2

theorem prepare_result {run : Run σ} (hr : CalOk run) {force : Bool} {t : ModType} (ht : t ≠ .qtm)
    {p : Program σ} {d d' : Dev σ} (hc : Coherent d) (hn : (p.seqs.map Prod.fst).Nodup)
    (h : prepare force run t p d = .ok d') : ∃ ws cs, Result t p d d' ws cs := by
  cases t with
  | qtm => exact absurd rfl ht
  | qcm => exact (result_qcm hr (force := force) (Or.inl rfl) hc hn).1 d' h
  | qcmRf => exact (result_qcm hr (force := force) (Or.inr rfl) hc hn).1 d' h
  | qrm => exact (result_qrm hr (force := force) (Or.inl rfl) hc hn).1 d' h
  | qrmRf => exact (result_qrm hr (force := force) (Or.inr (Or.inl rfl)) hc hn).1 d' h
  | qrc => exact (result_qrm hr (force := force) (Or.inr (Or.inr rfl)) hc hn).1 d' h

theorem prepare_valid {run : Run σ} (hr : CalOk run) {force : Bool} {t : ModType} (ht : t ≠ .qtm)
    {p : Program σ} {d d' : Dev σ} (hc : Coherent d) (hn : (p.seqs.map Prod.fst).Nodup)
    (h : prepare force run t p d = .ok d') : ∀ e ∈ p.seqs, e.1 < numSeqs t := by
  intro e he
  rw [numSeqs_eq]
  exact (((prepare_accepts hr force ht p hc hn).mp ⟨d', h⟩).1 e he).1

/-- **C58.** What the driver remembers stays right. -/
theorem prepare_coherent {run : Run σ} (hr : CalOk run) {force : Bool} {t : ModType} (ht : t ≠ .qtm)
    {p : Program σ} {d d' : Dev σ} (hc : Coherent d) (hn : (p.seqs.map Prod.fst).Nodup)
    (h : prepare force run t p d = .ok d') : Coherent d' := by
  obtain ⟨ws, cs, hres⟩ := prepare_result hr ht hc hn h
  exact hres.step.coherent

/-! ### Calibrations -/

theorem ncoChanged_iff {d : Dev σ} {e : Nat × Analog σ} : ncoChanged d.cache e = true ↔ FreqNew d e.1 e.2 := by
  unfold ncoChanged FreqNew
  simp only [Bool.and_eq_true, decide_eq_true_eq]
  cases e.2.freq <;> simp [optNum]

theorem sideband_mem {t : ModType} {p : Program σ} {d : Dev σ} {c : Cal} :
    c ∈ p.seqs.flatMap (mixC t d.cache) ↔ ∃ k, c = .sideband k ∧ SidebandCal t p d k := by
  have hcn : ∀ e, calNeeded d.cache e = true ↔ e.2.autoSideband = true ∧ FreqNew d e.1 e.2 := by
    intro e; rw [calNeeded, Bool.and_eq_true, ncoChanged_iff]
  simp only [List.mem_flatMap, mixC, mixCals, SidebandCal]
  constructor
  · rintro ⟨e, he, hm⟩
    split at hm
    · simp at hm
    · rename_i hq
      split at hm
      · rename_i hca
        simp only [List.mem_cons, List.not_mem_nil, or_false] at hm
        exact ⟨e.1, hm, hq, e.2, he, (hcn e).mp hca⟩
      · simp at hm
  · rintro ⟨k, rfl, hq, s, hs, ha, hf⟩
    refine ⟨(k, s), hs, ?_⟩
    rw [if_neg hq, if_pos ((hcn (k, s)).mpr ⟨ha, hf⟩)]
    simp

theorem loChanged_iff {t : ModType} (ht : t ≠ .qrc) {m : Settings.ModSettings} {d : Dev σ} {e : Nat × String}
    (he : e ∈ loParams t) : loChanged d.cache m e = true ↔ LoNew t m d e.1 := by
  have hof : ∀ n, LoOf t e.1 n ↔ n = e.2 := by
    intro n
    cases t <;> simp only [loParams, List.mem_cons, List.not_mem_nil, or_false, reduceCtorEq] at he ht
    · rcases he with rfl | rfl <;> simp [LoOf]
    · subst he; simp [LoOf]
    · exact absurd rfl ht
  unfold loChanged LoNew Settings.getOpt
  simp only [hof]
  cases hg : Dict.get? m.los e.1 with
  | none => simp
  | some x => cases x <;> simp

theorem lo_mem {t : ModType} {p : Program σ} {d : Dev σ} {c : Cal}
    (hout : ∀ e ∈ p.seqs, e.2.outs = Settings.outputIndices e.2.chan) :
    c ∈ loCals d.cache t p ↔ ∃ o, c = .lo o ∧ LeakageCal t p d o := by
  unfold loCals LeakageCal
  cases hs : p.settings with
  | none => simp
  | some mf =>
    obtain ⟨m, f⟩ := mf
    simp only [Option.some.injEq, Prod.mk.injEq]
    have hof : ∀ o, (∃ n, LoOf t o n) ↔ t ≠ .qrc ∧ ∃ e ∈ loParams t, e.1 = o := by
      intro o
      cases t <;> simp only [loParams, LoOf, List.mem_cons, List.not_mem_nil, or_false, reduceCtorEq, ne_eq,
        not_true_eq_false, not_false_eq_true, false_and, true_and, exists_false]
      · constructor
        · rintro ⟨n, ⟨rfl, -⟩ | ⟨rfl, -⟩⟩
          · exact ⟨_, Or.inl rfl, rfl⟩
          · exact ⟨_, Or.inr rfl, rfl⟩
        · rintro ⟨e, rfl | rfl, rfl⟩
          · exact ⟨_, Or.inl ⟨rfl, rfl⟩⟩
          · exact ⟨_, Or.inr ⟨rfl, rfl⟩⟩
      · simp [eq_comm]
    by_cases hq : t = .qrc
    · rw [if_pos hq]
      simp only [List.not_mem_nil, false_iff, not_exists, not_and]
      rintro o - m' f' - ho
      exact absurd ((hof o).mp ho).1 (by simp [hq])
    · rw [if_neg hq]
      have hrf : ∀ e ∈ p.seqs, ∀ o, rfOut e.2 o = "IQ" ↔ e.2.chan = ⟨.complex, .output, o⟩ := by
        intro e he o
        unfold rfOut
        rw [hout e he]
        generalize e.2.chan = c
        obtain ⟨md, dr, ix⟩ := c
        cases md <;> cases dr <;> simp [Settings.outputIndices]
      have hneed : ∀ e ∈ loParams t, loCalNeeded d.cache p m e = true ↔
          ((p.loCal e.1 = .loChange ∧ LoNew t m d e.1) ∨
           (p.loCal e.1 = .loIntermChange ∧ (LoNew t m d e.1 ∨
              ∃ k s, (k, s) ∈ p.seqs ∧ s.chan = ⟨.complex, .output, e.1⟩ ∧ FreqNew d k s))) := by
        intro e he
        unfold loCalNeeded
        cases hl : p.loCal e.1 with
        | off => simp
        | loChange => simp [loChanged_iff hq he]
        | loIntermChange =>
          simp only [Bool.or_eq_true, loChanged_iff hq he, List.any_eq_true, Bool.and_eq_true, decide_eq_true_eq,
            reduceCtorEq, false_and, true_and, false_or]
          refine or_congr_right ?_
          constructor
          · rintro ⟨x, hx, h1, h2⟩
            exact ⟨x.1, x.2, hx, (hrf x hx e.1).mp h1, ncoChanged_iff.mp h2⟩
          · rintro ⟨k, s, hx, h1, h2⟩
            exact ⟨(k, s), hx, (hrf (k, s) hx e.1).mpr h1, ncoChanged_iff.mpr h2⟩
      simp only [List.mem_map, List.mem_filter]
      constructor
      · rintro ⟨e, ⟨he, hne⟩, rfl⟩
        exact ⟨e.1, rfl, m, f, ⟨rfl, rfl⟩, (hof e.1).mpr ⟨hq, e, he, rfl⟩, (hneed e he).mp hne⟩
      · rintro ⟨o, rfl, m', f', ⟨rfl, rfl⟩, ho, hne⟩
        obtain ⟨-, e, he, rfl⟩ := (hof o).mp ho
        exact ⟨e, ⟨he, (hneed e he).mpr hne⟩, rfl⟩

/-- **C58.** The calibrations that `prepare` runs are those whose frequencies are new and for which
automatic calibration is on, each of them once, sidebands before local oscillators. -/
theorem prepare_calibrates {run : Run σ} (hr : CalOk run) {force : Bool} {t : ModType} (ht : t ≠ .qtm)
    {p : Program σ} {d d' : Dev σ} (hc : Coherent d) (hn : (p.seqs.map Prod.fst).Nodup)
    (hout : ∀ e ∈ p.seqs, e.2.outs = Settings.outputIndices e.2.chan)
    (h : prepare force run t p d = .ok d') :
    ∃ side leak : List Nat, d'.cals = d.cals ++ (side.map .sideband ++ leak.map .lo) ∧ side.Nodup ∧ leak.Nodup ∧
      (∀ k, k ∈ side ↔ SidebandCal t p d k) ∧ ∀ o, o ∈ leak ↔ LeakageCal t p d o := by
  obtain ⟨ws, cs, hres⟩ := prepare_result hr ht hc hn h
  have h1 := hres.step.cals
  rw [hres.cals] at h1
  have hside : ∃ side : List Nat, p.seqs.flatMap (mixC t d.cache) = side.map .sideband ∧ side.Nodup := by
    have : ∀ seqs : List (Nat × Analog σ), (seqs.map Prod.fst).Nodup → ∃ side : List Nat,
        seqs.flatMap (mixC t d.cache) = side.map .sideband ∧ side.Nodup ∧ ∀ k ∈ side, k ∈ seqs.map Prod.fst := by
      intro seqs
      induction seqs with
      | nil => exact fun _ => ⟨[], by simp⟩
      | cons e seqs ih =>
        intro hn
        simp only [List.map_cons, List.nodup_cons] at hn
        obtain ⟨side, g1, g2, g3⟩ := ih hn.2
        simp only [List.flatMap_cons, g1]
        unfold mixC mixCals
        split
        · exact ⟨side, by simp, g2, fun k hk => List.mem_cons_of_mem _ (g3 k hk)⟩
        · split
          · refine ⟨e.1 :: side, by simp, List.nodup_cons.mpr ⟨fun hk => hn.1 (g3 _ hk), g2⟩, ?_⟩
            intro k hk
            rcases List.mem_cons.mp hk with rfl | hk
            · simp
            · exact List.mem_cons_of_mem _ (g3 k hk)
          · exact ⟨side, by simp, g2, fun k hk => List.mem_cons_of_mem _ (g3 k hk)⟩
    obtain ⟨side, g1, g2, -⟩ := this p.seqs hn
    exact ⟨side, g1, g2⟩
  have hleak : ∃ leak : List Nat, loCals d.cache t p = leak.map .lo ∧ leak.Nodup := by
    unfold loCals
    split
    · exact ⟨[], by simp⟩
    · rename_i m f hs
      split
      · exact ⟨[], by simp⟩
      · refine ⟨((loParams t).filter (loCalNeeded d.cache p m)).map Prod.fst, by simp, ?_⟩
        have : ((loParams t).map Prod.fst).Nodup := by cases t <;> simp [loParams]
        exact this.sublist (List.filter_sublist.map _)
  obtain ⟨side, a1, a2⟩ := hside
  obtain ⟨leak, b1, b2⟩ := hleak
  refine ⟨side, leak, by rw [h1, a1, b1], a2, b2, fun k => ?_, fun o => ?_⟩
  · have : Cal.sideband k ∈ p.seqs.flatMap (mixC t d.cache) ↔ SidebandCal t p d k := by
      rw [sideband_mem]; simp
    rw [← this, a1]; simp
  · have : Cal.lo o ∈ loCals d.cache t p ↔ LeakageCal t p d o := by
      rw [lo_mem hout]; simp
    rw [← this, b1]; simp

/-! ### Parameters of sequencers -/

theorem not_changed {t : ModType} {p : Program σ} {d d' : Dev σ} {ws : List (Param × Val σ)} {cs : List Cal}
    (h : Result t p d d' ws cs) {k : Nat} {q : SeqParam} (hq : q ≠ .phase ∧ q ≠ .ratio) :
    ∀ c ∈ cs, ¬Changes c (.seq k q) := by
  intro c hcm
  cases c with
  | sideband j =>
    simp only [Changes, Param.seq.injEq, not_or, not_and]
    exact ⟨fun _ => hq.1, fun _ => hq.2⟩
  | lo o => simp [Changes, LeakageOf]

/-- A parameter of a sequencer in the program, other than the mixer corrections. -/
theorem seq_value {t : ModType} {p : Program σ} {d d' : Dev σ} {ws : List (Param × Val σ)} {cs : List Cal}
    (h : Result t p d d' ws cs) {k : Nat} {s : Analog σ} (hs : (k, s) ∈ p.seqs) {q : SeqParam}
    (hq : q ≠ .phase ∧ q ≠ .ratio) {v : Val σ} (hm : (.seq k q, v) ∈ seqWrites t k s)
    (hu : ∀ w, (.seq k q, w) ∈ seqWrites t k s → w = v) : d'.hw (.seq k q) = v := by
  have hmix : last (mixW t d.cache (k, s)) (.seq k q) = none := by
    rw [last_none]
    intro w hw
    unfold mixW at hw
    split at hw
    · simp at hw
    · rcases mixWrites_mem hw with h | h <;> (rw [Param.seq.injEq] at h)
      · exact hq.1 h.2
      · exact hq.2 h.2
  rw [h.step.hw _ (not_changed h hq), h.inSeq (k, s) hs q, hmix, last_eq hm hu]
  rfl

omit [DecidableEq σ] in
theorem mem_out {t : ModType} {k : Nat} {s : Analog σ} {q : SeqParam} {v : Val σ} :
    (.seq k q, v) ∈ outWrites t k s ↔ ∃ i < numOuts t, q = .out i ∧
      v = .str (if isRf t then rfOut s i else basebandOut s i) := by
  simp only [outWrites, List.mem_map, List.mem_range, Prod.mk.injEq, Param.seq.injEq, true_and]
  constructor <;> rintro ⟨i, h1, h2, h3⟩ <;> exact ⟨i, h1, h2.symm, h3.symm⟩

omit [DecidableEq σ] in
theorem mem_in {t : ModType} {k : Nat} {s : Analog σ} {q : SeqParam} {v : Val σ}
    (h : (.seq k q, v) ∈ inWrites t k s) : q = .acqI ∨ q = .acqQ ∨ q = .acq := by
  cases t <;> simp only [inWrites, List.mem_cons, List.not_mem_nil, or_false, Prod.mk.injEq, Param.seq.injEq,
    true_and] at h
  · rcases h with h | h <;> simp [h.1]
  · simp [h.1]
  · simp [h.1]

omit [DecidableEq σ] in
theorem mem_base {k : Nat} {y : Bool} {z : σ} {r : List (Nat × (Bool × Nat))} {q : SeqParam} {v : Val σ} :
    (.seq k q, v) ∈ baseWrites k y z r ↔ (q = .sync ∧ v = .bool y) ∨ (q = .sequence ∧ v = .program z) ∨
      ∃ a i c, (a, (i, c)) ∈ r ∧ ((q = .readInvert a ∧ v = .bool i) ∨ (q = .readCount a ∧ v = .nat c)) := by
  simp only [baseWrites, List.mem_append, List.mem_cons, List.not_mem_nil, or_false, Prod.mk.injEq,
    Param.seq.injEq, true_and, List.mem_flatMap, or_assoc]
  refine or_congr_right (or_congr_right ?_)
  constructor
  · rintro ⟨⟨a, i, c⟩, h1, h2⟩; exact ⟨a, i, c, h1, h2⟩
  · rintro ⟨a, i, c, h1, h2⟩; exact ⟨(a, (i, c)), h1, h2⟩

omit [DecidableEq σ] in
/-- The settings of a sequencer that all types of modules have. -/
theorem mem_analog {t : ModType} {k : Nat} {s : Analog σ} {q : SeqParam} {v : Val σ} :
    (.seq k q, v) ∈ analogWrites t k s ↔ (s.ncoEn = true ∧ q = .ncoFreq ∧ v = optNum s.freq) ∨
      (q = .offset0 ∧ v = .num s.offsetI) ∨ (q = .offset1 ∧ v = .num s.offsetQ) ∨
      (q = .gain0 ∧ v = .num s.gainI) ∨ (q = .gain1 ∧ v = .num s.gainQ) ∨
      (.seq k q, v) ∈ outWrites t k s ∨ (.seq k q, v) ∈ inWrites t k s ∨
      (.seq k q, v) ∈ baseWrites k s.syncEn s.sequence s.reads := by
  simp only [analogWrites, List.mem_append, List.mem_cons, List.not_mem_nil, or_false, Prod.mk.injEq,
    Param.seq.injEq, true_and, or_assoc]
  cases s.ncoEn <;> simp

omit [DecidableEq σ] in
theorem mem_readout {k : Nat} {s : Analog σ} {q : SeqParam} {v : Val σ} :
    (.seq k q, v) ∈ readoutWrites k s ↔ (q = .length ∧ ∃ x, s.length = some x ∧ v = .int x) ∨
      (q = .autoBin ∧ ∃ x, s.autoBin = some x ∧ v = .bool x) ∨
      (q = .ttlThreshold ∧ ∃ x, s.ttlThreshold = some x ∧ v = .num x) ∨
      (q = .ttlInput ∧ ∃ x, s.ttlInput = some x ∧ v = .nat x) ∨
      (q = .rotation ∧ ∃ x, s.rotation = some x ∧ v = .num x) ∨
      (q = .threshold ∧ ∃ x, s.threshold = some x ∧ v = .num x) ∨
      (q = .trigAddr ∧ ∃ x, s.trigAddr = some x ∧ v = .nat x) ∨
      (q = .trigEn ∧ ∃ x, s.trigEn = some x ∧ v = .bool x) ∨
      (q = .trigInvert ∧ v = .bool s.trigInvert ∧ ∃ x, s.trigEn = some x) := by
  simp only [readoutWrites, List.mem_append, mem_opt, mem_trig, Param.seq.injEq, true_and, or_assoc]

omit [DecidableEq σ] in
/-- All settings of a sequencer. -/
theorem mem_seqWrites {t : ModType} (ht : t ≠ .qtm) {k : Nat} {s : Analog σ} {q : SeqParam} {v : Val σ} :
    (.seq k q, v) ∈ seqWrites t k s ↔ (t ≠ .qrc ∧ q = .modEn ∧ v = .bool s.ncoEn) ∨
      ((t = .qrm ∨ t = .qrmRf) ∧ q = .demodEn ∧ v = .bool s.ncoEn) ∨
      (.seq k q, v) ∈ analogWrites t k s ∨
      ((t = .qrm ∨ t = .qrmRf ∨ t = .qrc) ∧ (.seq k q, v) ∈ readoutWrites k s) ∨
      ((t = .qcmRf ∨ t = .qrmRf ∨ t = .qrc) ∧ q = .markerOvr ∧ v = .bool false) := by
  cases t <;> simp only [seqWrites, List.mem_append, List.mem_cons, List.not_mem_nil, or_false, Prod.mk.injEq,
    Param.seq.injEq, true_and, or_assoc, reduceCtorEq, ne_eq, not_false_eq_true, not_true_eq_false, false_and,
    or_true, true_or, or_false, false_or]
  exact absurd rfl ht

/-- **C58.** After `prepare`, a sequencer in the program has the settings that were compiled for it. -/
theorem prepare_sequencer {run : Run σ} (hr : CalOk run) {force : Bool} {t : ModType} (ht : t ≠ .qtm)
    {p : Program σ} {d d' : Dev σ} (hc : Coherent d) (hn : (p.seqs.map Prod.fst).Nodup)
    (h : prepare force run t p d = .ok d') {k : Nat} {s : Analog σ} (hs : (k, s) ∈ p.seqs)
    (hreads : (s.reads.map Prod.fst).Nodup) : Sequencer t d'.hw k s := by
  obtain ⟨ws, cs, hres⟩ := prepare_result hr ht hc hn h
  have key : ∀ {q : SeqParam} {v : Val σ}, q ≠ .phase ∧ q ≠ .ratio → (.seq k q, v) ∈ seqWrites t k s →
      (∀ w, (.seq k q, w) ∈ seqWrites t k s → w = v) → d'.hw (.seq k q) = v :=
    fun hq hm hu => seq_value hres hs hq hm hu
  have hin : ∀ {q : SeqParam} {w : Val σ}, q ≠ .acqI → q ≠ .acqQ → q ≠ .acq →
      (Param.seq k q, w) ∉ inWrites t k s := by
    intro q w h1 h2 h3 hm
    rcases mem_in hm with h | h | h
    · exact h1 h
    · exact h2 h
    · exact h3 h
  constructor
  · refine key (by simp) ?_ ?_
    · simp [mem_seqWrites ht, mem_analog, mem_base]
    · intro w
      simp [mem_seqWrites ht, mem_analog, mem_base, mem_readout, mem_out, hin]
  · refine key (by simp) ?_ ?_
    · simp [mem_seqWrites ht, mem_analog, mem_base]
    · intro w
      simp [mem_seqWrites ht, mem_analog, mem_base, mem_readout, mem_out, hin]
  · intro a i c hm
    have hu : ∀ i' c', (a, (i', c')) ∈ s.reads → i' = i ∧ c' = c := by
      intro i' c' hm'
      have h1 := Dict.get?_of_mem hreads hm
      have h2 := Dict.get?_of_mem hreads hm'
      rw [h1] at h2
      simp only [Option.some.injEq, Prod.mk.injEq] at h2
      exact ⟨h2.1.symm, h2.2.symm⟩
    constructor
    · refine key (by simp) ?_ ?_
      · simp only [mem_seqWrites ht, mem_analog, mem_base]
        exact Or.inr (Or.inr (Or.inl (Or.inr (Or.inr (Or.inr (Or.inr (Or.inr (Or.inr (Or.inr
          (Or.inr (Or.inr ⟨a, i, c, hm, Or.inl ⟨rfl, rfl⟩⟩)))))))))))
      · intro w
        simp only [mem_seqWrites ht, mem_analog, mem_base, mem_readout, mem_out, hin, reduceCtorEq, false_and,
          and_false, exists_false, false_or, or_false, SeqParam.readInvert.injEq, ne_eq, not_false_eq_true]
        rintro ⟨a', i', c', h1, rfl, rfl⟩
        rw [(hu i' c' h1).1]
    · refine key (by simp) ?_ ?_
      · simp only [mem_seqWrites ht, mem_analog, mem_base]
        exact Or.inr (Or.inr (Or.inl (Or.inr (Or.inr (Or.inr (Or.inr (Or.inr (Or.inr (Or.inr
          (Or.inr (Or.inr ⟨a, i, c, hm, Or.inr ⟨rfl, rfl⟩⟩)))))))))))
      · intro w
        simp only [mem_seqWrites ht, mem_analog, mem_base, mem_readout, mem_out, hin, reduceCtorEq, false_and,
          and_false, exists_false, false_or, or_false, SeqParam.readCount.injEq, ne_eq, not_false_eq_true]
        rintro ⟨a', i', c', h1, rfl, rfl⟩
        rw [(hu i' c' h1).2]
  · intro hq
    refine key (by simp) ?_ ?_
    · simp [mem_seqWrites ht, hq]
    · intro w
      simp [mem_seqWrites ht, mem_analog, mem_base, mem_readout, mem_out, hin]
  · intro hq
    refine key (by simp) ?_ ?_
    · simp [mem_seqWrites ht, hq]
    · intro w
      simp [mem_seqWrites ht, mem_analog, mem_base, mem_readout, mem_out, hin]
  · intro hq f hf
    refine key (by simp) ?_ ?_
    · simp [mem_seqWrites ht, mem_analog, hq, hf, optNum]
    · intro w
      simp [mem_seqWrites ht, mem_analog, mem_base, mem_readout, mem_out, hin, hf, optNum]
  · constructor
    · refine key (by simp) ?_ ?_
      · simp [mem_seqWrites ht, mem_analog, mem_base]
      · intro w
        simp [mem_seqWrites ht, mem_analog, mem_base, mem_readout, mem_out, hin]
    · refine key (by simp) ?_ ?_
      · simp [mem_seqWrites ht, mem_analog, mem_base]
      · intro w
        simp [mem_seqWrites ht, mem_analog, mem_base, mem_readout, mem_out, hin]
  · constructor
    · refine key (by simp) ?_ ?_
      · simp [mem_seqWrites ht, mem_analog, mem_base]
      · intro w
        simp [mem_seqWrites ht, mem_analog, mem_base, mem_readout, mem_out, hin]
    · refine key (by simp) ?_ ?_
      · simp [mem_seqWrites ht, mem_analog, mem_base]
      · intro w
        simp [mem_seqWrites ht, mem_analog, mem_base, mem_readout, mem_out, hin]
  · intro hq
    refine key (by simp) ?_ ?_
    · simp [mem_seqWrites ht, hq]
    · intro w
      simp [mem_seqWrites ht, mem_analog, mem_base, mem_readout, mem_out, hin]
  · intro hq
    refine ⟨fun x hx => ?_, fun x hx => ?_, fun x hx => ?_, fun x hx => ?_, fun x hx => ?_, fun x hx => ?_,
      fun x hx => ?_, fun x hx => ⟨?_, ?_⟩⟩
    all_goals
      refine key (by simp) ?_ ?_
      · simp [mem_seqWrites ht, mem_readout, hq, hx]
      · intro w
        simp [mem_seqWrites ht, mem_analog, mem_base, mem_readout, mem_out, hin, hx]

end Verif.Prepare
