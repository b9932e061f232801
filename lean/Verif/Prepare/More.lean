/-
C58: skipping parameters that have the right value makes no difference; timetag modules.
-/
import Verif.Prepare.Channels

set_option linter.unusedSimpArgs false
set_option linter.unusedVariables false

namespace Verif.Prepare

open Verif.Prepare.Spec
open Verif.Connect (Chan Mode Dir ModType)

variable {σ : Type} [DecidableEq σ]

/-! ### Forced setting -/

omit [DecidableEq σ] in
theorem foldlM_congr_inv {α β ε : Type} {f g : β → α → Except ε β} {P : β → Prop}
    (h : ∀ x e, P x → f x e = g x e) (hp : ∀ x e x', P x → g x e = .ok x' → P x') :
    ∀ (l : List α) (x : β), P x → l.foldlM f x = l.foldlM g x ∧ ∀ x', l.foldlM g x = .ok x' → P x'
  | [], x, hx => ⟨rfl, fun x' h' => by
      simp only [FoldM.nil, Except.ok.injEq] at h'
      exact h' ▸ hx⟩
  | e :: l, x, hx => by
    have h1 := h x e hx
    simp only [List.foldlM_cons, h1]
    cases hg : g x e with
    | error err => exact ⟨rfl, fun x' h' => by cases h'⟩
    | ok y => exact foldlM_congr_inv h hp l y (hp x e y hx hg)

theorem configure_force (force : Bool) (t : ModType) (x : Prep σ) (e : Nat × Analog σ) (hc : Coherent x.dev) :
    configure force t x e = configure true t x e := by
  unfold configure
  rw [setAll_force _ hc force]

theorem configure_keeps (t : ModType) (x : Prep σ) (e : Nat × Analog σ) (x' : Prep σ) (hc : Coherent x.dev)
    (h : configure true t x e = .ok x') : Coherent x'.dev := by
  obtain ⟨-, rfl⟩ := configure_ok.mp h
  exact (step_all true _ hc).coherent

theorem mixer_force (force : Bool) (run : Run σ) (x : Prep σ) (e : Nat × Analog σ) (hc : Coherent x.dev) :
    mixer force run x e = mixer true run x e := by
  unfold mixer
  rw [setAll_force _ hc force]

theorem mixer_keeps {run : Run σ} (hr : CalOk run) (x : Prep σ) (e : Nat × Analog σ) (x' : Prep σ)
    (hc : Coherent x.dev) (h : mixer true run x e = .ok x') : Coherent x'.dev := by
  unfold mixer at h
  split at h
  · split at h
    · simp at h
    · rw [Except.ok.injEq] at h; subst h; exact (step_cal hr hc _).coherent
    · rw [Except.ok.injEq] at h; subst h; exact (step_all true _ hc).coherent
  · rw [Except.ok.injEq] at h; subst h; exact (step_all true _ hc).coherent

theorem qcmStep_force (force : Bool) (run : Run σ) (t : ModType) (x : Prep σ) (e : Nat × Analog σ)
    (hc : Coherent x.dev) : qcmStep force run t x e = qcmStep true run t x e := by
  unfold qcmStep
  rw [configure_force force t x e hc]
  cases h : configure true t x e with
  | error err => rfl
  | ok y => exact mixer_force force run y e (configure_keeps t x e y hc h)

theorem qcmStep_keeps {run : Run σ} (hr : CalOk run) (t : ModType) (x : Prep σ) (e : Nat × Analog σ) (x' : Prep σ)
    (hc : Coherent x.dev) (h : qcmStep true run t x e = .ok x') : Coherent x'.dev := by
  unfold qcmStep at h
  cases hy : configure true t x e with
  | error err => rw [hy] at h; simp at h
  | ok y =>
    rw [hy] at h
    exact mixer_keeps hr y e x' (configure_keeps t x e y hc hy) h

theorem lo_force (force : Bool) (m : Settings.ModSettings) : ∀ (l : List (Nat × String))
    (x : Dev σ × List (Nat × Bool)), Coherent x.1 →
    l.foldl (loStep force m) x = l.foldl (loStep true m) x
  | [], x, hc => rfl
  | e :: l, x, hc => by
    simp only [List.foldl_cons]
    have h1 : loStep force m x e = loStep true m x e := by
      unfold loStep
      cases Settings.getOpt m.los e.1 with
      | none => rfl
      | some f => simp only; rw [setParam_put hc, setParam_put hc]
    rw [h1]
    refine lo_force force m l _ ?_
    unfold loStep
    split
    · exact hc
    · exact (step_param hc true _).coherent

theorem loSettings_force (force : Bool) (run : Run σ) (t : ModType) (p : Program σ) (x : Prep σ)
    (hc : Coherent x.dev) : loSettings force run t p x = loSettings true run t p x := by
  unfold loSettings
  cases p.settings with
  | none => rfl
  | some mf =>
    obtain ⟨m, f⟩ := mf
    simp only
    rw [lo_force force m (loParams t) (x.dev, []) hc]

/-- **C58.** Parameters that the driver knows to have the right value are not set again; that makes no
difference for the module. -/
theorem prepare_lazy {run : Run σ} (hr : CalOk run) (t : ModType) (p : Program σ) {d : Dev σ} (hc : Coherent d) :
    prepare false run t p d = prepare true run t p d := by
  have hq : prepareQcm false run t p d = prepareQcm true run t p d := by
    unfold prepareQcm
    rw [setAll_force _ hc false]
    obtain ⟨h1, h2⟩ := foldlM_congr_inv (P := fun x : Prep σ => Coherent x.dev)
      (fun x e hx => qcmStep_force false run t x e hx)
      (fun x e x' hx h => qcmStep_keeps hr t x e x' hx h) p.seqs
      ⟨setAll true (globalWrites t p ++ syncOff t) d, []⟩ (step_all true _ hc).coherent
    rw [h1]
    split
    · rfl
    · rename_i x hx
      rw [loSettings_force false run t p x (h2 x hx)]
  have hr' : prepareQrm false run t p d = prepareQrm true run t p d := by
    unfold prepareQrm
    rw [setAll_force _ hc false]
    obtain ⟨h1, h2⟩ := foldlM_congr_inv (P := fun x : Prep σ => Coherent x.dev)
      (fun x e hx => configure_force false t x e hx)
      (fun x e x' hx h => configure_keeps t x e x' hx h) p.seqs
      ⟨setAll true (syncOff t) d, []⟩ (step_all true _ hc).coherent
    rw [h1]
    split
    · rfl
    · rename_i x hx
      split
      · rfl
      · rename_i o ho
        have hx' := h2 x hx
        simp only
        rw [setAll_force _ hx' false]
        have hy : Coherent (setAll true (globalWrites t p ++ scopeWrites t) x.dev) := (step_all true _ hx').coherent
        by_cases hqrc : t = .qrc
        · rw [if_pos hqrc, if_pos hqrc]
          rw [loSettings_force false run t p _ hy]
          rw [setAll_force _ ?_ false]
          unfold loSettings
          split
          · exact hy
          · rename_i m f hs
            simp only
            have : ∀ (l : List (Nat × String)) (z : Dev σ × List (Nat × Bool)), Coherent z.1 →
                Coherent (l.foldl (loStep true m) z).1 := by
              intro l
              induction l with
              | nil => exact fun z hz => hz
              | cons e l ih =>
                intro z hz
                rw [List.foldl_cons]
                refine ih _ ?_
                unfold loStep
                split
                · exact hz
                · exact (step_param hz true _).coherent
            rw [if_pos hqrc]
            exact this _ _ hy
        · rw [if_neg hqrc, if_neg hqrc]
          obtain ⟨m1, m2⟩ := foldlM_congr_inv (P := fun x : Prep σ => Coherent x.dev)
            (fun x e hx => mixer_force false run x e hx)
            (fun x e x' hx h => mixer_keeps hr x e x' hx h) p.seqs
            { x with dev := setAll true (globalWrites t p ++ scopeWrites t) x.dev } hy
          rw [m1]
          split
          · rfl
          · rename_i z hz
            have hz' := m2 z hz
            rw [setAll_force _ hz' false, loSettings_force false run t p _ (step_all true _ hz').coherent]
  cases t <;> first | exact hq | exact hr'

/-! ### Timetag modules -/

omit [DecidableEq σ] in
/-- The settings of a channel. -/
theorem mem_io {k c : Nat} {s : Timetag σ} {q : IoParam} {v : Val σ} :
    (.io c q, v) ∈ ioWrites k s ↔ (c ∈ s.ins ∧ q = .mode ∧ v = .str "input") ∨
      (c ∈ s.outs ∧ q = .mode ∧ v = .str "output") ∨
      (c = k ∧ q = .analogThreshold ∧ ∃ x, s.analogThreshold = some x ∧ v = .num x) ∨
      (c = k ∧ q = .forward ∧ v = .bool false) ∨ (c = k ∧ q = .onInvalid ∧ v = .str "record_0") ∨
      (.io c q, v) ∈ traceWrites k s.acq.trace ∨
      (c = k ∧ q = .timeSource ∧ ∃ x, s.acq.source = some x ∧ v = .str (sourceName x)) ∨
      (c = k ∧ q = .timeRef ∧ ∃ x, s.acq.ref = some x ∧ v = .str (refName x s.acq.refChannel)) ∨
      (c = k ∧ q = .addrHigh ∧ v = .nat s.acq.aHigh) ∨ (c = k ∧ q = .addrMid ∧ v = .nat s.acq.aMid) ∨
      (c = k ∧ q = .addrLow ∧ v = .nat s.acq.aLow) ∨ (c = k ∧ q = .addrInvalid ∧ v = .nat s.acq.aInvalid) ∨
      (c = k ∧ q = .trigEn ∧ ∃ x, s.acq.trigEn = some x ∧ v = .bool x) := by
  simp only [ioWrites, List.mem_append, List.mem_map, mem_opt, List.mem_cons, List.not_mem_nil, or_false,
    Prod.mk.injEq, Param.io.injEq, or_assoc, and_assoc]
  constructor
  all_goals
    rintro (h | h | h)
    · first
      | (obtain ⟨c', h1, h2, h3, h4⟩ := h; exact Or.inl ⟨h2 ▸ h1, h3.symm, h4.symm⟩)
      | (obtain ⟨h1, h2, h3⟩ := h; exact Or.inl ⟨c, h1, rfl, h2.symm, h3.symm⟩)
    · first
      | (obtain ⟨c', h1, h2, h3, h4⟩ := h; exact Or.inr (Or.inl ⟨h2 ▸ h1, h3.symm, h4.symm⟩))
      | (obtain ⟨h1, h2, h3⟩ := h; exact Or.inr (Or.inl ⟨c, h1, rfl, h2.symm, h3.symm⟩))
    · exact Or.inr (Or.inr h)

omit [DecidableEq σ] in
theorem mem_traceWrites {k c : Nat} {t : Option AcqSet.TraceType} {q : IoParam} {v : Val σ} :
    (.io c q, v) ∈ traceWrites k t ↔ c = k ∧
      ((t ≠ none ∧ q = .scopeTrigger ∧ v = .str "sequencer") ∨
       (t = some .scope ∧ q = .scopeMode ∧ v = .str "scope") ∨
       (t = some .timetag ∧ q = .scopeMode ∧ v = .str "timetags-windowed")) := by
  cases t with
  | none => simp [traceWrites]
  | some x => cases x <;> simp [traceWrites, and_or_left, and_assoc]

omit [DecidableEq σ] in
theorem ioWrites_kind (k : Nat) (s : Timetag σ) : Kinds [1] (ioWrites k s) := by
  intro e he
  simp only [ioWrites, List.mem_append, List.mem_map, List.mem_cons, List.not_mem_nil, or_false] at he
  have hopt : ∀ {α : Type} {p : Param} {f : α → Val σ} {a : Option α}, kind p = 1 → e ∈ opt p f a →
      kind e.1 ∈ [1] := by
    intro α p f a hp h
    have := (mem_opt (q := e.1) (v := e.2)).mp h
    rw [this.1]; simp [hp]
  rcases he with ((((((((⟨c, -, rfl⟩ | ⟨c, -, rfl⟩) | h) | h) | h) | h) | h) | h)) | h
  · simp [kind]
  · simp [kind]
  · exact hopt rfl h
  · rcases h with rfl | rfl <;> simp [kind]
  · cases hs : s.acq.trace with
    | none => simp [traceWrites, hs] at h
    | some x => cases x <;> (simp [traceWrites, hs] at h; rcases h with rfl | rfl <;> simp [kind])
  · exact hopt rfl h
  · exact hopt rfl h
  · rcases h with rfl | rfl | rfl | rfl <;> simp [kind]
  · exact hopt rfl h

/-- The settings of a sequencer of a QTM. -/
def qtmWrites (e : Nat × Timetag σ) : List (Param × Val σ) :=
  baseWrites e.1 e.2.syncEn e.2.sequence e.2.reads ++ ioWrites e.1 e.2

theorem qtm_loop (force : Bool) : ∀ (seqs : List (Nat × Timetag σ)) (d : Dev σ), Coherent d →
    (∀ d', seqs.foldlM (qtmStep force) d = .ok d' → Step d d' (seqs.flatMap qtmWrites) []) ∧
    ((∃ d', seqs.foldlM (qtmStep force) d = .ok d') ↔ ∀ e ∈ seqs, e.1 < 8)
  | [], d, hc => ⟨fun d' h => by
      simp only [FoldM.nil, Except.ok.injEq] at h
      subst h; exact Step.refl hc, by simp [FoldM.nil, pure, Except.pure]⟩
  | e :: seqs, d, hc => by
    have h1 := step_all force (qtmWrites e) hc
    obtain ⟨ih1, ih2⟩ := qtm_loop force seqs _ h1.coherent
    have hstep : ∀ d1, qtmStep force d e = .ok d1 ↔ e.1 < 8 ∧ d1 = setAll force (qtmWrites e) d := by
      intro d1
      unfold qtmStep
      have : numSeqs .qtm = 8 := rfl
      rw [this]
      by_cases he : e.1 < 8
      · rw [if_pos he]; simp [he, qtmWrites, eq_comm]
      · rw [if_neg he]; simp [he]
    constructor
    · intro d' h
      obtain ⟨d1, ha, hb⟩ := (FoldM.ok_cons ..).mp h
      obtain ⟨-, rfl⟩ := (hstep d1).mp ha
      simpa [List.flatMap_cons] using h1.trans (ih1 d' hb)
    · simp only [List.forall_mem_cons]
      constructor
      · rintro ⟨d', h⟩
        obtain ⟨d1, ha, hb⟩ := (FoldM.ok_cons ..).mp h
        obtain ⟨h8, rfl⟩ := (hstep d1).mp ha
        exact ⟨h8, ih2.mp ⟨d', hb⟩⟩
      · rintro ⟨h8, hs⟩
        obtain ⟨d', hb⟩ := ih2.mpr hs
        exact ⟨d', (FoldM.ok_cons ..).mpr ⟨_, (hstep _).mpr ⟨h8, rfl⟩, hb⟩⟩

/-- A program for a QTM is accepted exactly if its sequencers exist. -/
theorem prepareQtm_accepts (force : Bool) (seqs : List (Nat × Timetag σ)) {d : Dev σ} (hc : Coherent d) :
    (∃ d', prepareQtm force seqs d = .ok d') ↔ ∀ e ∈ seqs, e.1 < sequencers .qtm :=
  (qtm_loop force seqs _ (step_all force (syncOff .qtm) hc).coherent).2

/-- Sequencers of a QTM are wired to the channel with their number (`TimetagSequencerSettings`,
`_validate_io_indices`). -/
def OwnChannel (seqs : List (Nat × Timetag σ)) : Prop :=
  ∀ e ∈ seqs, (e.2.ins = [e.1] ∧ e.2.outs = []) ∨ (e.2.ins = [] ∧ e.2.outs = [e.1])

theorem qtm_step {force : Bool} {seqs : List (Nat × Timetag σ)} {d d' : Dev σ} (hc : Coherent d)
    (h : prepareQtm force seqs d = .ok d') : Step d d' (syncOff .qtm ++ seqs.flatMap qtmWrites) [] := by
  have h1 := step_all force (syncOff (σ := σ) .qtm) hc
  exact h1.trans ((qtm_loop force seqs _ h1.coherent).1 d' h)

/-- **C58.** After `prepare`, a sequencer of a QTM in the program has the settings that were compiled for
it. -/
theorem prepare_timetag {force : Bool} {seqs : List (Nat × Timetag σ)} {d d' : Dev σ} (hc : Coherent d)
    (hn : (seqs.map Prod.fst).Nodup) (hown : OwnChannel seqs) (h : prepareQtm force seqs d = .ok d') {k : Nat}
    {s : Timetag σ} (hs : (k, s) ∈ seqs) (hreads : (s.reads.map Prod.fst).Nodup) : IoChannel d'.hw k s := by
  have hst := qtm_step hc h
  have huniq : ∀ s', (k, s') ∈ seqs → s' = s := by
    intro s' hs'
    have h1 := Dict.get?_of_mem hn hs
    have h2 := Dict.get?_of_mem hn hs'
    rw [h1] at h2; exact (Option.some.inj h2).symm
  have hk8 : k < 8 := (prepareQtm_accepts force seqs hc).mp ⟨d', h⟩ (k, s) hs
  have hio : ∀ {q : IoParam} {v : Val σ}, (.io k q, v) ∈ ioWrites k s →
      (∀ w, (.io k q, w) ∈ ioWrites k s → w = v) → d'.hw (.io k q) = v := by
    intro q v hm hu
    rw [hst.hw _ (by simp), last_append, last_eq (v := v)]
    · rfl
    · exact List.mem_flatMap.mpr ⟨(k, s), hs, List.mem_append_right _ hm⟩
    · intro w hw
      obtain ⟨e, he, hw⟩ := List.mem_flatMap.mp hw
      rcases List.mem_append.mp hw with hw | hw
      · obtain ⟨q', hq'⟩ := baseWrites_seq hw; cases hq'
      · have hek : e.1 = k := by
          rw [mem_io, mem_traceWrites] at hw
          rcases hown e he with ⟨h1, h2⟩ | ⟨h1, h2⟩ <;> rw [h1, h2] at hw <;>
            simp only [List.mem_cons, List.not_mem_nil, or_false, false_and, false_or, ] at hw <;> tauto
        have : e = (k, s) := by
          obtain ⟨k', s'⟩ := e
          simp only at hek; subst hek
          rw [huniq s' he]
        rw [this] at hw
        exact hu w hw
  have hseq : ∀ {q : SeqParam} {v : Val σ}, (.seq k q, v) ∈ baseWrites k s.syncEn s.sequence s.reads →
      (∀ w, (.seq k q, w) ∈ baseWrites k s.syncEn s.sequence s.reads → w = v) → d'.hw (.seq k q) = v := by
    intro q v hm hu
    rw [hst.hw _ (by simp), last_append, last_eq (v := v)]
    · rfl
    · exact List.mem_flatMap.mpr ⟨(k, s), hs, List.mem_append_left _ hm⟩
    · intro w hw
      obtain ⟨e, he, hw⟩ := List.mem_flatMap.mp hw
      rcases List.mem_append.mp hw with hw | hw
      · obtain ⟨q', hq'⟩ := baseWrites_seq hw
        rw [Param.seq.injEq] at hq'
        have : e = (k, s) := by
          obtain ⟨k', s'⟩ := e
          have := hq'.1; simp only at this; subst this
          rw [huniq s' he]
        rw [this] at hw
        exact hu w hw
      · have := ioWrites_kind _ _ _ hw
        simp [kind] at this
  have htr : ∀ {q : IoParam} {w : Val σ}, q ≠ .scopeTrigger → q ≠ .scopeMode →
      (Param.io k q, w) ∉ traceWrites k s.acq.trace := by
    intro q w h1 h2 hm
    rw [mem_traceWrites] at hm
    rcases hm with ⟨-, h | h | h⟩
    · exact h1 h.2.1
    · exact h2 h.2.1
    · exact h2 h.2.1
  constructor
  · exact hseq (by simp [mem_base]) (by intro w; simp [mem_base])
  · exact hseq (by simp [mem_base]) (by intro w; simp [mem_base])
  · intro a i c hm
    have hu : ∀ i' c', (a, (i', c')) ∈ s.reads → i' = i ∧ c' = c := by
      intro i' c' hm'
      have h1 := Dict.get?_of_mem hreads hm
      have h2 := Dict.get?_of_mem hreads hm'
      rw [h1] at h2
      simp only [Option.some.injEq, Prod.mk.injEq] at h2
      exact ⟨h2.1.symm, h2.2.symm⟩
    constructor
    · refine hseq (mem_base.mpr (Or.inr (Or.inr ⟨a, i, c, hm, Or.inl ⟨rfl, rfl⟩⟩))) ?_
      intro w
      simp only [mem_base, reduceCtorEq, false_and, false_or, or_false, SeqParam.readInvert.injEq]
      rintro ⟨a', i', c', h1, rfl, rfl⟩
      rw [(hu i' c' h1).1]
    · refine hseq (mem_base.mpr (Or.inr (Or.inr ⟨a, i, c, hm, Or.inr ⟨rfl, rfl⟩⟩))) ?_
      intro w
      simp only [mem_base, reduceCtorEq, false_and, false_or, or_false, SeqParam.readCount.injEq]
      rintro ⟨a', i', c', h1, rfl, rfl⟩
      rw [(hu i' c' h1).2]
  · intro hi
    have ho : s.outs = [] := by
      rcases hown (k, s) hs with h | h
      · exact h.2
      · have := h.1; rw [show (k, s).2.ins = s.ins from rfl, hi] at this; simp at this
    exact hio (by simp [mem_io, hi]) (by intro w; simp [mem_io, hi, ho, htr])
  · intro ho
    have hi : s.ins = [] := by
      rcases hown (k, s) hs with h | h
      · have := h.2; rw [show (k, s).2.outs = s.outs from rfl, ho] at this; simp at this
      · exact h.1
    exact hio (by simp [mem_io, ho]) (by intro w; simp [mem_io, hi, ho, htr])
  · intro x hx
    exact hio (by simp [mem_io, hx]) (by intro w; simp [mem_io, hx, htr])
  · exact ⟨hio (by simp [mem_io]) (by intro w; simp [mem_io, htr]),
      hio (by simp [mem_io]) (by intro w; simp [mem_io, htr]),
      hio (by simp [mem_io]) (by intro w; simp [mem_io, htr]),
      hio (by simp [mem_io]) (by intro w; simp [mem_io, htr])⟩
  · intro x hx
    exact hio (by simp [mem_io, hx]) (by intro w; simp [mem_io, hx, htr])
  · intro hx
    exact ⟨hio (by simp [mem_io, mem_traceWrites, hx]) (by intro w; simp [mem_io, mem_traceWrites, hx]),
      hio (by simp [mem_io, mem_traceWrites, hx]) (by intro w; simp [mem_io, mem_traceWrites, hx])⟩
  · intro hx
    exact ⟨hio (by simp [mem_io, mem_traceWrites, hx]) (by intro w; simp [mem_io, mem_traceWrites, hx]),
      hio (by simp [mem_io, mem_traceWrites, hx]) (by intro w; simp [mem_io, mem_traceWrites, hx])⟩
  · refine ⟨fun hx => ?_, fun hx => ?_, fun hx => ?_⟩ <;>
      exact hio (by simp [mem_io, hx, sourceName]) (by intro w; simp [mem_io, hx, htr, sourceName])
  · refine ⟨fun hx => ?_, fun hx => ?_, fun hx => ?_, fun hx => ?_, fun hx c hcc => ?_⟩
    · exact hio (by simp [mem_io, hx, refName]) (by intro w; simp [mem_io, hx, htr, refName])
    · exact hio (by simp [mem_io, hx, refName]) (by intro w; simp [mem_io, hx, htr, refName])
    · exact hio (by simp [mem_io, hx, refName]) (by intro w; simp [mem_io, hx, htr, refName])
    · exact hio (by simp [mem_io, hx, refName]) (by intro w; simp [mem_io, hx, htr, refName])
    · exact hio (by simp [mem_io, hx, refName, hcc]) (by intro w; simp [mem_io, hx, htr, refName, hcc])

/-- **C58.** A sequencer of a QTM that is not in the program does not synchronise; its channel is left
alone. -/
theorem timetag_unused {force : Bool} {seqs : List (Nat × Timetag σ)} {d d' : Dev σ} (hc : Coherent d)
    (hown : OwnChannel seqs) (h : prepareQtm force seqs d = .ok d') {k : Nat}
    (hk : ∀ s, (k, s) ∉ seqs) :
    (k < sequencers .qtm → d'.hw (.seq k .sync) = .bool false) ∧
    (∀ q, q ≠ .sync → d'.hw (.seq k q) = d.hw (.seq k q)) ∧
    ∀ q, d'.hw (.io k q) = d.hw (.io k q) := by
  have hst := qtm_step hc h
  have hnone : ∀ q, last (seqs.flatMap qtmWrites) (.seq k q) = none := by
    intro q
    rw [last_none]
    intro v hv
    obtain ⟨e, he, hw⟩ := List.mem_flatMap.mp hv
    rcases List.mem_append.mp hw with hw | hw
    · obtain ⟨q', hq'⟩ := baseWrites_seq hw
      rw [Param.seq.injEq] at hq'
      exact hk e.2 (by rw [hq'.1]; exact he)
    · have := ioWrites_kind _ _ _ hw
      simp [kind] at this
  refine ⟨fun hlt => ?_, fun q hq => ?_, fun q => ?_⟩
  · rw [hst.hw _ (by simp), last_append, hnone, last_syncOff, if_pos ⟨rfl, hlt⟩]; rfl
  · rw [hst.hw _ (by simp), last_append, hnone, last_syncOff, if_neg (fun h => hq h.1)]; rfl
  · rw [hst.hw _ (by simp), last_none.mpr]
    · rfl
    · intro v hv
      rcases List.mem_append.mp hv with hv | hv
      · have := kinds_syncOff _ _ hv; simp [kind] at this
      · obtain ⟨e, he, hw⟩ := List.mem_flatMap.mp hv
        rcases List.mem_append.mp hw with hw | hw
        · obtain ⟨q', hq'⟩ := baseWrites_seq hw; cases hq'
        · have hek : e.1 = k := by
            rw [mem_io, mem_traceWrites] at hw
            rcases hown e he with ⟨h1, h2⟩ | ⟨h1, h2⟩ <;> rw [h1, h2] at hw <;>
              simp only [List.mem_cons, List.not_mem_nil, or_false, false_and, false_or, ] at hw <;> tauto
          exact hk e.2 (by rw [← hek]; exact he)

end Verif.Prepare
