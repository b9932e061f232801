/-
C58: preparing a module gives its parameters the values of a list of settings and runs calibrations.
-/
import Verif.Prepare.Lemmas

set_option linter.unusedSimpArgs false
set_option linter.unusedVariables false

namespace Verif.Prepare

open Verif.Prepare.Spec
open Verif.Connect (Chan Mode Dir ModType)

variable {σ : Type} [DecidableEq σ]

/-! ### Parameters of sequencers -/

omit [DecidableEq σ] in
theorem mem_opt {α : Type} {p q : Param} {f : α → Val σ} {a : Option α} {v : Val σ} :
    (q, v) ∈ opt p f a ↔ q = p ∧ ∃ x, a = some x ∧ v = f x := by
  cases a <;> simp [opt]

omit [DecidableEq σ] in
theorem outWrites_seq {t : ModType} {k : Nat} {s : Analog σ} {p : Param} {v : Val σ}
    (h : (p, v) ∈ outWrites t k s) : ∃ q, p = .seq k q := by
  simp only [outWrites, List.mem_map, Prod.mk.injEq] at h
  obtain ⟨i, -, rfl, -⟩ := h
  exact ⟨_, rfl⟩

omit [DecidableEq σ] in
theorem inWrites_seq {t : ModType} {k : Nat} {s : Analog σ} {p : Param} {v : Val σ}
    (h : (p, v) ∈ inWrites t k s) : ∃ q, p = .seq k q := by
  cases t <;> simp only [inWrites, List.mem_cons, List.not_mem_nil, or_false, Prod.mk.injEq] at h
  · rcases h with ⟨rfl, -⟩ | ⟨rfl, -⟩ <;> exact ⟨_, rfl⟩
  · exact ⟨_, h.1⟩
  · exact ⟨_, h.1⟩

omit [DecidableEq σ] in
theorem baseWrites_seq {k : Nat} {y : Bool} {z : σ} {r : List (Nat × (Bool × Nat))} {p : Param} {v : Val σ}
    (h : (p, v) ∈ baseWrites k y z r) : ∃ q, p = .seq k q := by
  simp only [baseWrites, List.mem_append, List.mem_cons, List.not_mem_nil, or_false, Prod.mk.injEq,
    List.mem_flatMap] at h
  rcases h with (⟨rfl, -⟩ | ⟨rfl, -⟩) | ⟨a, -, ⟨rfl, -⟩ | ⟨rfl, -⟩⟩ <;> exact ⟨_, rfl⟩

omit [DecidableEq σ] in
theorem analogWrites_seq {t : ModType} {k : Nat} {s : Analog σ} {p : Param} {v : Val σ}
    (h : (p, v) ∈ analogWrites t k s) : ∃ q, p = .seq k q := by
  simp only [analogWrites, List.mem_append, List.mem_cons, List.not_mem_nil, or_false, Prod.mk.injEq] at h
  rcases h with (((h | h) | h) | h) | h
  · split at h
    · simp only [List.mem_cons, List.not_mem_nil, or_false, Prod.mk.injEq] at h; exact ⟨_, h.1⟩
    · simp at h
  · rcases h with ⟨rfl, -⟩ | ⟨rfl, -⟩ | ⟨rfl, -⟩ | ⟨rfl, -⟩ <;> exact ⟨_, rfl⟩
  · exact outWrites_seq h
  · exact inWrites_seq h
  · exact baseWrites_seq h

omit [DecidableEq σ] in
theorem mem_trig {k : Nat} {i : Bool} {b : Option Bool} {q : Param} {v : Val σ} :
    (q, v) ∈ trigWrites k i b ↔ (q = .seq k .trigEn ∧ ∃ x, b = some x ∧ v = .bool x) ∨
      (q = .seq k .trigInvert ∧ v = .bool i ∧ ∃ x, b = some x) := by
  cases b <;> simp [trigWrites]

omit [DecidableEq σ] in
theorem readoutWrites_seq {k : Nat} {s : Analog σ} {p : Param} {v : Val σ}
    (h : (p, v) ∈ readoutWrites k s) : ∃ q, p = .seq k q := by
  simp only [readoutWrites, List.mem_append, mem_opt, mem_trig] at h
  rcases h with ((((((⟨rfl, -⟩ | ⟨rfl, -⟩) | ⟨rfl, -⟩) | ⟨rfl, -⟩) | ⟨rfl, -⟩) | ⟨rfl, -⟩) | ⟨rfl, -⟩) |
    (⟨rfl, -⟩ | ⟨rfl, -⟩) <;> exact ⟨_, rfl⟩

omit [DecidableEq σ] in
theorem seqWrites_seq {t : ModType} {k : Nat} {s : Analog σ} {p : Param} {v : Val σ}
    (h : (p, v) ∈ seqWrites t k s) : ∃ q, p = .seq k q := by
  cases t <;> simp only [seqWrites, List.mem_append, List.mem_cons, List.not_mem_nil, or_false,
    Prod.mk.injEq] at h
  · rcases h with ⟨rfl, -⟩ | h
    · exact ⟨_, rfl⟩
    · exact analogWrites_seq h
  · rcases h with (⟨rfl, -⟩ | ⟨rfl, -⟩ | h) | h
    · exact ⟨_, rfl⟩
    · exact ⟨_, rfl⟩
    · exact analogWrites_seq h
    · exact readoutWrites_seq h
  · rcases h with (⟨rfl, -⟩ | h) | h
    · exact ⟨_, rfl⟩
    · exact analogWrites_seq h
    · exact ⟨_, h.1⟩
  · rcases h with ((⟨rfl, -⟩ | ⟨rfl, -⟩ | h) | h) | h
    · exact ⟨_, rfl⟩
    · exact ⟨_, rfl⟩
    · exact analogWrites_seq h
    · exact readoutWrites_seq h
    · exact ⟨_, h.1⟩
  · rcases h with (h | h) | h
    · exact analogWrites_seq h
    · exact readoutWrites_seq h
    · exact ⟨_, h.1⟩

omit [DecidableEq σ] in
theorem mixerWrites_seq {k : Nat} {s : Analog σ} {p : Param} {v : Val σ}
    (h : (p, v) ∈ mixerWrites k s) : p = .seq k .phase ∨ p = .seq k .ratio := by
  simp only [mixerWrites, List.mem_append, mem_opt] at h
  rcases h with ⟨rfl, -⟩ | ⟨rfl, -⟩ <;> simp

/-! ### The loops -/

/-- The frequency is not known to be that of the settings. -/
def ncoChanged (cache : Param → Option (Val σ)) (e : Nat × Analog σ) : Bool :=
  e.2.ncoEn && decide (cache (.seq e.1 .ncoFreq) ≠ some (optNum e.2.freq))

/-- The sideband is calibrated. -/
def calNeeded (cache : Param → Option (Val σ)) (e : Nat × Analog σ) : Bool :=
  e.2.autoSideband && ncoChanged cache e

def mixWrites (cache : Param → Option (Val σ)) (e : Nat × Analog σ) : List (Param × Val σ) :=
  if calNeeded cache e then [] else mixerWrites e.1 e.2
def mixCals (cache : Param → Option (Val σ)) (e : Nat × Analog σ) : List Cal :=
  if calNeeded cache e then [.sideband e.1] else []

/-- Sequencers that exist, and with NCO on a QRC. -/
def Valid (t : ModType) (seqs : List (Nat × Analog σ)) : Prop :=
  ∀ e ∈ seqs, e.1 < numSeqs t ∧ (t = .qrc → e.2.ncoEn = true)

theorem configure_ok {force : Bool} {t : ModType} {x x' : Prep σ} {e : Nat × Analog σ} :
    configure force t x e = .ok x' ↔ (e.1 < numSeqs t ∧ (t = .qrc → e.2.ncoEn = true)) ∧
      x' = ⟨setAll force (seqWrites t e.1 e.2) x.dev, Dict.set x.changed e.1 (ncoChanged x.dev.cache e)⟩ := by
  unfold configure ncoChanged
  by_cases h1 : e.1 < numSeqs t
  · simp only [h1, if_true, true_and]
    by_cases h2 : t = .qrc ∧ e.2.ncoEn = false
    · rw [if_pos h2]
      simp only [reduceCtorEq, false_iff, not_and]
      intro h; have := h h2.1; rw [h2.2] at this; simp at this
    · rw [if_neg h2]
      have : t = .qrc → e.2.ncoEn = true := fun ht => by
        cases hn : e.2.ncoEn with
        | true => rfl
        | false => exact absurd ⟨ht, hn⟩ h2
      rw [Except.ok.injEq]
      exact ⟨fun h => ⟨this, h.symm⟩, fun h => h.2.symm⟩
  · simp [h1]

/-- A step of the second part, if the change of the frequency is known. -/
theorem mixer_step {run : Run σ} (hr : CalOk run) {force : Bool} {x : Prep σ} {e : Nat × Analog σ}
    (hc : Coherent x.dev) {cache : Param → Option (Val σ)}
    (hx : Dict.get? x.changed e.1 = some (ncoChanged cache e)) :
    ∃ x', mixer force run x e = .ok x' ∧ x'.changed = x.changed ∧
      Step x.dev x'.dev (mixWrites cache e) (mixCals cache e) := by
  unfold mixer mixWrites mixCals calNeeded
  by_cases ha : e.2.autoSideband = true
  · rw [if_pos ha, hx]
    cases hn : ncoChanged cache e with
    | true => exact ⟨_, rfl, rfl, by simpa [ha] using step_cal hr hc _⟩
    | false => exact ⟨_, rfl, rfl, by simpa [ha] using step_all force (mixerWrites e.1 e.2) hc⟩
  · rw [if_neg ha]
    refine ⟨_, rfl, rfl, ?_⟩
    simp only [ha, Bool.false_and, Bool.false_eq_true, if_false]
    exact step_all force _ hc

theorem mixCals_mem {cache : Param → Option (Val σ)} {e : Nat × Analog σ} {c : Cal}
    (h : c ∈ mixCals cache e) : c = .sideband e.1 := by
  unfold mixCals at h; split at h
  · simpa using h
  · simp at h

theorem mixWrites_mem {cache : Param → Option (Val σ)} {e : Nat × Analog σ} {p : Param} {v : Val σ}
    (h : (p, v) ∈ mixWrites cache e) : p = .seq e.1 .phase ∨ p = .seq e.1 .ratio := by
  unfold mixWrites at h; split at h
  · simp at h
  · exact mixerWrites_seq h

/-- The loop over the sequencers of a QCM. -/
theorem qcm_loop {run : Run σ} (hr : CalOk run) (force : Bool) (t : ModType)
    (cache : Param → Option (Val σ)) : ∀ (seqs : List (Nat × Analog σ)) (x : Prep σ), Coherent x.dev →
    (seqs.map Prod.fst).Nodup → (∀ e ∈ seqs, x.dev.cache (.seq e.1 .ncoFreq) = cache (.seq e.1 .ncoFreq)) →
    (∀ x', seqs.foldlM (qcmStep force run t) x = .ok x' →
      Step x.dev x'.dev (seqs.flatMap fun e => seqWrites t e.1 e.2 ++ mixWrites cache e)
        (seqs.flatMap (mixCals cache)) ∧
      (∀ e ∈ seqs, Dict.get? x'.changed e.1 = some (ncoChanged cache e)) ∧
      (∀ k, k ∉ seqs.map Prod.fst → Dict.get? x'.changed k = Dict.get? x.changed k)) ∧
    ((∃ x', seqs.foldlM (qcmStep force run t) x = .ok x') ↔ Valid t seqs)
  | [], x, hc, hn, hk => by
    refine ⟨fun x' h => ?_, ⟨fun _ => by simp [Valid], fun _ => ⟨x, rfl⟩⟩⟩
    simp only [FoldM.nil, Except.ok.injEq] at h
    subst h
    exact ⟨Step.refl hc, by simp, by simp⟩
  | e :: seqs, x, hc, hn, hk => by
    simp only [List.map_cons, List.nodup_cons] at hn
    have hnc : ncoChanged x.dev.cache e = ncoChanged cache e := by
      unfold ncoChanged; rw [hk e (List.mem_cons_self ..)]
    have h1 := step_all force (seqWrites t e.1 e.2) hc
    obtain ⟨x2, hm, hch, h2⟩ := mixer_step (run := run) hr (force := force)
      (x := ⟨setAll force (seqWrites t e.1 e.2) x.dev, Dict.set x.changed e.1 (ncoChanged x.dev.cache e)⟩)
      (e := e) (cache := cache) h1.coherent (by rw [Dict.get?_set_self, hnc])
    have h12 := h1.trans h2
    simp only [List.nil_append] at h12
    have hk2 : ∀ e' ∈ seqs, x2.dev.cache (.seq e'.1 .ncoFreq) = cache (.seq e'.1 .ncoFreq) := by
      intro e' he'
      have hne : e'.1 ≠ e.1 := fun h => hn.1 (h ▸ List.mem_map_of_mem he')
      rw [h12.seqCache e'.1 .ncoFreq fun c hcm he => by
        rw [mixCals_mem hcm, Cal.sideband.injEq] at he; exact hne he.symm]
      have : last (seqWrites t e.1 e.2 ++ mixWrites cache e) (.seq e'.1 .ncoFreq) = none := by
        rw [last_none]
        intro v hv
        rcases List.mem_append.mp hv with hv | hv
        · obtain ⟨q, hq⟩ := seqWrites_seq hv; rw [Param.seq.injEq] at hq; exact hne hq.1
        · rcases mixWrites_mem hv with hq | hq <;> (rw [Param.seq.injEq] at hq; cases hq.2)
      rw [this, Option.none_or]
      exact hk e' (List.mem_cons_of_mem _ he')
    obtain ⟨ih1, ih2⟩ := qcm_loop hr force t cache seqs x2 h12.coherent hn.2 hk2
    have hstep : ∀ x1, qcmStep force run t x e = .ok x1 ↔
        (e.1 < numSeqs t ∧ (t = .qrc → e.2.ncoEn = true)) ∧ x1 = x2 := by
      intro x1
      unfold qcmStep
      cases hcf : configure force t x e with
      | error err =>
        simp only [reduceCtorEq, false_iff, not_and]
        intro hv
        have := (configure_ok (force := force) (t := t) (x := x) (e := e)).mpr ⟨hv, rfl⟩
        rw [hcf] at this; simp at this
      | ok xx =>
        obtain ⟨hv, rfl⟩ := configure_ok.mp hcf
        simp only [hm, Except.ok.injEq, hv, true_and]
        rw [eq_comm, and_iff_right (by exact hv.2)]
    refine ⟨fun x' h => ?_, ?_⟩
    · obtain ⟨x1, ha, hb⟩ := (FoldM.ok_cons ..).mp h
      obtain ⟨-, rfl⟩ := (hstep x1).mp ha
      obtain ⟨g1, g2, g3⟩ := ih1 x' hb
      refine ⟨?_, ?_, ?_⟩
      · simpa [List.flatMap_cons, List.append_assoc] using h12.trans g1
      · intro e' he'
        rcases List.mem_cons.mp he' with rfl | he'
        · rw [g3 _ hn.1, hch, Dict.get?_set_self, hnc]
        · exact g2 e' he'
      · intro k hk'
        simp only [List.map_cons, List.mem_cons, not_or] at hk'
        rw [g3 k hk'.2, hch, Dict.get?_set_ne _ _ hk'.1]
    · simp only [Valid, List.forall_mem_cons]
      constructor
      · rintro ⟨x', h⟩
        obtain ⟨x1, ha, hb⟩ := (FoldM.ok_cons ..).mp h
        obtain ⟨hv, rfl⟩ := (hstep x1).mp ha
        exact ⟨hv, ih2.mp ⟨x', hb⟩⟩
      · rintro ⟨hv, hs⟩
        obtain ⟨x', hb⟩ := ih2.mpr hs
        exact ⟨x', (FoldM.ok_cons ..).mpr ⟨x2, (hstep x2).mpr ⟨hv, rfl⟩, hb⟩⟩

/-- The first loop over the sequencers of a readout module. -/
theorem qrm_loop (force : Bool) (t : ModType)
    (cache : Param → Option (Val σ)) : ∀ (seqs : List (Nat × Analog σ)) (x : Prep σ), Coherent x.dev →
    (seqs.map Prod.fst).Nodup → (∀ e ∈ seqs, x.dev.cache (.seq e.1 .ncoFreq) = cache (.seq e.1 .ncoFreq)) →
    (∀ x', seqs.foldlM (configure force t) x = .ok x' →
      Step x.dev x'.dev (seqs.flatMap fun e => seqWrites t e.1 e.2) [] ∧
      (∀ e ∈ seqs, Dict.get? x'.changed e.1 = some (ncoChanged cache e)) ∧
      (∀ k, k ∉ seqs.map Prod.fst → Dict.get? x'.changed k = Dict.get? x.changed k)) ∧
    ((∃ x', seqs.foldlM (configure force t) x = .ok x') ↔ Valid t seqs)
  | [], x, hc, hn, hk => by
    refine ⟨fun x' h => ?_, ⟨fun _ => by simp [Valid], fun _ => ⟨x, rfl⟩⟩⟩
    simp only [FoldM.nil, Except.ok.injEq] at h
    subst h
    exact ⟨Step.refl hc, by simp, by simp⟩
  | e :: seqs, x, hc, hn, hk => by
    simp only [List.map_cons, List.nodup_cons] at hn
    have hnc : ncoChanged x.dev.cache e = ncoChanged cache e := by
      unfold ncoChanged; rw [hk e (List.mem_cons_self ..)]
    have h1 := step_all force (seqWrites t e.1 e.2) hc
    have hk2 : ∀ e' ∈ seqs, (setAll force (seqWrites t e.1 e.2) x.dev).cache (.seq e'.1 .ncoFreq) =
        cache (.seq e'.1 .ncoFreq) := by
      intro e' he'
      have hne : e'.1 ≠ e.1 := fun h => hn.1 (h ▸ List.mem_map_of_mem he')
      rw [h1.seqCache e'.1 .ncoFreq (by simp)]
      have : last (seqWrites t e.1 e.2) (.seq e'.1 .ncoFreq) = none := by
        rw [last_none]
        intro v hv
        obtain ⟨q, hq⟩ := seqWrites_seq hv; rw [Param.seq.injEq] at hq; exact hne hq.1
      rw [this, Option.none_or]
      exact hk e' (List.mem_cons_of_mem _ he')
    obtain ⟨ih1, ih2⟩ := qrm_loop force t cache seqs
      ⟨setAll force (seqWrites t e.1 e.2) x.dev, Dict.set x.changed e.1 (ncoChanged x.dev.cache e)⟩
      h1.coherent hn.2 hk2
    refine ⟨fun x' h => ?_, ?_⟩
    · obtain ⟨x1, ha, hb⟩ := (FoldM.ok_cons ..).mp h
      obtain ⟨-, rfl⟩ := configure_ok.mp ha
      obtain ⟨g1, g2, g3⟩ := ih1 x' hb
      refine ⟨?_, ?_, ?_⟩
      · simpa [List.flatMap_cons, List.append_assoc] using h1.trans g1
      · intro e' he'
        rcases List.mem_cons.mp he' with rfl | he'
        · rw [g3 _ hn.1]; simp only [Dict.get?_set_self, hnc]
        · exact g2 e' he'
      · intro k hk'
        simp only [List.map_cons, List.mem_cons, not_or] at hk'
        rw [g3 k hk'.2]; simp only [Dict.get?_set_ne _ _ hk'.1]
    · simp only [Valid, List.forall_mem_cons]
      constructor
      · rintro ⟨x', h⟩
        obtain ⟨x1, ha, hb⟩ := (FoldM.ok_cons ..).mp h
        obtain ⟨hv, rfl⟩ := configure_ok.mp ha
        exact ⟨hv, ih2.mp ⟨x', hb⟩⟩
      · rintro ⟨hv, hs⟩
        obtain ⟨x', hb⟩ := ih2.mpr hs
        exact ⟨x', (FoldM.ok_cons ..).mpr ⟨_, configure_ok.mpr ⟨hv, rfl⟩, hb⟩⟩

/-- The second loop. -/
theorem mixer_loop {run : Run σ} (hr : CalOk run) (force : Bool) (cache : Param → Option (Val σ)) :
    ∀ (seqs : List (Nat × Analog σ)) (x : Prep σ), Coherent x.dev →
    (∀ e ∈ seqs, Dict.get? x.changed e.1 = some (ncoChanged cache e)) →
    ∃ x', seqs.foldlM (mixer force run) x = .ok x' ∧ x'.changed = x.changed ∧
      Step x.dev x'.dev (seqs.flatMap (mixWrites cache)) (seqs.flatMap (mixCals cache))
  | [], x, hc, hk => ⟨x, rfl, rfl, Step.refl hc⟩
  | e :: seqs, x, hc, hk => by
    obtain ⟨x1, h1, hch, hs⟩ := mixer_step hr (force := force) hc (hk e (List.mem_cons_self ..))
    obtain ⟨x2, h2, hch2, hs2⟩ := mixer_loop hr force cache seqs x1 hs.coherent
      (fun e' he' => by rw [hch]; exact hk e' (List.mem_cons_of_mem _ he'))
    exact ⟨x2, (FoldM.ok_cons ..).mpr ⟨x1, h1, h2⟩, hch2.trans hch, by
      simpa [List.flatMap_cons] using hs.trans hs2⟩

/-! ### Local oscillators -/

/-- The frequencies of the LOs. -/
def loWrites (t : ModType) (m : Settings.ModSettings) : List (Param × Val σ) :=
  (loParams t).flatMap fun e => opt (.glob e.2) (fun f => .lit (.num f)) (Settings.getOpt m.los e.1)

/-- The frequencies of the LOs. -/
def loW (t : ModType) (p : Program σ) : List (Param × Val σ) :=
  match p.settings with
  | none => []
  | some (m, _) => loWrites t m

/-- The frequency of the LO is not known to be that of the settings. -/
def loChanged (cache : Param → Option (Val σ)) (m : Settings.ModSettings) (e : Nat × String) : Bool :=
  match Settings.getOpt m.los e.1 with
  | none => false
  | some f => decide (cache (.glob e.2) ≠ some (.lit (.num f)))

/-- The LO is calibrated. -/
def loCalNeeded (cache : Param → Option (Val σ)) (p : Program σ) (m : Settings.ModSettings)
    (e : Nat × String) : Bool :=
  match p.loCal e.1 with
  | .off => false
  | .loChange => loChanged cache m e
  | .loIntermChange => loChanged cache m e ||
      p.seqs.any fun x => decide (rfOut x.2 e.1 = "IQ") && ncoChanged cache x

def loCals (cache : Param → Option (Val σ)) (t : ModType) (p : Program σ) : List Cal :=
  match p.settings with
  | none => []
  | some (m, _) =>
    if t = .qrc then [] else ((loParams t).filter (loCalNeeded cache p m)).map fun e => .lo e.1

theorem lo_loop (force : Bool) (m : Settings.ModSettings) (cache : Param → Option (Val σ)) :
    ∀ (l : List (Nat × String)) (d : Dev σ) (acc : List (Nat × Bool)), Coherent d →
    (l.map Prod.snd).Nodup → (∀ e ∈ l, d.cache (.glob e.2) = cache (.glob e.2)) →
    ∃ d', l.foldl (loStep force m) (d, acc) = (d', acc ++ l.map fun e => (e.1, loChanged cache m e)) ∧
      Step d d' (l.flatMap fun e => opt (.glob e.2) (fun f => .lit (.num f)) (Settings.getOpt m.los e.1)) []
  | [], d, acc, hc, hn, hk => ⟨d, by simp, Step.refl hc⟩
  | e :: l, d, acc, hc, hn, hk => by
    simp only [List.map_cons, List.nodup_cons] at hn
    simp only [List.foldl_cons]
    have hce := hk e (List.mem_cons_self ..)
    cases hg : Settings.getOpt m.los e.1 with
    | none =>
      have h1 : loStep force m (d, acc) e = (d, acc ++ [(e.1, false)]) := by
        simp only [loStep, hg]
      rw [h1]
      obtain ⟨d', h2, h3⟩ := lo_loop force m cache l d (acc ++ [(e.1, false)]) hc hn.2
        (fun e' he' => hk e' (List.mem_cons_of_mem _ he'))
      refine ⟨d', ?_, ?_⟩
      · rw [h2]; simp [loChanged, hg]
      · simpa [hg, opt] using h3
    | some f =>
      have h1 : loStep force m (d, acc) e = (setParam force d (.glob e.2, .lit (.num f)),
          acc ++ [(e.1, loChanged cache m e)]) := by
        simp only [loStep, hg, loChanged, hce]
      rw [h1]
      have hs := step_param hc force (.glob e.2, .lit (.num f))
      obtain ⟨d', h2, h3⟩ := lo_loop force m cache l _ (acc ++ [(e.1, loChanged cache m e)]) hs.coherent hn.2
        (fun e' he' => by
          rw [hs.globCache e'.2 (by simp)]
          have : last [((.glob e.2 : Param), (.lit (.num f) : Val σ))] (.glob e'.2) = none := by
            rw [last_none]
            intro v hv
            simp only [List.mem_cons, List.not_mem_nil, or_false, Prod.mk.injEq, Param.glob.injEq] at hv
            exact hn.1 (hv.1 ▸ List.mem_map_of_mem he')
          rw [this, Option.none_or]
          exact hk e' (List.mem_cons_of_mem _ he'))
      refine ⟨d', ?_, ?_⟩
      · rw [h2]; simp
      · have h4 := hs.trans h3
        simpa [hg, opt] using h4

omit [DecidableEq σ] in
theorem lo_cal_loop {run : Run σ} (hr : CalOk run) (p : Program σ) (changed : List (Nat × Bool)) :
    ∀ (l : List (Nat × Bool)) (d : Dev σ), Coherent d →
    Step d (l.foldl (loCalStep run p changed) d) []
      ((l.filter fun e => loNeeds p changed e.1 e.2).map fun e => .lo e.1)
  | [], d, hc => Step.refl hc
  | e :: l, d, hc => by
    simp only [List.foldl_cons]
    have he : loCalStep run p changed d e =
      if loNeeds p changed e.1 e.2 then calibrate run (.lo e.1) d else d := rfl
    rw [he]
    by_cases hn : loNeeds p changed e.1 e.2 = true
    · rw [if_pos hn]
      have h1 := step_cal hr hc (.lo e.1)
      have h2 := lo_cal_loop hr p changed l _ h1.coherent
      simpa [List.filter_cons, hn] using h1.trans h2
    · rw [if_neg hn]
      have h2 := lo_cal_loop hr p changed l d hc
      simpa [List.filter_cons, hn] using h2

omit [DecidableEq σ] in
theorem loParams_nodup (t : ModType) : ((loParams t).map Prod.snd).Nodup := by
  cases t <;> simp [loParams]

/-- The LO part. -/
theorem lo_trace {run : Run σ} (hr : CalOk run) (force : Bool) (t : ModType) (p : Program σ) (x : Prep σ)
    (cache : Param → Option (Val σ)) (hc : Coherent x.dev) (hk : (p.seqs.map Prod.fst).Nodup)
    (hch : ∀ e ∈ p.seqs, Dict.get? x.changed e.1 = some (ncoChanged cache e))
    (hg : ∀ e ∈ loParams t, x.dev.cache (.glob e.2) = cache (.glob e.2)) :
    Step x.dev (loSettings force run t p x) (loW t p) (loCals cache t p) := by
  unfold loSettings loCals loW
  cases hs : p.settings with
  | none => exact Step.refl hc
  | some mf =>
    obtain ⟨m, f⟩ := mf
    obtain ⟨d', h1, h2⟩ := lo_loop force m cache (loParams t) x.dev [] hc (loParams_nodup t) hg
    simp only [h1, List.nil_append]
    by_cases hq : t = .qrc
    · rw [if_pos hq, if_pos hq]; exact h2
    · rw [if_neg hq, if_neg hq]
      have h3 := lo_cal_loop hr p x.changed ((loParams t).map fun e => (e.1, loChanged cache m e)) d' h2.coherent
      have hneed : ∀ e, loNeeds p x.changed e.1 (loChanged cache m e) = loCalNeeded cache p m e := by
        intro e
        unfold loNeeds loCalNeeded
        cases p.loCal e.1 with
        | off => rfl
        | loChange => rfl
        | loIntermChange =>
          simp only [connectedSeqs]
          congr 1
          rw [Bool.eq_iff_iff]
          simp only [List.any_eq_true, List.mem_map, List.mem_filter, decide_eq_true_eq, Bool.and_eq_true]
          constructor
          · rintro ⟨k, ⟨y, ⟨hy, ho⟩, rfl⟩, hg⟩
            rw [hch y hy] at hg
            exact ⟨y, hy, ho, by simpa using hg⟩
          · rintro ⟨y, hy, ho, hn⟩
            exact ⟨y.1, ⟨y, ⟨hy, ho⟩, rfl⟩, by rw [hch y hy]; simpa using hn⟩
      have h4 := h2.trans h3
      simp only [List.append_nil, List.nil_append] at h4
      have hcs : ((List.map (fun e => (e.1, loChanged cache m e)) (loParams t)).filter
          (fun e => loNeeds p x.changed e.1 e.2)).map (fun e => Cal.lo e.1) =
          ((loParams t).filter (loCalNeeded cache p m)).map fun e => .lo e.1 := by
        rw [List.filter_map, List.map_map]
        have : (fun e : Nat × Bool => loNeeds p x.changed e.1 e.2) ∘
            (fun e : Nat × String => (e.1, loChanged cache m e)) = loCalNeeded cache p m := by
          funext e; exact hneed e
        rw [this]; rfl
      rw [hcs] at h4
      exact h4

end Verif.Prepare
