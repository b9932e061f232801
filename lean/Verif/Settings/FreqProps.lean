/-
C55: what a port emits has the frequency of its clock.
-/
import Verif.Settings.FreqSpec
import Verif.Numeric.Props
import Verif.Common.FoldM

set_option linter.unusedSimpArgs false
set_option linter.unusedVariables false

namespace Verif.Settings

open Verif.Connect (PC Chan Mode Dir ModType Path Elem )
open Verif.Numeric (isClose determineFreqs ncoFreq)
open Verif.Settings.Spec
open Verif (Dict.get? Dict.set)

theorem isRf_iff (t : ModType) : isRf t = true ↔ Rf t := by
  cases t <;> simp [isRf, Rf]

theorem isRf_false {t : ModType} (h : ¬Rf t) : isRf t = false := by
  rw [← Bool.not_eq_true, isRf_iff]; exact h

theorem emitted_sub (dc : Option Rat) (lo nco clock : Rat) :
    |emitted dc lo nco - clock| = |lo + nco - wanted dc clock| := by
  cases dc with
  | none => rfl
  | some d =>
    simp only [emitted, wanted]
    rw [← abs_neg]; congr 1; ring

theorem emitted_eq {dc : Option Rat} {lo nco clock : Rat} (h : lo + nco = wanted dc clock) :
    emitted dc lo nco = clock := by
  cases dc with
  | none => exact h
  | some d => simp only [emitted, wanted] at *; rw [h]; ring

theorem determine_onFreq {clock : Rat} {lo fi dc : Option Rat} {f : Verif.Numeric.Freqs}
    (h : determineFreqs clock lo fi dc true = .ok f) :
    OnFreq dc f.lo f.fi fi clock ∧ ∀ l, lo = some l → f.lo = l := by
  obtain ⟨h1, h2, h3, h4, h5, h6, h7⟩ := (Verif.Numeric.freqs_mixed ..).mp h
  have he : f.clock = wanted dc clock := by rw [h2]; cases dc <;> rfl
  refine ⟨⟨?_, ?_, h4⟩, h3⟩
  · rw [emitted_sub, ← he]
    by_cases hc : lo.isSome ∧ fi.isSome
    · exact h7 hc
    · have : lo = none ∨ fi = none := by
        cases lo <;> cases fi <;> simp_all
      rw [h6 this]
      simp only [sub_self, abs_zero]
      positivity
  · intro hn
    apply emitted_eq
    rw [← he]; exact h6 (Or.inr hn)

theorem setFreq_ok {s s' : SeqF} {f : Rat} (h : s.setFreq f = .ok s') :
    s' = { s with freq := some f } ∧
      ∀ x, s.freq = some x → |x - f| ≤ 1 / 1000000000 * max |x| |f| := by
  unfold SeqF.setFreq at h
  split at h
  · rename_i hs
    simp only [Except.ok.injEq] at h
    exact ⟨h.symm, by simp [hs]⟩
  · rename_i old hs
    split at h
    · rename_i hc
      simp only [Except.ok.injEq] at h
      refine ⟨h.symm, fun x hx => ?_⟩
      rw [hs, Option.some.injEq] at hx
      subst hx
      simpa [isClose] using hc
    · simp at h

theorem setLo_ok {old r : Option Rat} {f : Rat} (h : setLo old f = .ok r) :
    r = some f ∧ ∀ o, old = some o → o = f := by
  unfold setLo at h
  split at h
  · simp only [Except.ok.injEq] at h; exact ⟨h.symm, by simp⟩
  · split at h
    · rename_i hf
      simp only [Except.ok.injEq] at h
      exact ⟨h.symm, fun o ho => by rw [Option.some.injEq] at ho; rw [← ho, hf]⟩
    · simp at h

theorem setRfLo_ok {old r : Option Rat} {f : Rat} (h : setRfLo old f = .ok r) : r = some f := by
  unfold setRfLo at h
  split at h
  · simp only [Except.ok.injEq] at h; exact h.symm
  · split at h
    · simp only [Except.ok.injEq] at h; exact h.symm
    · simp at h

theorem getOpt_some {κ : Type} [DecidableEq κ] {d : List (κ × Option Rat)} {k : κ} {f : Rat} :
    getOpt d k = some f ↔ Dict.get? d k = some (some f) := by
  unfold getOpt
  cases h : Dict.get? d k with
  | none => simp
  | some v => simp

theorem Spec.Kept.refl {κ : Type} [DecidableEq κ] (a : List (κ × Option Rat)) : Kept a a :=
  fun _ _ h => h

theorem Spec.Kept.trans {κ : Type} [DecidableEq κ] {a b c : List (κ × Option Rat)} (h1 : Kept a b)
    (h2 : Kept b c) : Kept a c := fun k f h => h2 k f (h1 k f h)

theorem Spec.Kept.set {κ : Type} [DecidableEq κ] {a : List (κ × Option Rat)} {k : κ} {f : Rat}
    (h : ∀ o, Dict.get? a k = some (some o) → o = f) : Kept a (Dict.set a k (some f)) := by
  intro k' f' h'
  rw [Verif.Dict.get?_set]
  split
  · rename_i e
    subst e
    rw [h _ h']
  · exact h'

theorem rfStep_ok {t : ModType} {clock : Rat} {s s' : SeqF} {rf rf' : List (Nat × Option Rat)}
    {i : Nat} (h : rfStep t clock (s, rf) i = .ok (s', rf')) :
    s' = { s with freq := s'.freq } ∧ Kept rf rf' ∧
      ∃ lo nco, Dict.get? rf' i = some (some lo) ∧ s'.freq = some nco ∧
        OnFreq s.dc lo nco s.freq clock := by
  unfold rfStep at h
  simp only at h
  split at h
  swap
  · simp at h
  split at h
  · simp at h
  rename_i f hf
  split at h
  · simp at h
  rename_i lo hlo
  split at h
  · simp at h
  rename_i s1 hs1
  simp only [Except.ok.injEq, Prod.mk.injEq] at h
  obtain ⟨rfl, rfl⟩ := h
  obtain ⟨h1, h2⟩ := determine_onFreq hf
  have h3 := setRfLo_ok hlo
  subst h3
  obtain ⟨rfl, h4⟩ := setFreq_ok hs1
  refine ⟨rfl, Kept.set fun o ho => ?_, f.lo, f.fi, ?_, rfl, h1⟩
  · rw [h2 o (getOpt_some.mpr ho)]
  · rw [Verif.Dict.get?_set_self]

theorem loIndices_complex {c : Chan} (hm : c.mode = .complex) (hd : c.dir = .output) :
    loIndices c = [c.idx] := by
  have h1 : (2 * c.idx) % 2 = 0 := by omega
  have h2 : ¬((2 * c.idx + 1) % 2 = 0) := by omega
  have h3 : 2 * c.idx / 2 = c.idx := by omega
  simp [loIndices, outputIndices, hm, hd, h1, h2, h3]

theorem foldRf_ok {t : ModType} {clock : Rat} : ∀ (l : List Nat) {s s' : SeqF}
    {rf rf' : List (Nat × Option Rat)}, l.foldlM (rfStep t clock) (s, rf) = .ok (s', rf') →
    s' = { s with freq := s'.freq } ∧ Kept rf rf'
  | [], s, s', rf, rf', h => by
    rw [FoldM.nil, Except.ok.injEq, Prod.mk.injEq] at h
    obtain ⟨rfl, rfl⟩ := h
    exact ⟨rfl, Kept.refl _⟩
  | i :: l, s, s', rf, rf', h => by
    obtain ⟨⟨s1, rf1⟩, h1, h2⟩ := (FoldM.ok_cons ..).mp h
    obtain ⟨a1, a2, _⟩ := rfStep_ok h1
    obtain ⟨b1, b2⟩ := foldRf_ok l h2
    refine ⟨?_, a2.trans b2⟩
    rw [b1, a1]

theorem assignRf_ok {t : ModType} {clock : Rat} {s s' : SeqF} {rf rf' : List (Nat × Option Rat)}
    (h : assignRf t clock s rf = .ok (s', rf')) :
    s' = { s with freq := s'.freq } ∧ Kept rf rf' ∧
      (s.chan.mode = .complex → s.chan.dir = .output →
        ∃ lo nco, Dict.get? rf' s.chan.idx = some (some lo) ∧ s'.freq = some nco ∧
          OnFreq s.dc lo nco s.freq clock) := by
  unfold assignRf at h
  obtain ⟨h1, h2⟩ := foldRf_ok _ h
  refine ⟨h1, h2, fun hm hd => ?_⟩
  rw [loIndices_complex hm hd] at h
  obtain ⟨⟨s1, rf1⟩, h3, h4⟩ := (FoldM.ok_cons ..).mp h
  rw [FoldM.nil, Except.ok.injEq, Prod.mk.injEq] at h4
  obtain ⟨rfl, rfl⟩ := h4
  exact (rfStep_ok h3).2.2

theorem assignBaseband_none {clock : Rat} {s s' : SeqF} {l : Option Rat}
    (h : assignBaseband clock s none = .ok (s', l)) :
    s' = { s with freq := s'.freq } ∧ (s.ncoEn = true → s'.freq = some clock ∧
      ∀ x, s.freq = some x → |x - clock| ≤ 1 / 1000000000 * max |x| |clock|) := by
  unfold assignBaseband at h
  simp only at h
  split at h
  · split at h
    · simp at h
    · rename_i s1 hs1
      simp only [Except.ok.injEq, Prod.mk.injEq] at h
      obtain ⟨rfl, _⟩ := h
      obtain ⟨rfl, h2⟩ := setFreq_ok hs1
      exact ⟨rfl, fun _ => ⟨rfl, h2⟩⟩
  · rename_i hn
    simp only [Except.ok.injEq, Prod.mk.injEq] at h
    obtain ⟨rfl, _⟩ := h
    exact ⟨rfl, fun h => absurd h hn⟩

theorem assignBaseband_some {clock : Rat} {s s' : SeqF} {l l' : Option Rat}
    (h : assignBaseband clock s (some l) = .ok (s', l')) :
    s' = { s with freq := s'.freq } ∧ ∃ lo nco, l' = some lo ∧ (∀ o, l = some o → o = lo) ∧
      s'.freq = some nco ∧ (s.mixLo = true → OnFreq s.dc lo nco s.freq clock) ∧
      (s.mixLo = false → s.freq = some nco ∧ emitted s.dc lo 0 = clock) := by
  unfold assignBaseband at h
  simp only at h
  split at h
  · simp at h
  rename_i f hf
  split at h
  · simp at h
  rename_i l1 hl1
  split at h
  · simp at h
  rename_i s1 hs1
  simp only [Except.ok.injEq, Prod.mk.injEq] at h
  obtain ⟨rfl, rfl⟩ := h
  obtain ⟨rfl, h3⟩ := setLo_ok hl1
  obtain ⟨rfl, h4⟩ := setFreq_ok hs1
  refine ⟨rfl, f.lo, f.fi, rfl, h3, rfl, fun hm => ?_, fun hm => ?_⟩
  · rw [hm] at hf; exact (determine_onFreq hf).1
  · rw [hm] at hf
    obtain ⟨e1, e2, e3⟩ := Verif.Numeric.freqs_unmixed _ _ _ _ _ hf
    refine ⟨e3, emitted_eq ?_⟩
    rw [add_zero, e2, e1]; cases s.dc <;> rfl

/-- Later steps do not change what was tuned. -/
theorem Spec.Tuned.mono {t : ModType} {clocks : String → Option Rat} {los los' : Los} {s s' : SeqF}
    (h : Tuned t clocks los s s') (h1 : Kept los.rf los'.rf) (h2 : Kept los.ext los'.ext) :
    Tuned t clocks los' s s' := by
  refine ⟨h.1, fun clock hc hm => ?_⟩
  obtain ⟨a1, a2, a3⟩ := h.2 clock hc hm
  refine ⟨fun hr hc ho => ?_, fun hr name hn => ?_, a3⟩
  · obtain ⟨lo, nco, b1, b2⟩ := a1 hr hc ho
    exact ⟨lo, nco, h1 _ _ b1, b2⟩
  · obtain ⟨lo, nco, b1, b2⟩ := a2 hr name hn
    exact ⟨lo, nco, h2 _ _ b1, b2⟩

theorem assignSeq_ok {t : ModType} {clocks : String → Option Rat} {los los' : Los} {s s' : SeqF}
    (h : assignSeq t clocks los s = .ok (s', los')) :
    Tuned t clocks los' s s' ∧ Kept los.rf los'.rf ∧ Kept los.ext los'.ext := by
  unfold assignSeq at h
  split at h
  · rename_i hc
    simp only [Except.ok.injEq, Prod.mk.injEq] at h
    obtain ⟨rfl, rfl⟩ := h
    exact ⟨⟨rfl, fun clock hc' => by simp [hc] at hc'⟩, Kept.refl _, Kept.refl _⟩
  rename_i clock hclock
  split at h
  · rename_i hd
    simp only [Except.ok.injEq, Prod.mk.injEq] at h
    obtain ⟨rfl, rfl⟩ := h
    exact ⟨⟨rfl, fun clock _ hd' => absurd hd hd'⟩, Kept.refl _, Kept.refl _⟩
  split at h
  · rename_i hext
    split at h
    · rename_i hrf
      have hrf' := (isRf_iff t).mp hrf
      split at h
      · simp at h
      · rename_i s1 rf hrf1
        simp only [Except.ok.injEq, Prod.mk.injEq] at h
        obtain ⟨rfl, rfl⟩ := h
        obtain ⟨b1, b2, b3⟩ := assignRf_ok hrf1
        refine ⟨⟨b1, fun clock' hc hm => ?_⟩, b2, Kept.refl _⟩
        rw [hclock, Option.some.injEq] at hc
        subst hc
        exact ⟨fun _ hmode ho => b3 hmode ho, fun hn => absurd hrf' hn, fun hn => absurd hrf' hn⟩
    · rename_i hrf
      have hrf' : ¬Rf t := fun hr => hrf ((isRf_iff t).mpr hr)
      split at h
      · simp at h
      · rename_i s1 l hb
        simp only [Except.ok.injEq, Prod.mk.injEq] at h
        obtain ⟨rfl, rfl⟩ := h
        obtain ⟨b1, b2⟩ := assignBaseband_none hb
        refine ⟨⟨b1, fun clock' hc hm => ?_⟩, Kept.refl _, Kept.refl _⟩
        rw [hclock, Option.some.injEq] at hc
        subst hc
        exact ⟨fun hr => absurd hr hrf', fun _ name hn => by simp [hext] at hn, fun _ _ hn => b2 hn⟩
  · rename_i name hext
    split at h
    · simp at h
    rename_i l hl
    split at h
    · rename_i hrf
      have hrf' := (isRf_iff t).mp hrf
      split at h
      · simp at h
      · rename_i s1 rf hrf1
        simp only [Except.ok.injEq, Prod.mk.injEq] at h
        obtain ⟨rfl, rfl⟩ := h
        obtain ⟨b1, b2, b3⟩ := assignRf_ok hrf1
        refine ⟨⟨b1, fun clock' hc hm => ?_⟩, b2, Kept.refl _⟩
        rw [hclock, Option.some.injEq] at hc
        subst hc
        exact ⟨fun _ hmode ho => b3 hmode ho, fun hn => absurd hrf' hn, fun hn => absurd hrf' hn⟩
    · rename_i hrf
      have hrf' : ¬Rf t := fun hr => hrf ((isRf_iff t).mpr hr)
      split at h
      · simp at h
      · rename_i s1 l' hb
        simp only [Except.ok.injEq, Prod.mk.injEq] at h
        obtain ⟨rfl, rfl⟩ := h
        obtain ⟨b1, lo, nco, rfl, b2, b3, b4, b5⟩ := assignBaseband_some hb
        refine ⟨⟨b1, fun clock' hc hm => ?_⟩, Kept.refl _, Kept.set fun o ho => ?_⟩
        · rw [hclock, Option.some.injEq] at hc
          subst hc
          refine ⟨fun hr => absurd hr hrf', fun _ name' hn => ?_, fun _ hn => by simp [hext] at hn⟩
          rw [hext, Option.some.injEq] at hn
          subst hn
          exact ⟨lo, nco, Verif.Dict.get?_set_self .., b3, b4, b5⟩
        · rw [hl, Option.some.injEq] at ho
          exact b2 o ho

theorem assignSeqs_ok {t : ModType} {clocks : String → Option Rat} : ∀ {seqs : List SeqF} {los : Los}
    {ss : List SeqF} {los' : Los}, assignSeqs t clocks seqs los = .ok (ss, los') →
    List.Forall₂ (Tuned t clocks los') seqs ss ∧ Kept los.rf los'.rf ∧ Kept los.ext los'.ext
  | [], los, ss, los', h => by
    simp only [assignSeqs, Except.ok.injEq, Prod.mk.injEq] at h
    obtain ⟨rfl, rfl⟩ := h
    exact ⟨.nil, Kept.refl _, Kept.refl _⟩
  | s :: rest, los, ss, los', h => by
    rw [assignSeqs] at h
    split at h
    · simp at h
    rename_i s1 los1 h1
    split at h
    · simp at h
    rename_i ss1 los2 h2
    simp only [Except.ok.injEq, Prod.mk.injEq] at h
    obtain ⟨rfl, rfl⟩ := h
    obtain ⟨a1, a2, a3⟩ := assignSeq_ok h1
    obtain ⟨b1, b2, b3⟩ := assignSeqs_ok h2
    exact ⟨.cons (a1.mono b2 b3) b1, a2.trans b2, a3.trans b3⟩

/-- **C55.** If the frequencies of all sequencers of all modules are found, then in the end, with the
frequencies that the local oscillators have in the end, every sequencer is tuned: mixer and
downconverter turn the frequencies of its oscillators into that of its clock.  Frequencies of local
oscillators that were configured are used. -/
theorem all_tuned {clocks : String → Option Rat} : ∀ {ms ms' : List Mod}
    {ext ext' : List (String × Option Rat)}, assignAll clocks ms ext = .ok (ms', ext') →
    List.Forall₂ (fun m m' => m'.type = m.type ∧ Kept m.rf m'.rf ∧
      List.Forall₂ (Tuned m.type clocks ⟨ext', m'.rf⟩) m.seqs m'.seqs) ms ms' ∧ Kept ext ext'
  | [], ms', ext, ext', h => by
    simp only [assignAll, Except.ok.injEq, Prod.mk.injEq] at h
    obtain ⟨rfl, rfl⟩ := h
    exact ⟨.nil, Kept.refl _⟩
  | m :: rest, ms', ext, ext', h => by
    rw [assignAll] at h
    split at h
    · simp at h
    rename_i ss los h1
    split at h
    · simp at h
    rename_i ms1 ext1 h2
    simp only [Except.ok.injEq, Prod.mk.injEq] at h
    obtain ⟨rfl, rfl⟩ := h
    obtain ⟨a1, a2, a3⟩ := assignSeqs_ok h1
    obtain ⟨b1, b2⟩ := all_tuned h2
    refine ⟨.cons ⟨rfl, a2, ?_⟩ b1, a3.trans b2⟩
    exact a1.imp fun s s' h => h.mono (Kept.refl _) b2

/-! ### When frequencies are found -/

theorem Spec.OnFreq.close {dc : Option Rat} {lo x clock : Rat} (h : OnFreq dc lo x (some x) clock) :
    isClose (lo + x) (wanted dc clock) = true := by
  have := h.1
  rw [emitted_sub] at this
  simpa [isClose] using this

theorem isClose_self (x : Rat) : isClose x x = true := by
  simp only [isClose, sub_self, abs_zero, decide_eq_true_eq]
  positivity

theorem determine_fits {clock lo : Rat} {fi dc : Option Rat}
    (hdc : ∀ d, dc = some d → 0 ≤ d ∧ clock ≤ d)
    (hx : ∀ x, fi = some x → OnFreq dc lo x (some x) clock) :
    ∃ f, determineFreqs clock (some lo) fi dc true = .ok f ∧ f.lo = lo ∧
      (∀ x, fi = some x → f.fi = x) := by
  have hd : Verif.Numeric.downconvert dc clock = .ok (wanted dc clock) := by
    cases dc with
    | none => rfl
    | some d =>
      have := hdc d rfl
      simp only [Verif.Numeric.downconvert, wanted]
      rw [if_neg (by linarith), if_neg (by linarith)]
  unfold determineFreqs
  rw [hd]
  simp only [Except.bind]
  rw [Verif.Numeric.complete_mixed]
  cases fi with
  | none => exact ⟨⟨wanted dc clock, lo, wanted dc clock - lo⟩, rfl, rfl, by simp⟩
  | some x =>
    have := (hx x rfl).close
    simp only [this, if_true]
    exact ⟨⟨wanted dc clock, lo, x⟩, rfl, rfl, by simp⟩

theorem setFreq_fits {s : SeqF} {f : Rat} (h : ∀ x, s.freq = some x → f = x) :
    ∃ s', s.setFreq f = .ok s' := by
  unfold SeqF.setFreq
  split
  · exact ⟨_, rfl⟩
  · rename_i o ho
    rw [h o ho, isClose_self]
    exact ⟨_, rfl⟩

theorem assignRf_fits {t : ModType} {clock : Rat} {s : SeqF} {rf : List (Nat × Option Rat)}
    (hm : s.chan.mode = .complex) (hr : Rf t)
    (h : s.chan.dir = .output →
        s.chan.idx < (if t = .qrmRf then 1 else if t = .qcmRf then 2 else 6) ∧
        (∀ d, s.dc = some d → 0 ≤ d ∧ clock ≤ d) ∧
        ∃ lo, Dict.get? rf s.chan.idx = some (some lo) ∧
          ∀ x, s.freq = some x → OnFreq s.dc lo x (some x) clock) :
    ∃ r, assignRf t clock s rf = .ok r := by
  unfold assignRf
  cases hd : s.chan.dir with
  | input =>
    have : loIndices s.chan = [] := by simp [loIndices, outputIndices, hd]
    rw [this]
    exact ⟨_, rfl⟩
  | output =>
    obtain ⟨h1, h2, lo, h3, h4⟩ := h hd
    rw [loIndices_complex hm hd]
    have hi : loIndexOk t s.chan.idx = true := by
      rcases hr with rfl | rfl | rfl <;> simp at h1 <;> simp [loIndexOk, h1]
    obtain ⟨f, e1, e2, e3⟩ := determine_fits h2 h4
    obtain ⟨s', e4⟩ := setFreq_fits (s := s) (f := f.fi) e3
    have hg : getOpt rf s.chan.idx = some lo := getOpt_some.mpr h3
    have : rfStep t clock (s, rf) s.chan.idx =
        .ok (s', Dict.set rf s.chan.idx (some f.lo)) := by
      unfold rfStep
      simp only [hi, if_true, hg, e1, e4, setRfLo, e2, isClose_self]
    exact ⟨_, (FoldM.ok_cons ..).mpr ⟨_, this, rfl⟩⟩

theorem assignBaseband_fits {clock : Rat} {s : SeqF} {lo : Rat} (hm : s.mixLo = true)
    (hdc : ∀ d, s.dc = some d → 0 ≤ d ∧ clock ≤ d)
    (hx : ∀ x, s.freq = some x → OnFreq s.dc lo x (some x) clock) :
    ∃ r, assignBaseband clock s (some (some lo)) = .ok r := by
  obtain ⟨f, e1, e2, e3⟩ := determine_fits hdc hx
  obtain ⟨s', e4⟩ := setFreq_fits (s := s) (f := f.fi) e3
  unfold assignBaseband
  simp only [hm, e1, setLo, e2, if_true, e4]
  exact ⟨_, rfl⟩

theorem Spec.Fits.mono {t : ModType} {clocks : String → Option Rat} {los los' : Los} {s : SeqF}
    (h : Fits t clocks los s) (h1 : Kept los.rf los'.rf) (h2 : Kept los.ext los'.ext)
    (h3 : ∀ n, n ∈ Verif.Dict.keys los.ext → n ∈ Verif.Dict.keys los'.ext) :
    Fits t clocks los' s := by
  intro clock hc hm
  obtain ⟨a1, a2, a3⟩ := h clock hc hm
  refine ⟨fun hr => ?_, fun hr name hn => ?_, a3⟩
  · obtain ⟨b1, b2, b3⟩ := a1 hr
    refine ⟨b1, fun ho => ?_, fun n hn => h3 n (b3 n hn)⟩
    obtain ⟨c1, c2, lo, c3, c4⟩ := b2 ho
    exact ⟨c1, c2, lo, h1 _ _ c3, c4⟩
  · obtain ⟨b1, b2, lo, b3, b4⟩ := a2 hr name hn
    exact ⟨b1, b2, lo, h2 _ _ b3, b4⟩

theorem assignSeq_fits {t : ModType} {clocks : String → Option Rat} {los : Los} {s : SeqF}
    (h : Fits t clocks los s) : ∃ r, assignSeq t clocks los s = .ok r := by
  unfold assignSeq
  cases hc : clocks s.pc.2 with
  | none => exact ⟨_, rfl⟩
  | some clock =>
    simp only
    split
    · exact ⟨_, rfl⟩
    rename_i hd
    obtain ⟨a1, a2, a3⟩ := h clock hc hd
    by_cases hr : Rf t
    · have hrf := (isRf_iff t).mpr hr
      obtain ⟨b1, b2, b3⟩ := a1 hr
      obtain ⟨r, e⟩ := assignRf_fits b1 hr b2
      cases he : s.extLo with
      | none => simp only [hrf, if_true, e]; exact ⟨_, rfl⟩
      | some name =>
        obtain ⟨l, hl⟩ := Option.isSome_iff_exists.mp
          ((Verif.Dict.get?_isSome_iff los.ext name).mpr (b3 name he))
        simp only [hrf, if_true, e, hl]; exact ⟨_, rfl⟩
    · have hrf := isRf_false hr
      cases he : s.extLo with
      | none =>
        simp only [hrf, Bool.false_eq_true, if_false]
        have a3 := a3 hr he
        unfold assignBaseband
        simp only
        cases hn : s.ncoEn with
        | false => simp
        | true =>
          have a3 := a3 hn
          have : ∃ s', s.setFreq clock = .ok s' := by
            unfold SeqF.setFreq
            split
            · exact ⟨_, rfl⟩
            · rename_i o ho
              have := a3 o ho
              rw [if_pos (by simpa [isClose] using this)]
              exact ⟨_, rfl⟩
          obtain ⟨s', e⟩ := this
          simp only [if_true, e]
          exact ⟨_, rfl⟩
      | some name =>
        obtain ⟨b1, b2, lo, b3, b4⟩ := a2 hr name he
        obtain ⟨r, e⟩ := assignBaseband_fits b1 b2 b4
        simp only [hrf, Bool.false_eq_true, if_false, b3, e]
        exact ⟨_, rfl⟩

theorem assignSeq_keys {t : ModType} {clocks : String → Option Rat} {los los' : Los} {s s' : SeqF}
    (h : assignSeq t clocks los s = .ok (s', los')) (n : String) (hn : n ∈ Verif.Dict.keys los.ext) :
    n ∈ Verif.Dict.keys los'.ext := by
  unfold assignSeq at h
  repeat' split at h
  all_goals first
    | (simp at h; done)
    | (simp only [Except.ok.injEq, Prod.mk.injEq] at h
       obtain ⟨rfl, rfl⟩ := h
       first
         | exact hn
         | exact (Verif.Dict.mem_keys_set ..).mpr (Or.inr hn)
         | exact (Verif.Dict.mem_keys_set ..).mpr (Or.inl hn))

theorem assignSeqs_fits {t : ModType} {clocks : String → Option Rat} : ∀ {seqs : List SeqF} {los : Los},
    (∀ s ∈ seqs, Fits t clocks los s) → ∃ r, assignSeqs t clocks seqs los = .ok r ∧
      ∀ n, n ∈ Verif.Dict.keys los.ext → n ∈ Verif.Dict.keys r.2.ext
  | [], los, h => ⟨_, rfl, fun _ h => h⟩
  | s :: rest, los, h => by
    obtain ⟨⟨s', los'⟩, e⟩ := assignSeq_fits (h s (by simp))
    have hk := assignSeq_ok e
    obtain ⟨⟨ss, los''⟩, e', e''⟩ := assignSeqs_fits (seqs := rest) (los := los') (fun x hx =>
      (h x (by simp [hx])).mono hk.2.1 hk.2.2 (assignSeq_keys e))
    rw [assignSeqs, e]
    simp only [e']
    exact ⟨_, rfl, fun n hn => e'' n (assignSeq_keys e n hn)⟩

/-- **C55.** If every local oscillator has a configured frequency and the configured frequencies of the
sequencers fit their clocks, frequencies are found. -/
theorem frequencies_found {clocks : String → Option Rat} : ∀ {ms : List Mod}
    {ext : List (String × Option Rat)},
    (∀ m ∈ ms, ∀ s ∈ m.seqs, Fits m.type clocks ⟨ext, m.rf⟩ s) →
    ∃ r, assignAll clocks ms ext = .ok r
  | [], ext, h => ⟨_, rfl⟩
  | m :: rest, ext, h => by
    obtain ⟨⟨ss, los⟩, e, ek⟩ := assignSeqs_fits (los := ⟨ext, m.rf⟩) (h m (by simp))
    have hk := assignSeqs_ok e
    obtain ⟨r, e'⟩ := frequencies_found (ms := rest) (ext := los.ext) (fun x hx s hs =>
      (h x (by simp [hx]) s hs).mono (Kept.refl _) hk.2.2 ek)
    rw [assignAll, e]
    simp only [e']
    exact ⟨_, rfl⟩

/-! ### SetClockFrequency -/

theorem set_error {s' : SeqF} {clock new : Rat} {n : Int}
    (hn : setFreqArg s' (some clock) (some new) = .ok n) (lo : Rat) {nco : Rat}
    (hf : s'.freq = some nco) :
    |emitted none lo (n / 4) - new| ≤ 1 / 8 + |emitted none lo nco - clock| := by
  unfold setFreqArg newInterm at hn
  simp only [hf] at hn
  split at hn
  · simp at hn
  · rename_i m hm
    simp only [Except.ok.injEq] at hn
    subst hn
    have := ((Verif.Numeric.nco_freq _).1 _ hm).1
    simp only [emitted]
    have e : lo + (m : Rat) / 4 - new = -(nco + new - clock - m / 4) + (lo + nco - clock) := by ring
    rw [e]
    refine (abs_add_le _ _).trans ?_
    rw [abs_neg]
    linarith

/-- **C55.** `SetClockFrequency` on a tuned sequencer of a module with local oscillators of its own,
without a downconverter: the port then emits the new frequency, up to an eighth of a Hertz and the error
that the configured frequencies have; the instruction's argument counts quarters of a Hertz. -/
theorem set_frequency_rf {t : ModType} {clocks : String → Option Rat} {los : Los} {s s' : SeqF}
    (h : Tuned t clocks los s s') {clock new : Rat} {n : Int} (hc : clocks s.pc.2 = some clock)
    (hr : Rf t) (hm : s.chan.mode = .complex) (ho : s.chan.dir = .output) (hd : s.dc = none)
    (hn : setFreqArg s' (some clock) (some new) = .ok n) :
    ∃ lo nco, Dict.get? los.rf s.chan.idx = some (some lo) ∧ s'.freq = some nco ∧
      |emitted none lo (n / 4) - new| ≤
        1 / 8 + 1 / 1000000000 * max |lo + nco| |clock| ∧
      (s.freq = none → |emitted none lo (n / 4) - new| ≤ 1 / 8) := by
  obtain ⟨lo, nco, a1, a2, a3⟩ := (h.2 clock hc (by simp [hm])).1 hr hm ho
  rw [hd] at a3
  have e := set_error hn lo a2
  refine ⟨lo, nco, a1, a2, ?_, fun hx => ?_⟩
  · have := a3.1
    simp only [wanted] at this
    linarith
  · rw [a3.2.1 hx] at e
    simpa using e

/-- **C55.** The same for the sequencer of a baseband module with a mixer. -/
theorem set_frequency_mixer {t : ModType} {clocks : String → Option Rat} {los : Los} {s s' : SeqF}
    (h : Tuned t clocks los s s') {clock new : Rat} {n : Int} (hc : clocks s.pc.2 = some clock)
    (hr : ¬Rf t) (hm : s.chan.mode ≠ .digital) {name : String} (hl : s.extLo = some name)
    (hmix : s.mixLo = true) (hd : s.dc = none)
    (hn : setFreqArg s' (some clock) (some new) = .ok n) :
    ∃ lo nco, Dict.get? los.ext name = some (some lo) ∧ s'.freq = some nco ∧
      |emitted none lo (n / 4) - new| ≤
        1 / 8 + 1 / 1000000000 * max |lo + nco| |clock| ∧
      (s.freq = none → |emitted none lo (n / 4) - new| ≤ 1 / 8) := by
  obtain ⟨lo, nco, a1, a2, a3, _⟩ := (h.2 clock hc hm).2.1 hr name hl
  have a3 := a3 hmix
  rw [hd] at a3
  have e := set_error hn lo a2
  refine ⟨lo, nco, a1, a2, ?_, fun hx => ?_⟩
  · have := a3.1
    simp only [wanted] at this
    linarith
  · rw [a3.2.1 hx] at e
    simpa using e

/-- **C55.** The same for a baseband module without a mixer. -/
theorem set_frequency_direct {t : ModType} {clocks : String → Option Rat} {los : Los} {s s' : SeqF}
    (h : Tuned t clocks los s s') {clock new : Rat} {n : Int} (hc : clocks s.pc.2 = some clock)
    (hr : ¬Rf t) (hm : s.chan.mode ≠ .digital) (hl : s.extLo = none) (hen : s.ncoEn = true)
    (hn : setFreqArg s' (some clock) (some new) = .ok n) :
    |(n : Rat) / 4 - new| ≤ 1 / 8 := by
  have a := ((h.2 clock hc hm).2.2 hr hl hen).1
  have e := set_error hn 0 a
  simpa [emitted] using e

/-! ### The configured frequencies of local oscillators -/

theorem rfSettings_get (freqs : PC → Option ModFreq) (i : Nat) (hi : i < 6) (f : Option Rat) :
    ∀ (pcs : List (PC × Chan)) (d : List (Nat × Option Rat)),
    (∀ e ∈ pcs, e.2 = ⟨.complex, .output, i⟩ → (freqs e.1).bind ModFreq.lo = f) →
    (Dict.get? d i = some f ∨ ∃ e ∈ pcs, e.2 = ⟨.complex, .output, i⟩) →
    Dict.get? (pcs.foldl (fun d e =>
      if e.2.mode = .complex ∧ e.2.dir = .output ∧ e.2.idx < 6 then
        Verif.Dict.set d e.2.idx ((freqs e.1).bind ModFreq.lo)
      else d) d) i = some f
  | [], d, _, h => by simpa using h
  | e :: pcs, d, ha, h => by
    rw [List.foldl_cons]
    refine rfSettings_get freqs i hi f pcs _ (fun x hx => ha x (by simp [hx])) ?_
    by_cases he : e.2 = ⟨.complex, .output, i⟩
    · left
      rw [if_pos (by simp [he, hi]), he, ha e (by simp) he]
      exact Verif.Dict.get?_set_self ..
    · rcases h with h | ⟨x, hx, hx'⟩
      · left
        split
        · rename_i hc
          rw [Verif.Dict.get?_set_ne]
          · exact h
          · rintro rfl
            apply he
            obtain ⟨h1, h2, _⟩ := hc
            cases hh : e.2 with
            | mk m dd ix => simp_all
        · exact h
      · rw [List.mem_cons] at hx
        rcases hx with rfl | hx
        · exact absurd hx' he
        · exact Or.inr ⟨x, hx, hx'⟩

/-- **C55.** If the port-clocks on an output of a module agree on the configured frequency of its local
oscillator, that is the frequency the oscillator is set to. -/
theorem configured_lo_used {clocks : String → Option Rat} {ms ms' : List Mod}
    {ext ext' : List (String × Option Rat)} (h : assignAll clocks ms ext = .ok (ms', ext'))
    {n : Nat} {t : ModType} {desc : Chan → Option ChanDesc} {ctl : List (Chan × String)}
    {freqs : PC → Option ModFreq} {pcs used : List (PC × Chan)}
    (hm : ms[n]? = some (initMod t desc ctl freqs pcs used)) {i : Nat} (hi : i < 6) {f : Rat}
    (ha : ∀ e ∈ pcs, e.2 = ⟨.complex, .output, i⟩ → ∃ x, freqs e.1 = some ⟨x, some f⟩)
    (hex : ∃ e ∈ pcs, e.2 = ⟨.complex, .output, i⟩) :
    ∃ m', ms'[n]? = some m' ∧ Dict.get? m'.rf i = some (some f) := by
  have hf := (all_tuned h).1
  have hl := hf.length_eq
  obtain ⟨hlt, hget⟩ := List.getElem?_eq_some_iff.mp hm
  have := (List.forall₂_iff_get.mp hf).2 n hlt (by omega)
  refine ⟨ms'[n]'(by omega), List.getElem?_eq_getElem _, this.2.1 i f ?_⟩
  simp only [List.get_eq_getElem, hget, initMod]
  exact rfSettings_get freqs i hi (some f) pcs []
    (fun e he hc => by obtain ⟨x, hx⟩ := ha e he hc; simp [hx]) (Or.inr hex)

theorem nameLo_inner {path : Path} {lo : Option Rat} {name : String} {f : Option Rat} :
    ∀ (loPaths : List (String × Path)) (d : List (String × Option Rat)),
    (Dict.get? d name = some f ∨
      (Dict.get? d name = none ∧ ((name, path) ∈ loPaths → lo = f))) →
    let r := loPaths.foldl (fun d l =>
      if path = l.2 ∧ l.1 ∉ Verif.Dict.keys d then d ++ [(l.1, lo)] else d) d
    (Dict.get? r name = some f ∨ (Dict.get? r name = none ∧ Dict.get? d name = none)) ∧
      ((name, path) ∈ loPaths → Dict.get? r name = some f)
  | [], d, h => by
    simp only [List.foldl_nil, List.not_mem_nil, false_imp_iff, and_true]
    rcases h with h | ⟨h, _⟩
    · exact Or.inl h
    · exact Or.inr ⟨h, h⟩
  | l :: loPaths, d, h => by
    simp only [List.foldl_cons]
    have key : ∀ d', (Dict.get? d' name = some f ∨ (Dict.get? d' name = none ∧
        Dict.get? d name = none ∧ ((name, path) ∈ loPaths → lo = f) ∧ (name, path) ≠ l)) →
        let r := loPaths.foldl (fun d l =>
          if path = l.2 ∧ l.1 ∉ Verif.Dict.keys d then d ++ [(l.1, lo)] else d) d'
        (Dict.get? r name = some f ∨ (Dict.get? r name = none ∧ Dict.get? d name = none)) ∧
          ((name, path) ∈ l :: loPaths → Dict.get? r name = some f) := by
      intro d' hd'
      have ih := nameLo_inner (path := path) (lo := lo) (name := name) (f := f) loPaths d' (by
        rcases hd' with hd' | hd'
        · exact Or.inl hd'
        · exact Or.inr ⟨hd'.1, hd'.2.2.1⟩)
      simp only at ih ⊢
      rcases hd' with hd' | hd'
      · have hs : Dict.get? (loPaths.foldl (fun d l =>
          if path = l.2 ∧ l.1 ∉ Verif.Dict.keys d then d ++ [(l.1, lo)] else d) d') name = some f := by
          rcases ih.1 with ih | ih
          · exact ih
          · rw [hd'] at ih; simp at ih
        exact ⟨Or.inl hs, fun _ => hs⟩
      · refine ⟨?_, fun hm => ?_⟩
        · rcases ih.1 with ih | ih
          · exact Or.inl ih
          · exact Or.inr ⟨ih.1, hd'.2.1⟩
        · rw [List.mem_cons] at hm
          rcases hm with hm | hm
          · exact absurd hm hd'.2.2.2
          · exact ih.2 hm
    apply key
    have happ : ∀ (d : List (String × Option Rat)) k v, Dict.get? (d ++ [(k, v)]) name =
        (Dict.get? d name).or (if k = name then some v else none) := by
      intro d k v
      simp only [Dict.get?, List.find?_append]
      cases hd : d.find? (fun e => e.1 == name) with
      | some x => simp
      | none => by_cases hk : k = name <;> simp [hk]
    split
    · rename_i hc
      rw [happ]
      rcases h with h | ⟨h, h'⟩
      · left; simp [h]
      · by_cases hk : l.1 = name
        · left
          have : (name, path) = l := by rw [← hk, hc.1]
          rw [h' (by simp [this])]
          simp [h, hk]
        · right
          refine ⟨by simp [h, hk], h, fun hm => h' (by simp [hm]), ?_⟩
          rintro rfl; exact hk rfl
    · rename_i hc
      rcases h with h | ⟨h, h'⟩
      · exact Or.inl h
      · right
        refine ⟨h, h, fun hm => h' (by simp [hm]), ?_⟩
        rintro rfl
        exact hc ⟨rfl, (Verif.Dict.get?_eq_none_iff d name).mp h⟩

/-- A loop whose steps keep a value once it is there. -/
theorem fold_first {β : Type} {name : String} {f : Option Rat} (Q : β → Prop)
    (g : List (String × Option Rat) → β → List (String × Option Rat)) : ∀ (l : List β)
    (d : List (String × Option Rat)),
    (∀ b ∈ l, ∀ d, (Dict.get? d name = some f ∨ Dict.get? d name = none) →
      (Dict.get? (g d b) name = some f ∨ (Dict.get? (g d b) name = none ∧ Dict.get? d name = none)) ∧
        (Q b → Dict.get? (g d b) name = some f)) →
    (Dict.get? d name = some f ∨ Dict.get? d name = none) →
    (Dict.get? (l.foldl g d) name = some f ∨
      (Dict.get? (l.foldl g d) name = none ∧ Dict.get? d name = none)) ∧
      ((∃ b ∈ l, Q b) → Dict.get? (l.foldl g d) name = some f)
  | [], d, _, h => by simp; exact h
  | b :: l, d, hs, h => by
    have h1 := hs b (by simp) d h
    rw [List.foldl_cons]
    have ih := fold_first Q g l (g d b) (fun x hx => hs x (by simp [hx])) (by
      rcases h1.1 with h1 | h1
      · exact Or.inl h1
      · exact Or.inr h1.1)
    refine ⟨?_, ?_⟩
    · rcases ih.1 with ih | ih
      · exact Or.inl ih
      · rcases h1.1 with h1 | h1
        · rw [h1] at ih; simp at ih
        · exact Or.inr ⟨ih.1, h1.2⟩
    · rintro ⟨x, hx, hq⟩
      rw [List.mem_cons] at hx
      rcases hx with rfl | hx
      · rcases ih.1 with ih | ih
        · exact ih
        · rw [h1.2 hq] at ih; simp at ih
      · exact ih.2 ⟨x, hx, hq⟩

/-- **C55.** A local oscillator without `instrument_name` is used if a port-clock with the path of its
mixer has modulation frequencies, and if those port-clocks agree on its frequency, it is set to it. -/
theorem lo_frequency_extracted {given : List String}
    {clusters : List (List (PC × Path) × List (String × Path))} {freqs : List (PC × ModFreq)}
    {name : String} {f : Option Rat} (hg : name ∉ given)
    (ha : ∀ e ∈ freqs, ∀ c ∈ clusters, ∀ path, Dict.get? c.1 e.1 = some path →
      (name, path) ∈ c.2 → e.2.lo = f)
    (hex : ∃ e ∈ freqs, ∃ c ∈ clusters, ∃ path, Dict.get? c.1 e.1 = some path ∧ (name, path) ∈ c.2) :
    Dict.get? (extractLos given clusters freqs) name = some f := by
  unfold extractLos
  have h0 : Dict.get? (given.map (fun n => (n, (none : Option Rat)))) name = none := by
    rw [Verif.Dict.get?_eq_none_iff]
    simpa [Verif.Dict.keys] using hg
  refine (fold_first (fun e => ∃ c ∈ clusters, ∃ path, Dict.get? c.1 e.1 = some path ∧
    (name, path) ∈ c.2) _ freqs _ ?_ (Or.inr h0)).2 hex
  intro e he d hd
  refine fold_first (fun c => ∃ path, Dict.get? c.1 e.1 = some path ∧ (name, path) ∈ c.2) _ clusters d
    ?_ hd
  intro c hc d hd
  unfold nameLo
  cases hp : Dict.get? c.1 e.1 with
  | none =>
    simp only [reduceCtorEq, false_and, exists_false, false_imp_iff, and_true]
    rcases hd with hd | hd
    · exact Or.inl hd
    · exact Or.inr ⟨hd, hd⟩
  | some path =>
    have := nameLo_inner (path := path) (lo := e.2.lo) (name := name) (f := f) c.2 d (by
      rcases hd with hd | hd
      · exact Or.inl hd
      · exact Or.inr ⟨hd, ha e he c hc path hp⟩)
    refine ⟨this.1, ?_⟩
    rintro ⟨p, hp', hm⟩
    rw [Option.some.injEq] at hp'
    subst hp'
    exact this.2 hm

/-- **C55.** A local oscillator without `instrument_name`: if the port-clocks with the path of its mixer
agree on its frequency, the instrument is set to that frequency. -/
theorem configured_named_lo_used {clocks : String → Option Rat} {ms ms' : List Mod}
    {ext' : List (String × Option Rat)} {given : List String}
    {clusters : List (List (PC × Path) × List (String × Path))} {freqs : List (PC × ModFreq)}
    (h : assignAll clocks ms (extractLos given clusters freqs) = .ok (ms', ext'))
    {name : String} {f : Rat} (hg : name ∉ given)
    (ha : ∀ e ∈ freqs, ∀ c ∈ clusters, ∀ path, Dict.get? c.1 e.1 = some path →
      (name, path) ∈ c.2 → e.2.lo = some f)
    (hex : ∃ e ∈ freqs, ∃ c ∈ clusters, ∃ path, Dict.get? c.1 e.1 = some path ∧ (name, path) ∈ c.2) :
    loProgram ext' name = some f := by
  have := (all_tuned h).2 name f (lo_frequency_extracted hg ha hex)
  simp [loProgram, this]

end Verif.Settings
