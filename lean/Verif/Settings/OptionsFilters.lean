/-
C56: hardware filters.
-/
import Verif.Settings.OptionsAtt
import Verif.Settings.FreqSpec

set_option linter.unusedSimpArgs false
set_option linter.unusedVariables false

namespace Verif.Settings

open Verif.Connect (PC Chan Mode Dir ModType)
open Verif.Settings.Spec

theorem hasBit_iff (comp : Nat) (s : Stage) : comp.testBit s.bit = true ↔ HasBit comp s := by
  cases s <;> simp [Stage.bit, HasBit, Nat.testBit, Nat.shiftRight_eq_div_pow, Nat.and_comm, Nat.one_and_eq_mod_two]

theorem covers_mem {c : Chan} {o : Nat} (hm : c.mode ≠ .digital) :
    o ∈ outputIndices c ↔ Covers c o := by
  unfold outputIndices Covers
  cases hd : c.dir <;> cases hc : c.mode <;> simp_all

theorem latencyOutput_ok {f f' : Filters} {o comp : Nat} (h : latencyOutput f o comp = .ok f') :
    (∀ s, (f' o s).config = if comp.testBit s.bit then .delayComp else .bypassed) ∧
    (∀ o' s, o' ≠ o → f' o' s = f o' s) ∧
    (∀ o' s, (f' o' s).coeffs = (f o' s).coeffs ∧ (f' o' s).markerDelay = (f o' s).markerDelay) := by
  unfold latencyOutput at h
  split at h
  · simp only [Except.ok.injEq] at h; subst h
    refine ⟨fun s => by simp [Filters.update], fun o' s ho => by simp [Filters.update, ho], fun o' s => ?_⟩
    by_cases ho : o' = o <;> simp [Filters.update, ho]
  · simp at h

theorem latencyMarker_ok {t : ModType} {f f' : Filters} {o comp : Nat}
    (h : latencyMarker t f o comp = .ok f') :
    (∀ s, (f' (if isRf t then o + 2 else o) s).markerDelay = comp.testBit s.bit) ∧
    (∀ o' s, o' ≠ (if isRf t then o + 2 else o) → f' o' s = f o' s) ∧
    (∀ o' s, (f' o' s).coeffs = (f o' s).coeffs ∧ (f' o' s).config = (f o' s).config) := by
  unfold latencyMarker at h
  simp only at h
  generalize (if isRf t = true then o + 2 else o) = o1 at h ⊢
  split at h
  · simp only [Except.ok.injEq] at h; subst h
    refine ⟨fun s => by simp [Filters.update], fun o' s ho => by simp [Filters.update, ho], fun o' s => ?_⟩
    by_cases ho : o' = o1 <;> simp [Filters.update, ho]
  · simp at h

theorem latencyStep_ok {t : ModType} {used : List Chan} {c : Chan} {d : FDesc} {f f' : Filters} {o : Nat}
    (h : latencyStep t used c d f o = .ok f') :
    (∀ o' s, (f' o' s).coeffs = (f o' s).coeffs) ∧
    (∀ o' s, c.mode = .digital ∨ o' ≠ o → (f' o' s).config = (f o' s).config) ∧
    (c.mode ≠ .digital → ∀ s, (f' o s).config = if d.comp.testBit s.bit then .delayComp else .bypassed) ∧
    (c.mode = .digital → ∀ s, (f' (if isRf t then o + 2 else o) s).markerDelay = d.comp.testBit s.bit) ∧
    (c.mode = .digital → ∀ o' s, o' ≠ (if isRf t then o + 2 else o) →
      (f' o' s).markerDelay = (f o' s).markerDelay) ∧
    (c.mode ≠ .digital → d.debug = false → ∀ o' s, (f' o' s).markerDelay = (f o' s).markerDelay) := by
  unfold latencyStep at h
  split at h
  · rename_i hd
    have := latencyMarker_ok h
    exact ⟨fun o' s => (this.2.2 o' s).1, fun o' s _ => (this.2.2 o' s).2, fun hn => absurd hd hn,
      fun _ => this.1, fun _ o' s ho => by rw [this.2.1 o' s ho], fun hn => absurd hd hn⟩
  · rename_i hd
    split at h
    · rename_i hdb
      split at h
      · simp at h
      · simp only at h
        split at h
        · simp at h
        · rename_i f1 h1
          have a := latencyMarker_ok h1
          have b := latencyOutput_ok h
          refine ⟨fun o' s => by rw [(b.2.2 o' s).1, (a.2.2 o' s).1], fun o' s ho => ?_,
            fun _ => b.1, fun hn => absurd hn hd, fun hn => absurd hn hd,
            fun _ hn => by simp [hdb] at hn⟩
          rw [b.2.1 o' s (ho.resolve_left hd), (a.2.2 o' s).2]
    · have b := latencyOutput_ok h
      refine ⟨fun o' s => (b.2.2 o' s).1, fun o' s ho => by rw [b.2.1 o' s (ho.resolve_left hd)],
        fun _ => b.1, fun hn => absurd hn hd, fun hn => absurd hn hd, fun _ _ o' s => (b.2.2 o' s).2⟩

/-- With the debug mode of markers, the delays of an RF output are set for its own marker: those of the first output of a
QCM-RF in the place of filter 2, the others in that of filter 3. -/
theorem debug_marker {t : ModType} {used : List Chan} {c : Chan} {d : FDesc} {f f' : Filters} {o : Nat}
    (h : latencyStep t used c d f o = .ok f') (hc : c.mode ≠ .digital) (hd : d.debug = true) :
    (t = .qcmRf → c = ⟨.complex, .output, 0⟩ → ∀ s, (f' 2 s).markerDelay = d.comp.testBit s.bit) ∧
    (t = .qcmRf → c = ⟨.complex, .output, 1⟩ → ∀ s, (f' 3 s).markerDelay = d.comp.testBit s.bit) ∧
    (t = .qrmRf → c = ⟨.complex, .output, 0⟩ → ∀ s, (f' 3 s).markerDelay = d.comp.testBit s.bit) := by
  unfold latencyStep at h
  rw [if_neg hc, if_pos hd] at h
  split at h
  · simp at h
  simp only at h
  split at h
  · simp at h
  rename_i f1 h1
  have a := latencyMarker_ok h1
  have b := latencyOutput_ok h
  have key : ∀ o' s, (f' o' s).markerDelay = (f1 o' s).markerDelay := fun o' s => (b.2.2 o' s).2
  refine ⟨?_, ?_, ?_⟩ <;>
  · rintro rfl rfl s
    rw [key]
    have := a.1 s
    simpa [isRf, rfMarker] using this

/-- There are four places: a marker beyond them is an `IndexError`. -/
theorem marker_limit {t : ModType} {f : Filters} {o comp : Nat} :
    (∃ f', latencyMarker t f o comp = .ok f') ↔ (if isRf t then o < 2 else o < 4) := by
  unfold latencyMarker
  by_cases hr : isRf t = true
  · by_cases ho : o < 2
    · simp [hr, ho, show o + 2 < 4 by omega]
    · simp [hr, ho, show ¬ o + 2 < 4 by omega]
  · by_cases ho : o < 4 <;> simp [hr, ho]

/-- The step for one description. -/
def descStep (t : ModType) (used : List Chan) (f : Filters) (e : Chan × FDesc) : Except Err Filters :=
  if e.1 ∈ used then (outputIndices e.1).foldlM (latencyStep t used e.1 e.2) f else .ok f

theorem latencies_eq (t : ModType) (used : List Chan) (descs : List (Chan × FDesc)) (f : Filters) :
    latencies t used descs f = descs.foldlM (descStep t used) f := rfl

theorem latencies_coeffs {t : ModType} {used : List Chan} {descs : List (Chan × FDesc)} {f f' : Filters}
    (h : latencies t used descs f = .ok f') (o : Nat) (s : Stage) :
    (f' o s).coeffs = (f o s).coeffs := by
  rw [latencies_eq] at h
  refine FoldM.invariant (fun g : Filters => (g o s).coeffs = (f o s).coeffs)
    (fun e he a a' hp hs => ?_) rfl h
  unfold descStep at hs
  split at hs
  · exact FoldM.invariant (fun g : Filters => (g o s).coeffs = (f o s).coeffs)
      (fun i hi b b' hb hs => by rw [(latencyStep_ok hs).1 o s]; exact hb) hp hs
  · simp only [Except.ok.injEq] at hs; subst hs; exact hp

/-- The configuration of an output that no described channel drives is not touched; otherwise it is as
the descriptions say, if they agree. -/
theorem latencies_config {t : ModType} {used : List Chan} {descs : List (Chan × FDesc)} {f f' : Filters}
    (h : latencies t used descs f = .ok f') (o : Nat) (s : Stage) :
    ((∀ e ∈ descs, e.1 ∈ used → e.1.mode ≠ .digital → ¬Covers e.1 o) →
      (f' o s).config = (f o s).config) ∧
    (∀ c d, (c, d) ∈ descs → c ∈ used → c.mode ≠ .digital → Covers c o →
      (∀ e ∈ descs, e.1 ∈ used → e.1.mode ≠ .digital → Covers e.1 o → e.2.comp = d.comp) →
      ((f' o s).config = .delayComp ↔ HasBit d.comp s) ∧
      ((f' o s).config = .bypassed ↔ ¬HasBit d.comp s)) := by
  rw [latencies_eq] at h
  refine ⟨fun hn => ?_, fun c d hm hu hd hc ha => ?_⟩
  · refine FoldM.invariant (fun g : Filters => (g o s).config = (f o s).config)
      (fun e he a a' hp hs => ?_) rfl h
    unfold descStep at hs
    split at hs
    · rename_i hu
      refine FoldM.invariant (fun g : Filters => (g o s).config = (f o s).config)
        (fun i hi b b' hb hs => ?_) hp hs
      rw [(latencyStep_ok hs).2.1 o s]
      · exact hb
      · by_cases hm : e.1.mode = .digital
        · exact Or.inl hm
        · right
          rintro rfl
          exact hn e he hu hm ((covers_mem hm).mp hi)
    · simp only [Except.ok.injEq] at hs; subst hs; exact hp
  · have key : (f' o s).config = if d.comp.testBit s.bit then .delayComp else .bypassed := by
      refine FoldM.established (fun g : Filters =>
        (g o s).config = if d.comp.testBit s.bit then .delayComp else .bypassed) hm
        (fun a a' hs => ?_) (fun e he a a' hp hs => ?_) h
      · unfold descStep at hs
        rw [if_pos hu] at hs
        refine FoldM.established (fun g : Filters =>
          (g o s).config = if d.comp.testBit s.bit then .delayComp else .bypassed)
          ((covers_mem hd).mpr hc) (fun b b' hs => (latencyStep_ok hs).2.2.1 hd s)
          (fun i hi b b' hb hs => ?_) hs
        by_cases ho : o = i
        · subst ho; exact (latencyStep_ok hs).2.2.1 hd s
        · rw [(latencyStep_ok hs).2.1 o s (Or.inr ho)]; exact hb
      · unfold descStep at hs
        split at hs
        · rename_i hu'
          refine FoldM.invariant (fun g : Filters =>
            (g o s).config = if d.comp.testBit s.bit then .delayComp else .bypassed)
            (fun i hi b b' hb hs => ?_) hp hs
          by_cases hm' : e.1.mode = .digital
          · rw [(latencyStep_ok hs).2.1 o s (Or.inl hm')]; exact hb
          · by_cases ho : o = i
            · subst ho
              rw [(latencyStep_ok hs).2.2.1 hm' s, ha e he hu' hm' ((covers_mem hm').mp hi)]
            · rw [(latencyStep_ok hs).2.1 o s (Or.inr ho)]; exact hb
        · simp only [Except.ok.injEq] at hs; subst hs; exact hp
    rw [key, ← hasBit_iff]
    cases d.comp.testBit s.bit <;> simp

/-- **C56.** Markers are delayed like the digital channel says, on RF modules those with numbers two
higher, if no output is in debug mode. -/
theorem marker_latency {t : ModType} {used : List Chan} {descs : List (Chan × FDesc)} {f f' : Filters}
    (h : latencies t used descs f = .ok f') {o : Nat} {d : FDesc}
    (hm : ((⟨.digital, .output, o⟩ : Chan), d) ∈ descs) (hu : (⟨.digital, .output, o⟩ : Chan) ∈ used)
    (hd : ∀ e ∈ descs, e.2.debug = false) (hn : ∀ e ∈ descs, e.1 = ⟨.digital, .output, o⟩ → e.2 = d)
    (hin : ∀ e ∈ descs, e.1.mode = .digital → e.1.dir = .output) (s : Stage) :
    (Rf t → ((f' (o + 2) s).markerDelay = true ↔ HasBit d.comp s)) ∧
    (¬Rf t → ((f' o s).markerDelay = true ↔ HasBit d.comp s)) := by
  rw [← hasBit_iff]
  rw [latencies_eq] at h
  have key : (f' (if isRf t then o + 2 else o) s).markerDelay = d.comp.testBit s.bit := by
    refine FoldM.established (fun g : Filters =>
      (g (if isRf t then o + 2 else o) s).markerDelay = d.comp.testBit s.bit) hm
      (fun a a' hs => ?_) (fun e he a a' hp hs => ?_) h
    · unfold descStep at hs
      rw [if_pos hu] at hs
      have : outputIndices (⟨.digital, .output, o⟩ : Chan) = [o] := rfl
      rw [this] at hs
      obtain ⟨s1, e1, e2⟩ := (FoldM.ok_cons ..).mp hs
      simp only [FoldM.nil, Except.ok.injEq] at e2
      subst e2
      exact (latencyStep_ok e1).2.2.2.1 rfl s
    · unfold descStep at hs
      split at hs
      · rename_i hu'
        refine FoldM.invariant (fun g : Filters =>
          (g (if isRf t then o + 2 else o) s).markerDelay = d.comp.testBit s.bit)
          (fun i hi b b' hb hs => ?_) hp hs
        by_cases hm' : e.1.mode = .digital
        · have hdir := hin e he hm'
          have hi' : i = e.1.idx := by simpa [outputIndices, hdir, hm'] using hi
          by_cases ho : e.1.idx = o
          · have : e.1 = ⟨.digital, .output, o⟩ := by
              cases hh : e.1 with
              | mk a b c => simp_all
            rw [hn e he this] at hs
            have := (latencyStep_ok hs).2.2.2.1 hm' s
            rw [hi', ho] at this
            exact this
          · rw [(latencyStep_ok hs).2.2.2.2.1 hm' _ s (by rw [hi']; split <;> omega)]
            exact hb
        · rw [(latencyStep_ok hs).2.2.2.2.2 hm' (hd e he)]; exact hb
      · simp only [Except.ok.injEq] at hs; subst hs; exact hp
  constructor
  · intro hr
    rw [if_pos (by rcases hr with rfl | rfl | rfl <;> rfl)] at key
    rw [key]
  · intro hr
    rw [if_neg (fun hh => hr (by cases t <;> simp_all [isRf, Rf]))] at key
    rw [key]

/-! ### Filters -/

theorem filterLoop {pcs : List (PC × Chan)} : ∀ {corrs : List (PC × Corr)}
    {st st' : List (Nat × Coeffs)}, corrs.foldlM (filterStep pcs) st = .ok st' →
    (∀ e ∈ corrs, ∀ i q, e.2 ≠ .pair i q) → (Verif.Dict.keys st).Nodup →
    (Verif.Dict.keys st').Nodup ∧
    ∀ o k, Verif.Dict.get? st' o = some k ↔ Verif.Dict.get? st o = some k ∨
      ∃ e ∈ corrs, e.2 = .hardware k ∧ ∃ c, Verif.Dict.get? pcs e.1 = some c ∧ c.idx = o
  | [], st, st', h, _, hn => by
    simp only [FoldM.nil, Except.ok.injEq] at h; subst h
    exact ⟨hn, by simp⟩
  | e :: corrs, st, st', h, hp, hn => by
    obtain ⟨s1, h1, h2⟩ := (FoldM.ok_cons ..).mp h
    have step : (Verif.Dict.keys s1).Nodup ∧ ∀ o k, Verif.Dict.get? s1 o = some k ↔
        Verif.Dict.get? st o = some k ∨
          (e.2 = .hardware k ∧ ∃ c, Verif.Dict.get? pcs e.1 = some c ∧ c.idx = o) := by
      unfold filterStep at h1
      split at h1
      · rename_i hc
        simp only [Except.ok.injEq] at h1; subst h1
        exact ⟨hn, by simp [hc]⟩
      · rename_i c hc
        split at h1
        · rename_i he
          simp only [Except.ok.injEq] at h1; subst h1
          exact ⟨hn, by simp [he]⟩
        · rename_i k he
          split at h1
          · simp at h1
          · rename_i hnone
            simp only [Except.ok.injEq] at h1; subst h1
            refine ⟨Verif.Dict.keys_set_nodup hn _ _, fun o k' => ?_⟩
            rw [Verif.Dict.get?_set]
            have hnone : Verif.Dict.get? st c.idx = none := by simpa using hnone
            split
            · rename_i ho
              subst ho
              simp [hnone, he, hc]
            · rename_i ho
              simp [he, hc]
              intro _ h
              exact absurd h.symm ho
        · rename_i i q he
          exact absurd he (hp e (by simp) i q)
    obtain ⟨a, b⟩ := filterLoop h2 (fun x hx => hp x (by simp [hx])) step.1
    refine ⟨a, fun o k => ?_⟩
    rw [b, step.2]
    simp only [List.mem_cons, exists_eq_or_imp]
    exact or_assoc

theorem coeffsOk_iff (s : Stage) (v : List Rat) :
    coeffsOk s v = true ↔ if s = .fir then v.length = 32 else ValidExp v := by
  have hexp : (match v with
    | [a, b] => decide (6 ≤ a) && decide (-1 ≤ b) && decide (b < 1)
    | _ => false) = true ↔ ValidExp v := by
    unfold ValidExp
    split
    · rename_i a b
      simp only [Bool.and_eq_true, decide_eq_true_eq, List.cons.injEq, and_true]
      constructor
      · rintro ⟨⟨h1, h2⟩, h3⟩; exact ⟨a, b, ⟨rfl, rfl⟩, h1, h2, h3⟩
      · rintro ⟨a', b', ⟨rfl, rfl⟩, h1, h2, h3⟩; exact ⟨⟨h1, h2⟩, h3⟩
    · rename_i hx
      simp only [Bool.false_eq_true, false_iff, not_exists, not_and]
      rintro a b rfl
      exact absurd rfl (hx a b)
  cases s <;> simp only [coeffsOk, reduceCtorEq, if_false, if_true, decide_eq_true_eq] <;> exact hexp

theorem enableStep_ok {debug : Nat → Bool} {f f' : Filters} {e : Nat × Coeffs}
    (h : enableStep debug f e = .ok f') :
    (∀ s v, e.2 s = some v → if s = .fir then v.length = 32 else ValidExp v) ∧
    (∀ s v, e.2 s = some v → (f' e.1 s).coeffs = some v ∧ (f' e.1 s).config = .enabled) ∧
    (∀ s, e.2 s = none → f' e.1 s = f e.1 s) ∧ (∀ o s, o ≠ e.1 → f' o s = f o s) := by
  unfold enableStep at h
  split at h
  · rename_i hok
    split at h
    · simp only [Except.ok.injEq] at h; subst h
      refine ⟨fun s v hv => ?_, fun s v hv => ?_, fun s hn => ?_, fun o s ho => ?_⟩
      · rw [List.all_eq_true] at hok
        have := hok s (by cases s <;> simp [stages])
        rw [hv] at this
        exact (coeffsOk_iff s v).mp (by simpa using this)
      · simp [Filters.update, hv]
      · simp [Filters.update, hn]
      · simp [Filters.update, ho]
    · simp at h
  · simp at h

theorem enableLoop {debug : Nat → Bool} : ∀ {cfg : List (Nat × Coeffs)} {f f' : Filters},
    cfg.foldlM (enableStep debug) f = .ok f' → (Verif.Dict.keys cfg).Nodup →
    (∀ o k, Verif.Dict.get? cfg o = some k → ∀ s v, k s = some v →
      (if s = .fir then v.length = 32 else ValidExp v) ∧
      (f' o s).coeffs = some v ∧ (f' o s).config = .enabled) ∧
    (∀ o s, (∀ k, Verif.Dict.get? cfg o = some k → k s = none) → f' o s = f o s)
  | [], f, f', h, _ => by
    simp only [FoldM.nil, Except.ok.injEq] at h; subst h
    exact ⟨by simp [Verif.Dict.get?_nil], fun _ _ _ => rfl⟩
  | e :: cfg, f, f', h, hn => by
    obtain ⟨f1, h1, h2⟩ := (FoldM.ok_cons ..).mp h
    have hn' : e.1 ∉ Verif.Dict.keys cfg ∧ (Verif.Dict.keys cfg).Nodup := by
      simpa [Verif.Dict.keys] using hn
    obtain ⟨a, b⟩ := enableLoop h2 hn'.2
    have hs := enableStep_ok h1
    have he : ∀ s, f' e.1 s = f1 e.1 s := fun s => b e.1 s (fun k hk => by
      rw [(Verif.Dict.get?_eq_none_iff ..).mpr hn'.1] at hk; simp at hk)
    refine ⟨fun o k hk s v hv => ?_, fun o s hk => ?_⟩
    · rw [Verif.Dict.get?_cons] at hk
      split at hk
      · rename_i ho
        subst ho
        simp only [Option.some.injEq] at hk
        subst hk
        rw [he]
        exact ⟨hs.1 s v hv, hs.2.1 s v hv⟩
      · exact a o k hk s v hv
    · by_cases ho : e.1 = o
      · subst ho
        rw [he]
        exact hs.2.2.1 s (hk e.2 (by simp [Verif.Dict.get?_cons]))
      · rw [b o s (fun k hk' => hk k (by rw [Verif.Dict.get?_cons, if_neg ho]; exact hk')),
          hs.2.2.2 o s (Ne.symm ho)]

/-- **C56.** On a QCM with real outputs only, an output has precisely the filters that the correction of
its port-clock has coefficients for, with those coefficients; the other filters are bypassed, or only
delay if the description of the channel says so.  The coefficients of exponential filters are valid. -/
theorem filters_exact {pcs : List (PC × Chan)} {descs : List (Chan × FDesc)} {corrs : List (PC × Corr)}
    {debug : Nat → Bool} {f : Filters} (h : filters .qcm pcs descs corrs debug = .ok f)
    (hp : ∀ e ∈ corrs, ∀ i q, e.2 ≠ .pair i q) (o : Nat) (s : Stage) :
    (∀ e ∈ corrs, ∀ k c v, e.2 = .hardware k → Verif.Dict.get? pcs e.1 = some c → c.idx = o →
      k s = some v → (if s = .fir then v.length = 32 else ValidExp v) ∧
        (f o s).coeffs = some v ∧ (f o s).config = .enabled) ∧
    ((∀ e ∈ corrs, ∀ k c, e.2 = .hardware k → Verif.Dict.get? pcs e.1 = some c → c.idx = o →
        k s = none) →
      (f o s).coeffs = none ∧
      ((∀ e ∈ descs, e.1 ∈ pcs.map Prod.snd → e.1.mode ≠ .digital → ¬Covers e.1 o) →
        (f o s).config = .bypassed) ∧
      (∀ c d, (c, d) ∈ descs → c ∈ pcs.map Prod.snd → c.mode ≠ .digital → Covers c o →
        (∀ e ∈ descs, e.1 ∈ pcs.map Prod.snd → e.1.mode ≠ .digital → Covers e.1 o →
          e.2.comp = d.comp) →
        ((f o s).config = .delayComp ↔ HasBit d.comp s) ∧
        ((f o s).config = .bypassed ↔ ¬HasBit d.comp s))) := by
  unfold filters at h
  rw [if_pos rfl] at h
  split at h
  · simp at h
  rename_i cfg hcfg
  split at h
  · simp at h
  rename_i f1 hf1
  obtain ⟨hnd, hget⟩ := filterLoop hcfg hp (by simp [Verif.Dict.keys])
  obtain ⟨a, b⟩ := enableLoop h hnd
  refine ⟨fun e he k c v hk hc ho hv => ?_, fun hnone => ?_⟩
  · exact a o k ((hget o k).mpr (Or.inr ⟨e, he, hk, c, hc, ho⟩)) s v hv
  · have : f o s = f1 o s := by
      refine b o s fun k hk => ?_
      rcases (hget o k).mp hk with hk | ⟨e, he, hk, c, hc, ho⟩
      · simp [Verif.Dict.get?_nil] at hk
      · exact hnone e he k c hk hc ho
    rw [this]
    have hl := latencies_config hf1 o s
    refine ⟨by rw [latencies_coeffs hf1]; rfl, fun hn => by rw [hl.1 hn]; rfl, hl.2⟩

/-- **C56.** A correction for both outputs of a complex channel, if it is the only one of the module,
enables the filters of both outputs. -/
theorem filters_pair {pcs : List (PC × Chan)} {descs : List (Chan × FDesc)} {pc : PC} {c : Chan}
    {i q : Coeffs} {debug : Nat → Bool} {f : Filters}
    (h : filters .qcm pcs descs [(pc, .pair i q)] debug = .ok f)
    (hc : Verif.Dict.get? pcs pc = some c) (s : Stage) :
    (∀ v, i s = some v → (f (2 * c.idx) s).coeffs = some v ∧ (f (2 * c.idx) s).config = .enabled) ∧
    (∀ v, q s = some v →
      (f (2 * c.idx + 1) s).coeffs = some v ∧ (f (2 * c.idx + 1) s).config = .enabled) := by
  unfold filters at h
  rw [if_pos rfl] at h
  split at h
  · simp at h
  rename_i cfg hcfg
  split at h
  · simp at h
  rename_i f1 hf1
  obtain ⟨s1, e1, e2⟩ := (FoldM.ok_cons ..).mp hcfg
  simp only [FoldM.nil, Except.ok.injEq] at e2
  subst e2
  simp only [filterStep, hc, Verif.Dict.get?_nil, Option.isSome_none, Bool.false_eq_true, if_false,
    Except.ok.injEq] at e1
  subst e1
  have hnd : (Verif.Dict.keys (Verif.Dict.set (Verif.Dict.set ([] : List (Nat × Coeffs)) (2 * c.idx) i)
      (2 * c.idx + 1) q)).Nodup :=
    Verif.Dict.keys_set_nodup (Verif.Dict.keys_set_nodup (by simp [Verif.Dict.keys]) _ _) _ _
  obtain ⟨a, b⟩ := enableLoop h hnd
  refine ⟨fun v hv => (a (2 * c.idx) i ?_ s v hv).2, fun v hv => (a (2 * c.idx + 1) q ?_ s v hv).2⟩
  · rw [Verif.Dict.get?_set_ne _ _ (by omega), Verif.Dict.get?_set_self]
  · rw [Verif.Dict.get?_set_self]

end Verif.Settings
