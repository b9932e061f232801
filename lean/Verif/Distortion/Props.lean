/-
Distortion corrections: every pulse on a corrected port-clock is corrected once.
-/
import Verif.Distortion.Spec
import Verif.Shapes.Interp
import Verif.Shapes.Sampling

namespace Verif.Distortion

open Verif.Shapes (Err Shape)

set_option linter.unusedSimpArgs false
set_option linter.unusedVariables false

variable {A K X : Type}

theorem clip_limited (lo hi x : ℝ) : Spec.Limited (some (lo, hi)) x (clip lo hi x) := by
  simp only [Spec.Limited, clip]
  refine ⟨fun h1 h2 => by rw [max_eq_left h1, min_eq_left h2],
    fun h => by rw [min_eq_right]; exact le_max_of_le_left h.le,
    fun h1 h2 => by rw [max_eq_right h1.le, min_eq_left h2], min_le_right _ _⟩

theorem linspace_length (d : ℝ) (n : Nat) : (linspace d n).length = n := by simp [linspace]

theorem linspace_get (d : ℝ) (n k : Nat) (hk : k < n) (hn : 2 ≤ n) :
    (linspace d n)[k]? = some (k / (n - 1) * d) := by
  simp only [linspace, List.getElem?_map, List.getElem?_range hk, Option.map_some]
  rw [if_neg (by omega)]
  congr 1
  ring

theorem linspace_head (d : ℝ) (n : Nat) (hn : 2 ≤ n) : (linspace d n).head? = some 0 := by
  rw [List.head?_eq_getElem?, linspace_get d n 0 (by omega) hn]; simp

theorem linspace_last (d : ℝ) (n : Nat) (hn : 2 ≤ n) : (linspace d n).getLast? = some d := by
  rw [List.getLast?_eq_getElem?, linspace_length, linspace_get d n (n - 1) (by omega) hn]
  have h1 : ((n - 1 : Nat) : ℝ) = n - 1 := by
    rw [Nat.cast_sub (by omega)]; simp
  have h2 : (n : ℝ) - 1 ≠ 0 := by
    have : (2 : ℝ) ≤ n := by exact_mod_cast hn
    linarith
  rw [h1, div_self h2, one_mul]

/-- The list of samples after clipping. -/
noncomputable def clipped (c : Software) (ys : List ℝ) : List ℝ :=
  match c.clipping with
  | some (lo, hi) => ys.map (clip lo hi)
  | none => ys

theorem clipped_limited (c : Software) (ys : List ℝ) : List.Forall₂ (Spec.Limited c.clipping) ys (clipped c ys) := by
  simp only [clipped]
  cases c.clipping with
  | none =>
    simp only
    induction ys with
    | nil => exact .nil
    | cons a l ih => exact .cons rfl ih
  | some b =>
    simp only
    induction ys with
    | nil => exact .nil
    | cons a l ih => exact .cons (clip_limited _ _ _) ih

/-- The samples of a corrected pulse, the single one doubled. -/
def doubled (zs : List ℝ) : List ℝ := if zs.length = 1 then zs ++ zs.getLast?.toList else zs

theorem doubled_one (zs : List ℝ) (h : zs.length = 1) : doubled zs = zs ++ zs := by
  obtain ⟨a, rfl⟩ := List.length_eq_one_iff.mp h
  simp [doubled]

theorem correctPulse_eq (p : Pulse X) (c : Software) : correctPulse p c =
    match p.shape with
    | none => .error .typeError
    | some s => match Shapes.getWaveform s p.duration c.samplingRate with
      | .error e => .error e
      | .ok data => match c.filter data with
        | .error e => .error e
        | .ok ys => match (linspace p.duration (doubled (clipped c ys)).length).getLast?,
            (linspace p.duration (doubled (clipped c ys)).length).head? with
          | some l, some h => .ok { port := p.port, clock := p.clock, t0 := p.t0, duration := l - h
                                    shape := some (.interpolated ((doubled (clipped c ys)).map (fun x : ℝ => (x : ℂ)))
                                      (linspace p.duration (doubled (clipped c ys)).length))
                                    hasOffset := false, other := none }
          | _, _ => .error .indexError := by
  simp only [correctPulse, doubled, clipped]
  cases p.shape with
  | none => rfl
  | some s =>
    simp only [bind, Except.bind, pure, Except.pure]
    cases Shapes.getWaveform s p.duration c.samplingRate with
    | error e => rfl
    | ok data =>
      simp only
      cases c.filter data <;> rfl

theorem Limited.clipped {c : Software} {ys zs : List ℝ} (h : List.Forall₂ (Spec.Limited c.clipping) ys zs) :
    zs.length = (Distortion.clipped c ys).length := by
  rw [← h.length_eq, ← (clipped_limited c ys).length_eq]

/-- Correcting a pulse: exactly as specified, or impossible. -/
theorem correctPulse_spec (p : Pulse X) (c : Software) :
    (∀ p', correctPulse p c = .ok p' → Spec.CorrectedBy c p p') ∧
    (∀ e, correctPulse p c = .error e → ¬ ∃ p' : Pulse X, Spec.CorrectedBy c p p') := by
  rw [correctPulse_eq]
  cases hs : p.shape with
  | none =>
    simp only
    refine ⟨by simp, ?_⟩
    rintro e - ⟨p', h⟩
    obtain ⟨s, data, ys, zs, h1, -⟩ := h.samples
    simp [hs] at h1
  | some s =>
    simp only
    cases hg : Shapes.getWaveform s p.duration c.samplingRate with
    | error e =>
      simp only
      refine ⟨by simp, ?_⟩
      rintro e - ⟨p', h⟩
      obtain ⟨s', data, ys, zs, h1, h2, -⟩ := h.samples
      rw [hs] at h1
      obtain rfl := Option.some.inj h1
      rw [hg] at h2; simp at h2
    | ok data =>
      simp only
      cases hf : c.filter data with
      | error e =>
        simp only
        refine ⟨by simp, ?_⟩
        rintro e - ⟨p', h⟩
        obtain ⟨s', data', ys, zs, h1, h2, h3, -⟩ := h.samples
        rw [hs] at h1
        obtain rfl := Option.some.inj h1
        rw [hg] at h2
        obtain rfl := Except.ok.inj h2
        rw [hf] at h3; simp at h3
      | ok ys =>
        simp only
        by_cases h0 : (clipped c ys).length = 0
        · have : clipped c ys = [] := List.length_eq_zero_iff.mp h0
          rw [this]
          simp only [doubled, List.length_nil, reduceCtorEq, Nat.zero_ne_one, if_false, linspace, List.range_zero,
            List.map_nil, List.getLast?_nil]
          refine ⟨by simp, ?_⟩
          rintro e - ⟨p', h⟩
          obtain ⟨s', data', ys', zs, h1, h2, h3, h4, zs', ts, -, h6, h7, -, h9, -⟩ := h.samples
          rw [hs] at h1
          obtain rfl := Option.some.inj h1
          rw [hg] at h2
          obtain rfl := Except.ok.inj h2
          rw [hf] at h3
          obtain rfl := Except.ok.inj h3
          have := Limited.clipped h4
          rw [h7 (by omega)] at h9
          omega
        · have h2 : 2 ≤ (doubled (clipped c ys)).length := by
            by_cases h1 : (clipped c ys).length = 1
            · rw [doubled_one _ h1]; simp; omega
            · simp only [doubled, if_neg h1]; omega
          rw [linspace_last _ _ h2, linspace_head _ _ h2]
          simp only [Except.ok.injEq, reduceCtorEq, false_imp_iff, implies_true, and_true]
          rintro p' rfl
          refine ⟨rfl, rfl, rfl, by simp, ⟨rfl, rfl⟩, ?_⟩
          refine ⟨s, data, ys, clipped c ys, hs, hg, hf, clipped_limited c ys, doubled (clipped c ys), _, rfl,
            fun h => doubled_one _ h, fun h => by simp [doubled, h], linspace_length _ _, h2, ?_⟩
          intro k hk
          rw [linspace_length] at hk
          exact linspace_get _ _ k hk h2

/-- The correction that is wanted for a pulse. -/
theorem wanted_iff (cfg : String → Option Correction) (p : Pulse X) (c : Software) :
    Spec.Wanted cfg p c ↔ cfg (key p) = some (.software c) := by
  simp [Spec.Wanted, key]

theorem correctable_iff (ps : List (Pulse X)) (h : ps ≠ []) :
    correctable ps = true ↔ ∀ q ∈ ps, q.hasOffset = false := by
  simp [correctable, h]

theorem correctEntry_spec (cfg : String → Option Correction) (ps qs : List (Pulse X)) (p : Pulse X) (hp : p ∈ ps)
    (hq : qs ≠ []) (hsame : correctable qs = correctable ps) :
    (∀ r, correctEntry cfg qs p = .ok r → Spec.Entry cfg ps p r.1 ∧
      (r.2 = true ↔ (∃ c, Spec.Wanted cfg p c) ∧ ∀ q ∈ ps, q.hasOffset = false) ∧
      (r.1.hasOffset = p.hasOffset ∨ correctable qs = true ∧ r.1.hasOffset = false)) ∧
    (∀ e, correctEntry cfg qs p = .error e → ∃ c, Spec.Wanted cfg p c ∧ (∀ q ∈ ps, q.hasOffset = false) ∧
      ¬ ∃ p' : Pulse X, Spec.CorrectedBy c p p') := by
  have hps : ps ≠ [] := by rintro rfl; simp at hp
  have hno : ¬ correctable ps = true → ∃ q ∈ ps, q.hasOffset = true := by
    intro h
    by_contra hc
    apply h
    rw [correctable_iff ps hps]
    intro q hq
    cases hb : q.hasOffset
    · rfl
    · exact absurd ⟨q, hq, hb⟩ hc
  simp only [correctEntry]
  cases hk : cfg (key p) with
  | none =>
    have hw : ¬ ∃ c, Spec.Wanted cfg p c := by rintro ⟨c, h⟩; rw [wanted_iff, hk] at h; simp at h
    simp only [Except.ok.injEq, reduceCtorEq, false_imp_iff, implies_true, and_true]
    rintro r rfl
    exact ⟨⟨fun c h => absurd ⟨c, h⟩ hw, fun _ => rfl⟩, by simp; intro c h; exact absurd ⟨c, h⟩ hw, Or.inl rfl⟩
  | some d =>
    cases d with
    | hardware =>
      have hw : ¬ ∃ c, Spec.Wanted cfg p c := by rintro ⟨c, h⟩; rw [wanted_iff, hk] at h; simp at h
      simp only [Except.ok.injEq, reduceCtorEq, false_imp_iff, implies_true, and_true]
      rintro r rfl
      exact ⟨⟨fun c h => absurd ⟨c, h⟩ hw, fun _ => rfl⟩, by simp; intro c h; exact absurd ⟨c, h⟩ hw, Or.inl rfl⟩
    | software c =>
      have hw : Spec.Wanted cfg p c := (wanted_iff _ _ _).mpr hk
      have huniq : ∀ c', Spec.Wanted cfg p c' → c' = c := by
        intro c' h; rw [wanted_iff, hk] at h; simpa using h.symm
      simp only [hsame]
      by_cases hc : correctable ps = true
      · have hno' := (correctable_iff ps hps).mp hc
        simp only [hc, if_true]
        cases hcp : correctPulse p c with
        | error e =>
          refine ⟨by simp [Except.map], ?_⟩
          intro e' _
          exact ⟨c, hw, hno', (correctPulse_spec p c).2 e hcp⟩
        | ok p' =>
          have hs := (correctPulse_spec p c).1 p' hcp
          refine ⟨?_, by simp [Except.map]⟩
          intro r hr
          simp only [Except.map, Except.ok.injEq] at hr
          subst hr
          refine ⟨⟨fun c' h' _ => by rw [huniq c' h']; exact hs, ?_⟩, by simp; exact ⟨⟨c, hw⟩, hno'⟩,
            Or.inr ⟨trivial, hs.plain.1⟩⟩
          rintro (h | ⟨q, hq, hb⟩)
          · exact absurd ⟨c, hw⟩ h
          · rw [hno' q hq] at hb; simp at hb
      · simp only [hc, if_false, Except.ok.injEq, reduceCtorEq, false_imp_iff, implies_true, and_true, Bool.false_eq_true]
        rintro r rfl
        obtain ⟨q, hq, hb⟩ := hno hc
        refine ⟨⟨fun c' _ h => ?_, fun _ => rfl⟩, ?_, by left; trivial⟩
        · rw [h q hq] at hb; simp at hb
        · simp only [Bool.false_eq_true, false_iff]
          rintro ⟨-, h⟩
          rw [h q hq] at hb; simp at hb

theorem correctable_set (pre : List (Pulse X)) (p p' : Pulse X) (rest : List (Pulse X))
    (h : p'.hasOffset = p.hasOffset ∨ correctable (pre ++ p :: rest) = true ∧ p'.hasOffset = false) :
    correctable (pre ++ p' :: rest) = correctable (pre ++ p :: rest) := by
  rcases h with h | ⟨h1, h2⟩
  · have e : ∀ q : Pulse X, (pre ++ q :: rest).isEmpty = false := by intro q; cases pre <;> rfl
    simp [correctable, h, e]
  · rw [h1]
    simp only [correctable, Bool.and_eq_true, Bool.not_eq_true', List.any_append, List.any_cons, Bool.or_eq_false_iff] at h1 ⊢
    exact ⟨by simp, h1.2.1, h2, h1.2.2.2⟩

/-- The loop over the entries of an operation. -/
theorem correctList_spec (cfg : String → Option Correction) (ps : List (Pulse X)) :
    ∀ (rest pre : List (Pulse X)), (∀ p ∈ rest, p ∈ ps) → (rest ≠ [] → correctable (pre ++ rest) = correctable ps) →
    (∀ r, correctList cfg (pre ++ rest) pre.length rest.length = .ok r →
      ∃ rest', r.1 = pre ++ rest' ∧ List.Forall₂ (Spec.Entry cfg ps) rest rest' ∧
        (r.2 = true ↔ pre = [] ∧ (∃ p c, rest.head? = some p ∧ Spec.Wanted cfg p c) ∧
          ∀ q ∈ ps, q.hasOffset = false)) ∧
    (∀ e, correctList cfg (pre ++ rest) pre.length rest.length = .error e →
      ∃ p ∈ rest, ∃ c, Spec.Wanted cfg p c ∧ (∀ q ∈ ps, q.hasOffset = false) ∧
      ¬ ∃ p' : Pulse X, Spec.CorrectedBy c p p') := by
  intro rest
  induction rest with
  | nil =>
    intro pre _ _
    simp only [List.length_nil, correctList, Except.ok.injEq, reduceCtorEq, false_imp_iff, implies_true, and_true]
    rintro r rfl
    exact ⟨[], by simp, .nil, by simp⟩
  | cons p rest ih =>
    intro pre hmem hcor
    have hget : (pre ++ p :: rest)[pre.length]? = some p := by simp
    have hp := hmem p (by simp)
    have hE := correctEntry_spec cfg ps (pre ++ p :: rest) p hp (by simp) (hcor (by simp))
    simp only [List.length_cons, correctList, hget]
    cases he : correctEntry cfg (pre ++ p :: rest) p with
    | error e =>
      refine ⟨by simp [bind, Except.bind], ?_⟩
      intro e' _
      obtain ⟨c, h1, h2, h3⟩ := hE.2 e he
      exact ⟨p, by simp, c, h1, h2, h3⟩
    | ok r =>
      obtain ⟨hr1, hr2, hr3⟩ := hE.1 r he
      have hset : (pre ++ p :: rest).set pre.length r.1 = (pre ++ [r.1]) ++ rest := by simp
      have hlen : pre.length + 1 = (pre ++ [r.1]).length := by simp
      have hI := ih (pre ++ [r.1]) (fun q hq => hmem q (by simp [hq])) (fun _ => by
        have := correctable_set pre p r.1 rest hr3
        rw [List.append_assoc, List.singleton_append, this]
        exact hcor (by simp))
      simp only [bind, Except.bind, hset, hlen]
      cases hrest : correctList cfg ((pre ++ [r.1]) ++ rest) (pre ++ [r.1]).length rest.length with
      | error e =>
        refine ⟨by simp [pure, Except.pure], ?_⟩
        intro e' _
        obtain ⟨q, hq, c, h⟩ := hI.2 e hrest
        exact ⟨q, by simp [hq], c, h⟩
      | ok rr =>
        obtain ⟨rest', h1, h2, h3⟩ := hI.1 rr hrest
        refine ⟨?_, by simp [pure, Except.pure]⟩
        intro out hout
        simp only [pure, Except.pure, Except.ok.injEq] at hout
        subst hout
        refine ⟨r.1 :: rest', by simp [h1], .cons hr1 h2, ?_⟩
        have hf : rr.2 = false := by
          cases hb : rr.2
          · rfl
          · have := (h3.mp hb).1; simp at this
        simp only [hf, Bool.or_false, Bool.and_eq_true, beq_iff_eq, List.length_eq_zero_iff, hr2, List.head?_cons]
        constructor
        · rintro ⟨h4, ⟨c, h5⟩, h6⟩; exact ⟨h4, ⟨p, c, rfl, h5⟩, h6⟩
        · rintro ⟨h4, ⟨q, c, h5, h7⟩, h6⟩
          obtain rfl := Option.some.inj h5
          exact ⟨h4, ⟨c, h7⟩, h6⟩

/-- One operation with pulses. -/
theorem correctList_all (cfg : String → Option Correction) (ps : List (Pulse X)) :
    (∀ r, correctList cfg ps 0 ps.length = .ok r → List.Forall₂ (Spec.Entry cfg ps) ps r.1 ∧
      (r.2 = true ↔ Spec.FirstCorrected cfg ps)) ∧
    (∀ e, correctList cfg ps 0 ps.length = .error e → ∃ p ∈ ps, ∃ c, Spec.Wanted cfg p c ∧
      (∀ q ∈ ps, q.hasOffset = false) ∧ ¬ ∃ p' : Pulse X, Spec.CorrectedBy c p p') := by
  have := correctList_spec cfg ps ps [] (fun p h => h) (fun _ => rfl)
  refine ⟨?_, this.2⟩
  intro r hr
  obtain ⟨rest', h1, h2, h3⟩ := this.1 r hr
  simp only [List.nil_append] at h1
  refine ⟨h1 ▸ h2, ?_⟩
  rw [h3]
  simp [Spec.FirstCorrected]

mutual
theorem read_congr (h h' : Heap X) : (o : Op A K) → (∀ l ∈ lists o, h l = h' l) → read h o = read h' o
  | .leaf l acqs kind, e => by simp only [read, e l (by simp [lists])]
  | .control kind b, e => by simp only [read, read_congr h h' b (by simpa [lists] using e)]
  | .schedule kind os, e => by simp only [read, readAll_congr h h' os (by simpa [lists] using e)]
theorem readAll_congr (h h' : Heap X) : (os : List (Op A K)) → (∀ l ∈ listsAll os, h l = h' l) →
    readAll h os = readAll h' os
  | [], _ => rfl
  | o :: os, e => by
    simp only [readAll, read_congr h h' o (fun l hl => e l (by simp [listsAll, hl])),
      readAll_congr h h' os (fun l hl => e l (by simp [listsAll, hl]))]
end

mutual
/-- If no two operations share a `pulse_info` list, the corrections are what they are meant to be. -/
theorem apply_ok (num : K) (cfg : String → Option Correction) (h : Heap X) : (o : Op A K) → (lists o).Nodup →
    ∀ r, apply num cfg h o = .ok r → Spec.Corrected num cfg (read h o) (read r.1 r.2) ∧
      lists r.2 = lists o ∧ ∀ l, l ∉ lists o → r.1 l = h l
  | .leaf l acqs kind, hn, r, hr => by
    simp only [apply, bind, Except.bind, pure, Except.pure] at hr
    cases hc : correctList cfg (h l) 0 (h l).length with
    | error e => simp [hc] at hr
    | ok out =>
      simp only [hc, Except.ok.injEq] at hr
      subst hr
      obtain ⟨h1, h2⟩ := (correctList_all cfg (h l)).1 out hc
      refine ⟨?_, ?_, ?_⟩
      · by_cases hf : out.2 = true
        · simp only [hf, if_true, read]
          exact .leafSubstituted _ _ _ _ h1 (h2.mp hf)
        · simp only [hf, if_false, read, Bool.false_eq_true, if_true]
          exact .leafKept _ _ _ _ h1 (fun h' => hf (h2.mpr h'))
      · split <;> rfl
      · intro k hk
        simp only [lists, List.mem_singleton] at hk
        simp [hk]
  | .control kind b, hn, r, hr => by
    simp only [apply, bind, Except.bind, pure, Except.pure] at hr
    cases hb : apply num cfg h b with
    | error e => simp [hb] at hr
    | ok rb =>
      simp only [hb, Except.ok.injEq] at hr
      subst hr
      obtain ⟨h1, h2, h3⟩ := apply_ok num cfg h b (by simpa [lists] using hn) rb hb
      exact ⟨.control _ _ _ h1, by simpa [lists] using h2, by simpa [lists] using h3⟩
  | .schedule kind os, hn, r, hr => by
    simp only [apply, bind, Except.bind, pure, Except.pure] at hr
    cases hb : applyAll num cfg h os with
    | error e => simp [hb] at hr
    | ok rb =>
      simp only [hb, Except.ok.injEq] at hr
      subst hr
      obtain ⟨h1, h2, h3⟩ := applyAll_ok num cfg h os (by simpa [lists] using hn) rb hb
      exact ⟨.schedule _ _ _ h1, by simpa [lists] using h2, by simpa [lists] using h3⟩
theorem applyAll_ok (num : K) (cfg : String → Option Correction) (h : Heap X) : (os : List (Op A K)) →
    (listsAll os).Nodup → ∀ r, applyAll num cfg h os = .ok r →
      Spec.CorrectedAll num cfg (readAll h os) (readAll r.1 r.2) ∧
      listsAll r.2 = listsAll os ∧ ∀ l, l ∉ listsAll os → r.1 l = h l
  | [], hn, r, hr => by
    simp only [applyAll, Except.ok.injEq] at hr
    subst hr
    exact ⟨.nil, rfl, fun _ _ => rfl⟩
  | o :: os, hn, r, hr => by
    simp only [listsAll, List.nodup_append] at hn
    obtain ⟨n1, n2, n3⟩ := hn
    simp only [applyAll, bind, Except.bind, pure, Except.pure] at hr
    cases ho : apply num cfg h o with
    | error e => simp [ho] at hr
    | ok ro =>
      simp only [ho] at hr
      cases hs : applyAll num cfg ro.1 os with
      | error e => simp [hs] at hr
      | ok rs =>
        simp only [hs, Except.ok.injEq] at hr
        subst hr
        obtain ⟨h1, h2, h3⟩ := apply_ok num cfg h o n1 ro ho
        obtain ⟨g1, g2, g3⟩ := applyAll_ok num cfg ro.1 os n2 rs hs
        refine ⟨?_, by simp [listsAll, h2, g2], ?_⟩
        · have e1 : readAll ro.1 os = readAll h os :=
            readAll_congr _ _ os (fun l hl => h3 l (fun h' => n3 l h' l hl rfl))
          have e2 : read rs.1 ro.2 = read ro.1 ro.2 :=
            read_congr _ _ _ (fun l hl => g3 l (fun h' => n3 l (h2 ▸ hl) l h' rfl))
          simp only [readAll, e2]
          rw [e1] at g1
          exact .cons _ _ _ _ h1 g1
        · intro l hl
          simp only [listsAll, List.mem_append, not_or] at hl
          simp only [g3 l hl.2, h3 l hl.1]
end

theorem mem_readAll (h : Heap X) {o : Op A K} {os : List (Op A K)} (hm : o ∈ os) : read h o ∈ readAll h os := by
  induction os with
  | nil => simp at hm
  | cons a os ih =>
    simp only [readAll, List.mem_cons]
    rcases List.mem_cons.mp hm with rfl | h'
    · exact Or.inl rfl
    · exact Or.inr (ih h')

mutual
/-- An error means that a pulse that is to be corrected cannot be corrected. -/
theorem apply_error (num : K) (cfg : String → Option Correction) (h : Heap X) : (o : Op A K) → (lists o).Nodup →
    ∀ e, apply num cfg h o = .error e → Spec.Impossible cfg (read h o)
  | .leaf l acqs kind, hn, e, he => by
    simp only [apply, bind, Except.bind, pure, Except.pure] at he
    cases hc : correctList cfg (h l) 0 (h l).length with
    | error e =>
      obtain ⟨p, hp, c, h1, h2, h3⟩ := (correctList_all cfg (h l)).2 e hc
      exact .leaf _ _ _ p c hp h1 h2 h3
    | ok out => simp [hc] at he
  | .control kind b, hn, e, he => by
    simp only [apply, bind, Except.bind, pure, Except.pure] at he
    cases hb : apply num cfg h b with
    | error e' => exact .control _ _ (apply_error num cfg h b (by simpa [lists] using hn) e' hb)
    | ok rb => simp [hb] at he
  | .schedule kind os, hn, e, he => by
    simp only [apply, bind, Except.bind, pure, Except.pure] at he
    cases hb : applyAll num cfg h os with
    | error e' =>
      obtain ⟨t, ht, hi⟩ := applyAll_error num cfg h os (by simpa [lists] using hn) e' hb
      exact .schedule _ _ t ht hi
    | ok rb => simp [hb] at he
theorem applyAll_error (num : K) (cfg : String → Option Correction) (h : Heap X) : (os : List (Op A K)) →
    (listsAll os).Nodup → ∀ e, applyAll num cfg h os = .error e →
      ∃ t ∈ readAll h os, Spec.Impossible cfg t
  | [], hn, e, he => by simp [applyAll] at he
  | o :: os, hn, e, he => by
    simp only [listsAll, List.nodup_append] at hn
    obtain ⟨n1, n2, n3⟩ := hn
    simp only [applyAll, bind, Except.bind, pure, Except.pure] at he
    cases ho : apply num cfg h o with
    | error e' => exact ⟨_, by simp [readAll], apply_error num cfg h o n1 e' ho⟩
    | ok ro =>
      simp only [ho] at he
      cases hs : applyAll num cfg ro.1 os with
      | error e' =>
        obtain ⟨t, ht, hi⟩ := applyAll_error num cfg ro.1 os n2 e' hs
        obtain ⟨-, -, h3⟩ := apply_ok num cfg h o n1 ro ho
        have e1 : readAll ro.1 os = readAll h os :=
          readAll_congr _ _ os (fun l hl => h3 l (fun h' => n3 l h' l hl rfl))
        rw [e1] at ht
        exact ⟨t, by simp [readAll, ht], hi⟩
      | ok rs => simp [hs] at he
end

/-- A pulse that cannot be corrected: no result is correct. -/
theorem impossible_no_result (num : K) (cfg : String → Option Correction) {t t' : Spec.Tree A K X}
    (hi : Spec.Impossible cfg t) : ¬ Spec.Corrected num cfg t t' := by
  induction hi generalizing t' with
  | leaf ps acqs kind p c hm hw hp hn =>
    have : ∀ ps', List.Forall₂ (Spec.Entry cfg ps) ps ps' → False := by
      intro ps' h
      have gen : ∀ (l l' : List (Pulse X)), List.Forall₂ (Spec.Entry cfg ps) l l' → p ∈ l → ∃ p', Spec.Entry cfg ps p p' := by
        intro l l' hf
        induction hf with
        | nil => intro h; simp at h
        | cons h1 _ ih =>
          intro h
          rcases List.mem_cons.mp h with rfl | h
          · exact ⟨_, h1⟩
          · exact ih h
      obtain ⟨p', he⟩ := gen ps ps' h hm
      exact hn ⟨p', he.1 c hw hp⟩
    intro hc
    cases hc with
    | leafKept _ ps' _ _ h _ => exact this _ h
    | leafSubstituted _ ps' _ _ h _ => exact this _ h
  | control kind b h ih =>
    intro hc
    cases hc with
    | control _ _ b' h' => exact ih h'
  | schedule kind os o hm h ih =>
    intro hc
    cases hc with
    | schedule _ _ os' h' =>
      have gen : ∀ l l' : List (Spec.Tree A K X), Spec.CorrectedAll num cfg l l' → o ∈ l → ∃ o', Spec.Corrected num cfg o o' := by
        intro l
        induction l with
        | nil => intro l' _ h; simp at h
        | cons a l ih2 =>
          intro l' hf hmem
          cases hf with
          | cons _ a' _ l'' h1 h2 =>
            rcases List.mem_cons.mp hmem with rfl | h
            · exact ⟨_, h1⟩
            · exact ih2 _ h2 h
      obtain ⟨o', ho⟩ := gen os os' h' hm
      exact ih ho

/-- **Distortion corrections.**  If no two operations share a `pulse_info` list: every pulse on a port-clock with a
software correction is corrected once, everything else stays (`Spec.Corrected`), and it is an error exactly if a
pulse that is to be corrected cannot be. -/
theorem corrections_exact (num : K) (cfg : String → Option Correction) (h : Heap X) (o : Op A K)
    (hn : (lists o).Nodup) :
    (∀ r, apply num cfg h o = .ok r → Spec.Corrected num cfg (read h o) (read r.1 r.2)) ∧
    ((∃ e, apply num cfg h o = .error e) ↔ Spec.Impossible cfg (read h o)) := by
  refine ⟨fun r hr => (apply_ok num cfg h o hn r hr).1, ?_, ?_⟩
  · rintro ⟨e, he⟩; exact apply_error num cfg h o hn e he
  · intro hi
    cases ha : apply num cfg h o with
    | error e => exact ⟨e, rfl⟩
    | ok r => exact absurd (apply_ok num cfg h o hn r ha).1 (impossible_no_result num cfg hi)

end Verif.Distortion
