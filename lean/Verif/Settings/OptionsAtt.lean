/-
C56: attenuations and mixer offsets.
-/
import Verif.Settings.OptionsProps

set_option linter.unusedSimpArgs false
set_option linter.unusedVariables false

namespace Verif.Settings

open Verif.Connect (PC Chan Mode Dir ModType)
open Verif.Settings.Spec

/-! ### Attenuation -/

theorem toInt_ok {v : Option Rat} {r : Option Int} (h : toInt v = .ok r) :
    r.map (fun n : Int => (n : Rat)) = v := by
  unfold toInt at h
  split at h
  · simp only [Except.ok.injEq] at h; subst h; rfl
  · rename_i x
    split at h
    · rename_i hd
      simp only [Except.ok.injEq] at h; subst h
      simp only [Option.map_some, Option.some.injEq]
      exact Rat.den_eq_one_iff x |>.mp hd
    · simp at h

theorem attenuation_ok {pcs : List (PC × Chan)} {inAtt outAtt : PC → Option Rat} {r : Att}
    (h : attenuation pcs inAtt outAtt = .ok r) : ∃ st,
    pcs.foldlM (attStep inAtt outAtt) ⟨inAttLoop pcs inAtt, none, none⟩ = .ok st ∧
    r.in0.map (fun n : Int => (n : Rat)) = st.in0 ∧ r.out0.map (fun n : Int => (n : Rat)) = st.out0 ∧
    r.out1.map (fun n : Int => (n : Rat)) = st.out1 := by
  unfold attenuation at h
  split at h
  · simp at h
  rename_i st hst
  split at h
  · simp at h
  rename_i i hi
  split at h
  · simp at h
  rename_i o0 h0
  split at h
  · simp at h
  rename_i o1 h1
  simp only [Except.ok.injEq] at h
  subst h
  exact ⟨st, hst, toInt_ok hi, toInt_ok h0, toInt_ok h1⟩

theorem attStep_out0 {inAtt outAtt : PC → Option Rat} {st st' : AttSt} {e : PC × Chan}
    (h : attStep inAtt outAtt st e = .ok st') :
    st'.out0 = if e.2 = complexOut 0 then outAtt e.1 else st.out0 := by
  unfold attStep at h
  repeat' split at h
  all_goals first
    | (simp at h; done)
    | (simp only [Except.ok.injEq] at h; subst h; simp_all)

theorem attStep_out1 {inAtt outAtt : PC → Option Rat} {st st' : AttSt} {e : PC × Chan}
    (h : attStep inAtt outAtt st e = .ok st') :
    st'.out1 = if e.2 = complexOut 1 then outAtt e.1 else st.out1 := by
  unfold attStep at h
  repeat' split at h
  all_goals first
    | (simp at h; done)
    | (simp only [Except.ok.injEq] at h; subst h; simp_all [complexOut])

theorem attStep_in0 {inAtt outAtt : PC → Option Rat} {st st' : AttSt} {e : PC × Chan}
    (h : attStep inAtt outAtt st e = .ok st') :
    (e.2 = complexOut 0 ∧ inAtt e.1 ≠ none → st.in0 = none ∧ st'.in0 = inAtt e.1) ∧
    (¬(e.2 = complexOut 0 ∧ inAtt e.1 ≠ none) → st'.in0 = st.in0) := by
  unfold attStep at h
  repeat' split at h
  all_goals first
    | (simp at h; done)
    | (simp only [Except.ok.injEq] at h; subst h; simp_all)

theorem map_int_some {o : Option Int} {a : Rat} (h : o.map (fun n : Int => (n : Rat)) = some a) :
    ∃ n : Int, o = some n ∧ (n : Rat) = a := by
  cases o with
  | none => simp at h
  | some n => exact ⟨n, rfl, by simpa using h⟩

theorem map_int_none {o : Option Int} (h : o.map (fun n : Int => (n : Rat)) = none) : o = none := by
  cases o with
  | none => rfl
  | some n => simp at h

/-- **C56.** If the port-clocks on the first or second output agree on the attenuation, the output is
set to it; it is not set if none of them asks for one. -/
theorem out_attenuation {pcs : List (PC × Chan)} {inAtt outAtt : PC → Option Rat} {r : Att}
    (h : attenuation pcs inAtt outAtt = .ok r) :
    (∀ a, All pcs ⟨.complex, .output, 0⟩ outAtt a → ∃ n : Int, r.out0 = some n ∧ (n : Rat) = a) ∧
    (Without pcs ⟨.complex, .output, 0⟩ outAtt → r.out0 = none) ∧
    (∀ a, All pcs ⟨.complex, .output, 1⟩ outAtt a → ∃ n : Int, r.out1 = some n ∧ (n : Rat) = a) ∧
    (Without pcs ⟨.complex, .output, 1⟩ outAtt → r.out1 = none) := by
  obtain ⟨st, hst, h1, h2, h3⟩ := attenuation_ok h
  refine ⟨fun a ha => map_int_some (h2.trans ?_), fun hw => map_int_none (h2.trans ?_),
    fun a ha => map_int_some (h3.trans ?_), fun hw => map_int_none (h3.trans ?_)⟩
  · obtain ⟨⟨e, he, hc⟩, hall⟩ := ha
    refine FoldM.established (fun s : AttSt => s.out0 = some a) he (fun s s' hs => ?_)
      (fun x hx s s' hp hs => ?_) hst
    · rw [attStep_out0 hs, if_pos (show e.2 = complexOut 0 from hc)]; exact hall e he hc
    · rw [attStep_out0 hs]
      split
      · rename_i hc; exact hall x hx hc
      · exact hp
  · refine FoldM.invariant (fun s : AttSt => s.out0 = none) (fun x hx s s' hp hs => ?_) rfl hst
    rw [attStep_out0 hs]
    split
    · rename_i hc; exact hw x hx hc
    · exact hp
  · obtain ⟨⟨e, he, hc⟩, hall⟩ := ha
    refine FoldM.established (fun s : AttSt => s.out1 = some a) he (fun s s' hs => ?_)
      (fun x hx s s' hp hs => ?_) hst
    · rw [attStep_out1 hs, if_pos (show e.2 = complexOut 1 from hc)]; exact hall e he hc
    · rw [attStep_out1 hs]
      split
      · rename_i hc; exact hall x hx hc
      · exact hp
  · refine FoldM.invariant (fun s : AttSt => s.out1 = none) (fun x hx s s' hp hs => ?_) rfl hst
    rw [attStep_out1 hs]
    split
    · rename_i hc; exact hw x hx hc
    · exact hp

theorem inAttLoop_spec (att : PC → Option Rat) (v : Option Rat) : ∀ (pcs : List (PC × Chan))
    (a : Option Rat), (∀ e ∈ pcs, e.2 = complexIn 0 → att e.1 = v) →
    (a = v ∨ ∃ e ∈ pcs, e.2 = complexIn 0) →
    pcs.foldl (fun a e => if e.2 = complexIn 0 then att e.1 else a) a = v
  | [], a, _, h => by simpa using h
  | e :: pcs, a, ha, h => by
    rw [List.foldl_cons]
    refine inAttLoop_spec att v pcs _ (fun x hx => ha x (by simp [hx])) ?_
    by_cases hc : e.2 = complexIn 0
    · left; rw [if_pos hc]; exact ha e (by simp) hc
    · rw [if_neg hc]
      rcases h with h | ⟨x, hx, hx'⟩
      · exact Or.inl h
      · rcases List.mem_cons.mp hx with rfl | hx
        · exact absurd hx' hc
        · exact Or.inr ⟨x, hx, hx'⟩

/-- **C56.** The attenuation of the input is the one given for the port-clocks on the input, or else for
a port-clock on the first output. -/
theorem in_attenuation {pcs : List (PC × Chan)} {inAtt outAtt : PC → Option Rat} {r : Att}
    (h : attenuation pcs inAtt outAtt = .ok r) :
    (∀ a, All pcs ⟨.complex, .input, 0⟩ inAtt a →
      (∃ n : Int, r.in0 = some n ∧ (n : Rat) = a) ∧ Without pcs ⟨.complex, .output, 0⟩ inAtt) ∧
    (∀ a, Without pcs ⟨.complex, .input, 0⟩ inAtt →
      (∃ e ∈ pcs, e.2 = ⟨.complex, .output, 0⟩ ∧ inAtt e.1 = some a) →
      ∃ n : Int, r.in0 = some n ∧ (n : Rat) = a) ∧
    (Without pcs ⟨.complex, .input, 0⟩ inAtt → Without pcs ⟨.complex, .output, 0⟩ inAtt →
      r.in0 = none) := by
  obtain ⟨st, hst, h1, h2, h3⟩ := attenuation_ok h
  have keep : ∀ (v : Rat) (l : List (PC × Chan)) (s s' : AttSt), s.in0 = some v →
      l.foldlM (attStep inAtt outAtt) s = .ok s' → s'.in0 = some v ∧
        Without l ⟨.complex, .output, 0⟩ inAtt := by
    intro v l
    induction l with
    | nil =>
      intro s s' hs hl
      simp only [FoldM.nil, Except.ok.injEq] at hl
      subst hl
      exact ⟨hs, by simp [Without]⟩
    | cons x l ih =>
      intro s s' hs hl
      obtain ⟨s1, e1, e2⟩ := (FoldM.ok_cons ..).mp hl
      have := attStep_in0 e1
      by_cases hc : x.2 = complexOut 0 ∧ inAtt x.1 ≠ none
      · rw [hs] at this; simp [hc] at this
      · have hk := ih s1 s' (by rw [this.2 hc, hs]) e2
        refine ⟨hk.1, fun y hy hyc => ?_⟩
        rcases List.mem_cons.mp hy with rfl | hy
        · by_contra hne; exact hc ⟨hyc, hne⟩
        · exact hk.2 y hy hyc
  refine ⟨fun a ha => ?_, fun a hw hex => ?_, fun hw hw' => ?_⟩
  · have : inAttLoop pcs inAtt = some a :=
      inAttLoop_spec inAtt (some a) pcs none ha.2 (Or.inr ha.1)
    rw [this] at hst
    have := keep a pcs _ st rfl hst
    exact ⟨map_int_some (h1.trans this.1), this.2⟩
  · obtain ⟨e, he, hc, hv⟩ := hex
    have h0 : inAttLoop pcs inAtt = none := inAttLoop_spec inAtt none pcs none hw (Or.inl rfl)
    rw [h0] at hst
    obtain ⟨l1, l2, rfl⟩ := List.append_of_mem he
    rw [List.foldlM_append] at hst
    cases hl : l1.foldlM (attStep inAtt outAtt) ⟨none, none, none⟩ with
    | error _ => rw [hl] at hst; simp [bind, Except.bind] at hst
    | ok s1 =>
      rw [hl] at hst
      simp only [bind, Except.bind] at hst
      obtain ⟨s2, e1, e2⟩ := (FoldM.ok_cons ..).mp hst
      have := (attStep_in0 e1).1 ⟨hc, by simp [hv]⟩
      exact map_int_some (h1.trans (keep a l2 s2 st (by rw [this.2, hv]) e2).1)
  · have h0 : inAttLoop pcs inAtt = none := inAttLoop_spec inAtt none pcs none hw (Or.inl rfl)
    rw [h0] at hst
    refine map_int_none (h1.trans ?_)
    refine FoldM.invariant (fun s : AttSt => s.in0 = none) (fun x hx s s' hp hs => ?_) rfl hst
    rw [(attStep_in0 hs).2 (fun hc => hc.2 (hw' x hx hc.1)), hp]

/-- **C56.** Integer attenuations are accepted if none of the port-clocks on the first output has an
attenuation for the input. -/
theorem attenuation_found {pcs : List (PC × Chan)} {inAtt outAtt : PC → Option Rat}
    (hi : ∀ pc x, inAtt pc = some x → ∃ n : Int, x = n) (ho : ∀ pc x, outAtt pc = some x → ∃ n : Int, x = n)
    (hw : Without pcs ⟨.complex, .output, 0⟩ inAtt) : ∃ r, attenuation pcs inAtt outAtt = .ok r := by
  have hint : ∀ v : Option Rat, (∀ x, v = some x → ∃ n : Int, x = n) → ∃ r, toInt v = .ok r := by
    intro v hv
    unfold toInt
    split
    · exact ⟨_, rfl⟩
    · rename_i x
      obtain ⟨n, rfl⟩ := hv x rfl
      rw [if_pos (Rat.den_intCast n)]
      exact ⟨_, rfl⟩
  have h0 : ∀ x, inAttLoop pcs inAtt = some x → ∃ n : Int, x = n := by
    unfold inAttLoop
    have : ∀ (l : List (PC × Chan)) (a : Option Rat), (∀ x, a = some x → ∃ n : Int, x = n) →
        ∀ x, l.foldl (fun a e => if e.2 = complexIn 0 then inAtt e.1 else a) a = some x →
          ∃ n : Int, x = n := by
      intro l
      induction l with
      | nil => exact fun a ha => ha
      | cons e l ih =>
        intro a ha
        rw [List.foldl_cons]
        apply ih
        split
        · exact hi e.1
        · exact ha
    exact this pcs none (by simp)
  obtain ⟨st, hst, p⟩ := FoldM.succeeds (f := attStep inAtt outAtt) (l := pcs)
    (s := ⟨inAttLoop pcs inAtt, none, none⟩)
    (fun s : AttSt => (∀ x, s.in0 = some x → ∃ n : Int, x = n) ∧
      (∀ x, s.out0 = some x → ∃ n : Int, x = n) ∧ (∀ x, s.out1 = some x → ∃ n : Int, x = n))
    (fun e he s hs => by
      unfold attStep
      split
      · rename_i hc
        rw [hw e he hc]
        exact ⟨_, rfl, hs.1, ho e.1, hs.2.2⟩
      · split
        · exact ⟨_, rfl, hs.1, hs.2.1, ho e.1⟩
        · exact ⟨_, rfl, hs⟩) ⟨h0, by simp, by simp⟩
  obtain ⟨a, ha⟩ := hint _ p.1
  obtain ⟨b, hb⟩ := hint _ p.2.1
  obtain ⟨c, hc⟩ := hint _ p.2.2
  unfold attenuation
  rw [hst]
  simp only [ha, hb, hc]
  exact ⟨_, rfl⟩

/-! ### Offsets -/

theorem units_volt_aux (m v r : Rat) :
    (if v < -m ∨ v > m then .error .valueError else .ok v : Except Err Rat) = .ok r ↔
      r = v ∧ |v| ≤ m := by
  rw [abs_le]
  split
  · rename_i hc
    simp only [reduceCtorEq, false_iff, not_and]
    rintro rfl h1 h2
    rcases hc with hc | hc <;> linarith
  · rename_i hc
    rw [not_or, not_lt, not_lt] at hc
    simp only [Except.ok.injEq]
    exact ⟨fun h => ⟨h.symm, hc⟩, fun h => h.1.symm⟩

theorem unitsVolt_ok (t : ModType) (v r : Rat) :
    unitsVolt t v = .ok r ↔ volts t r = v ∧ |v| ≤ maxOffset t := by
  have hm : ∀ x : Rat, (if v * 1000 < -50 ∨ v * 1000 > 50 then .error .valueError
      else .ok (v * 1000) : Except Err Rat) = .ok r ↔ r / 1000 = v ∧ |v| ≤ 1 / 20 := by
    intro _
    rw [units_volt_aux 50]
    have : |v * 1000| = |v| * 1000 := by rw [abs_mul]; norm_num
    rw [this]
    constructor
    · rintro ⟨rfl, h⟩; exact ⟨by ring, by linarith⟩
    · rintro ⟨h, h'⟩; exact ⟨by linarith, by linarith⟩
  cases t with
  | qcm =>
    have := units_volt_aux (5 / 2) v r
    rw [show (-(5 / 2) : Rat) = -5 / 2 by norm_num] at this
    simpa [unitsVolt, offsetRange, volts, maxOffset] using this
  | qrm =>
    have := units_volt_aux (1 / 2) v r
    rw [show (-(1 / 2) : Rat) = -1 / 2 by norm_num] at this
    simpa [unitsVolt, offsetRange, volts, maxOffset] using this
  | _ => simpa [unitsVolt, offsetRange, volts, maxOffset] using hm 0

theorem unitsVolt_iff (t : ModType) (v : Rat) : (∃ r, unitsVolt t v = .ok r) ↔ |v| ≤ maxOffset t := by
  constructor
  · rintro ⟨r, h⟩; exact ((unitsVolt_ok t v r).mp h).2
  · intro h
    by_cases ht : t = .qcm ∨ t = .qrm
    · exact ⟨v, (unitsVolt_ok t v v).mpr ⟨by simp [volts, ht], h⟩⟩
    · exact ⟨v * 1000, (unitsVolt_ok t v _).mpr ⟨by simp [volts, ht], h⟩⟩

theorem offsetStep_ok {t : ModType} {corr : PC → Option (Rat × Rat)} {k : Nat} {st st' : Offsets}
    {e : PC × Chan} (h : offsetStep t corr k st e = .ok st') :
    (∀ i q, e.2 = complexOut k → corr e.1 = some (i, q) → ∃ i' q', st' = some (i', q') ∧
      volts t i' = i ∧ volts t q' = q ∧ |i| ≤ maxOffset t ∧ |q| ≤ maxOffset t) ∧
    (e.2 = complexOut k → corr e.1 = none → st' = st) ∧ (e.2 ≠ complexOut k → st' = st) := by
  unfold offsetStep at h
  split at h
  · rename_i hc
    split at h
    · rename_i hn
      simp only [Except.ok.injEq] at h; subst h
      exact ⟨fun i q _ hq => by simp [hn] at hq, fun _ _ => rfl, fun hne => absurd hc hne⟩
    · rename_i i q hq
      split at h
      · simp at h
      rename_i i' hi
      split at h
      · simp at h
      rename_i q' hq'
      simp only [Except.ok.injEq] at h; subst h
      have hi := (unitsVolt_ok ..).mp hi
      have hq' := (unitsVolt_ok ..).mp hq'
      refine ⟨fun a b _ hab => ?_, fun _ hn => by simp [hq] at hn, fun hne => absurd hc hne⟩
      rw [hq, Option.some.injEq, Prod.mk.injEq] at hab
      obtain ⟨rfl, rfl⟩ := hab
      exact ⟨i', q', rfl, hi.1, hq'.1, hi.2, hq'.2⟩
  · rename_i hc
    simp only [Except.ok.injEq] at h; subst h
    exact ⟨fun _ _ hc' => absurd hc' hc, fun hc' => absurd hc' hc, fun _ => rfl⟩

theorem offsetLoop_ok {t : ModType} {corr : PC → Option (Rat × Rat)} {k : Nat} {pcs : List (PC × Chan)}
    {st : Offsets} (h : pcs.foldlM (offsetStep t corr k) none = .ok st) :
    OffsetsOf t pcs corr k st := by
  refine ⟨fun hw => ?_, fun i q ha => ?_⟩
  · refine FoldM.invariant (fun s : Offsets => s = none) (fun x hx s s' hp hs => ?_) rfl h
    have := offsetStep_ok hs
    by_cases hc : x.2 = complexOut k
    · rw [this.2.1 hc (hw x hx hc)]; exact hp
    · rw [this.2.2 hc]; exact hp
  · obtain ⟨⟨e, he, hc, hv⟩, hall⟩ := ha
    refine FoldM.established (fun s : Offsets => ∃ i' q', s = some (i', q') ∧ volts t i' = i ∧
      volts t q' = q ∧ |i| ≤ maxOffset t ∧ |q| ≤ maxOffset t) he (fun s s' hs => ?_)
      (fun x hx s s' hp hs => ?_) h
    · exact (offsetStep_ok hs).1 i q hc hv
    · have := offsetStep_ok hs
      by_cases hx' : x.2 = complexOut k
      · cases hq : corr x.1 with
        | none => rw [this.2.1 hx' hq]; exact hp
        | some w =>
          have hw := hall x hx hx' w hq
          subst hw
          exact this.1 i q hx' hq
      · rw [this.2.2 hx']; exact hp

/-- **C56.** The offsets of the outputs are those of the mixer corrections, converted to the unit of the
instrument, and within its range. -/
theorem offsets_exact {t : ModType} {pcs : List (PC × Chan)} {corr : PC → Option (Rat × Rat)}
    {a b : Offsets} (h : mixerOffsets t pcs corr = .ok (a, b)) :
    OffsetsOf t pcs corr 0 a ∧ OffsetsOf t pcs corr 1 b := by
  unfold mixerOffsets at h
  split at h
  · simp at h
  rename_i x hx
  split at h
  · simp at h
  rename_i y hy
  simp only [Except.ok.injEq, Prod.mk.injEq] at h
  obtain ⟨rfl, rfl⟩ := h
  exact ⟨offsetLoop_ok hx, offsetLoop_ok hy⟩

theorem offsetLoop_iff (t : ModType) (corr : PC → Option (Rat × Rat)) (k : Nat) :
    ∀ (pcs : List (PC × Chan)) (st : Offsets), (∃ r, pcs.foldlM (offsetStep t corr k) st = .ok r) ↔
    ∀ e ∈ pcs, e.2 = complexOut k → ∀ i q, corr e.1 = some (i, q) →
      |i| ≤ maxOffset t ∧ |q| ≤ maxOffset t
  | [], st => by simp [FoldM.nil, pure, Except.pure]
  | e :: pcs, st => by
    constructor
    · rintro ⟨r, h⟩
      obtain ⟨s1, h1, h2⟩ := (FoldM.ok_cons ..).mp h
      intro x hx hc i q hq
      rcases List.mem_cons.mp hx with rfl | hx
      · obtain ⟨_, _, _, _, _, h3, h4⟩ := (offsetStep_ok h1).1 i q hc hq
        exact ⟨h3, h4⟩
      · exact (offsetLoop_iff t corr k pcs s1).mp ⟨r, h2⟩ x hx hc i q hq
    · intro h
      have : ∃ s1, offsetStep t corr k st e = .ok s1 := by
        unfold offsetStep
        split
        · rename_i hc
          split
          · exact ⟨_, rfl⟩
          · rename_i i q hq
            have := h e (by simp) hc i q hq
            obtain ⟨i', hi⟩ := (unitsVolt_iff t i).mpr this.1
            obtain ⟨q', hq'⟩ := (unitsVolt_iff t q).mpr this.2
            simp only [hi, hq']
            exact ⟨_, rfl⟩
        · exact ⟨_, rfl⟩
      obtain ⟨s1, h1⟩ := this
      obtain ⟨r, h2⟩ := (offsetLoop_iff t corr k pcs s1).mpr fun x hx => h x (by simp [hx])
      exact ⟨r, (FoldM.ok_cons ..).mpr ⟨s1, h1, h2⟩⟩

/-- **C56.** Offsets are accepted exactly if those of all port-clocks on the two outputs are in range. -/
theorem offsets_found (t : ModType) (pcs : List (PC × Chan)) (corr : PC → Option (Rat × Rat)) :
    (∃ r, mixerOffsets t pcs corr = .ok r) ↔
    ∀ e ∈ pcs, (e.2 = ⟨.complex, .output, 0⟩ ∨ e.2 = ⟨.complex, .output, 1⟩) →
      ∀ i q, corr e.1 = some (i, q) → |i| ≤ maxOffset t ∧ |q| ≤ maxOffset t := by
  unfold mixerOffsets
  constructor
  · rintro ⟨r, h⟩
    split at h
    · simp at h
    rename_i x hx
    split at h
    · simp at h
    rename_i y hy
    intro e he hc
    rcases hc with hc | hc
    · exact (offsetLoop_iff t corr 0 pcs none).mp ⟨x, hx⟩ e he hc
    · exact (offsetLoop_iff t corr 1 pcs none).mp ⟨y, hy⟩ e he hc
  · intro h
    obtain ⟨x, hx⟩ := (offsetLoop_iff t corr 0 pcs none).mpr fun e he hc => h e he (Or.inl hc)
    obtain ⟨y, hy⟩ := (offsetLoop_iff t corr 1 pcs none).mpr fun e he hc => h e he (Or.inr hc)
    rw [hx]
    simp only [hy]
    exact ⟨_, rfl⟩

end Verif.Settings
