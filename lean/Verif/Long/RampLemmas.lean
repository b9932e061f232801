/-
Long ramps.
-/
import Verif.Long.FactoryLemmas
import Verif.Numeric.Props

set_option linter.unusedSimpArgs false
set_option linter.unusedVariables false

namespace Verif.Long

open Verif.Numeric (isClose)

/-- The loop of the ramp: its state after it. `i` parts have been made before. -/
structure RampInv (other : Nat → Rat → V) (offset ampPart part : Rat) (pc : PC) (i : Nat)
    (f g : Rat → V) (b : Builder) : Prop where
  state : State other b (i * part) f g
  none : ∀ o ∈ b.offs, o.dur = none
  times : ∀ o ∈ b.offs, 0 ≤ o.t0 ∧ o.t0 ≤ i * part
  early : ∀ t, t < 0 → f t = 0 ∧ g t = 0
  inside : ∀ t, 0 ≤ t → t < i * part → f t + g t = (ampPart / part * t + offset, 0)
  late : ∀ t, i * part ≤ t → g t = 0 ∧
    f t = (if i = 0 then 0 else (offset + ((i : Rat) - 1) * ampPart, 0))
  flat : offset = 0 → ampPart = 0 → ∀ t, f t = 0
  short : ∀ q ∈ b.pulses, ∃ a, q.what = .wave (.ramp a 0) ∧ q.dur = part

theorem rampInv_step {other : Nat → Rat → V} {offset ampPart part : Rat} {pc : PC} {i : Nat}
    {f g : Rat → V} {b : Builder} (hpart : 0 < part)
    (h : RampInv other offset ampPart part pc i f g b) :
    ∃ b', (if offset + i * ampPart ≠ offset ∨ isClose offset 0 = false
        then b.addOffset (offset + i * ampPart, 0) else .ok b) = .ok b' ∧
      ∃ f' g', RampInv other offset ampPart part pc (i + 1) f' g'
        (b'.addPulse [⟨pc, 0, part, .wave (.ramp ampPart 0)⟩] true) := by
  have hip : (0 : Rat) ≤ i * part := by positivity
  have hcast : ((i + 1 : Nat) : Rat) = i + 1 := by push_cast; ring
  have hE : ((i + 1 : Nat) : Rat) * part = i * part + part := by rw [hcast]; ring
  -- after the offset
  have key : ∃ b', (if offset + i * ampPart ≠ offset ∨ isClose offset 0 = false
        then b.addOffset (offset + i * ampPart, 0) else .ok b) = .ok b' ∧ b'.pulses = b.pulses ∧
      ∃ f', State other b' (i * part) f' g ∧
        (∀ t, i * part ≤ t → f' t = (offset + i * ampPart, 0)) ∧
        (∀ t, t < i * part → f' t = f t) ∧
        (∀ o ∈ b'.offs, o.dur = none) ∧ (∀ o ∈ b'.offs, 0 ≤ o.t0 ∧ o.t0 ≤ i * part) := by
    by_cases hc : offset + i * ampPart ≠ offset ∨ isClose offset 0 = false
    · rw [if_pos hc]
      obtain ⟨b', hb', hp', ho', s'⟩ := state_offset h.state (offset + i * ampPart, 0) 0 4 (le_refl _)
      rw [zero_add] at s' ho'
      refine ⟨b', hb', hp', _, s', ?_, ?_, ?_, ?_⟩
      · intro t ht; simp only [if_pos ht]
      · intro t ht; simp only [if_neg (not_le.mpr ht)]
      · intro o ho
        rw [ho'] at ho
        rcases List.mem_append.mp ho with ho | ho
        · exact h.none o ho
        · rw [List.mem_singleton.mp ho]
      · intro o ho
        rw [ho'] at ho
        rcases List.mem_append.mp ho with ho | ho
        · exact h.times o ho
        · rw [List.mem_singleton.mp ho]; exact ⟨hip, le_refl _⟩
    · rw [if_neg hc]
      refine ⟨b, rfl, rfl, f, h.state, ?_, fun _ _ => rfl, h.none, h.times⟩
      rw [not_or, not_not, Bool.not_eq_false, isClose_zero] at hc
      obtain ⟨h1, h2⟩ := hc
      intro t ht
      rw [h1, h2]
      have hf := (h.late t ht).2
      by_cases hi : i = 0
      · rw [hf, if_pos hi]; rfl
      · have : ampPart = 0 := by
          have h3 : (i : Rat) * ampPart = 0 := by linarith
          rcases mul_eq_zero.mp h3 with h4 | h4
          · exact absurd (by exact_mod_cast h4) hi
          · exact h4
        rw [h.flat h2 this t]; rfl
  obtain ⟨b', hb', hp', f', s', hf1, hf2, hnone, htimes⟩ := key
  have s'' := state_pulse s' pc part (.ramp ampPart 0) (le_of_lt hpart)
  refine ⟨b', hb', f', fun t => g t +
    if i * part ≤ t ∧ t < i * part + part then (Wave.ramp ampPart 0).value other part (t - i * part) else 0, ?_⟩
  refine ⟨by rw [hE]; exact s'', hnone, ?_, ?_, ?_, ?_, ?_, ?_⟩
  · intro o ho
    have := htimes o ho
    rw [hE]
    exact ⟨this.1, by linarith [this.2]⟩
  · intro t ht
    obtain ⟨h1, h2⟩ := h.early t ht
    refine ⟨by rw [hf2 t (by linarith), h1], ?_⟩
    rw [h2, if_neg (by rintro ⟨h, _⟩; linarith), add_zero]
  · intro t h0 h1
    rw [hE] at h1
    by_cases ht : t < i * part
    · rw [hf2 t ht, if_neg (by rintro ⟨h, _⟩; linarith), add_zero]
      exact h.inside t h0 ht
    · push_neg at ht
      rw [hf1 t ht, (h.late t ht).1, if_pos ⟨ht, h1⟩, zero_add]
      have hp0 : part ≠ 0 := ne_of_gt hpart
      refine Prod.ext ?_ ?_
      · simp only [Wave.value, Prod.fst_add]
        field_simp
        ring
      · simp [Wave.value]
  · intro t ht
    rw [hE] at ht
    have ht' : i * part ≤ t := by linarith
    refine ⟨?_, ?_⟩
    · rw [(h.late t ht').1, if_neg (by rintro ⟨_, h⟩; linarith), add_zero]
    · rw [hf1 t ht', if_neg (by omega), hcast]
      congr 1
      ring
  · intro h1 h2 t
    by_cases ht : t < i * part
    · rw [hf2 t ht]; exact h.flat h1 h2 t
    · push_neg at ht
      rw [hf1 t ht, h1, h2]
      refine Prod.ext ?_ ?_ <;> simp
  · intro q hq
    have e : (b'.addPulse [⟨pc, 0, part, .wave (.ramp ampPart 0)⟩] true).pulses =
        b'.pulses ++ [⟨pc, 0 + b'.opEnd, part, .wave (.ramp ampPart 0)⟩] := by
      simp [Builder.addPulse]
    rw [e, hp'] at hq
    rcases List.mem_append.mp hq with hq | hq
    · exact h.short q hq
    · rw [List.mem_singleton.mp hq]; exact ⟨_, rfl, rfl⟩

theorem rampLoop_ok {other : Nat → Rat → V} {offset ampPart part : Rat} {pc : PC} (hpart : 0 < part) :
    ∀ (n i : Nat) (f g : Rat → V) (b : Builder), RampInv other offset ampPart part pc i f g b →
    ∃ b' f' g', rampLoop offset ampPart part pc n (offset + i * ampPart) b =
        .ok (offset + ((i + n : Nat) : Rat) * ampPart, b') ∧
      RampInv other offset ampPart part pc (i + n) f' g' b'
  | 0, i, f, g, b, h => ⟨b, f, g, rfl, h⟩
  | n + 1, i, f, g, b, h => by
    obtain ⟨b1, hb1, f1, g1, h1⟩ := rampInv_step hpart h
    obtain ⟨b', f', g', hb', h'⟩ := rampLoop_ok hpart n (i + 1) f1 g1 _ h1
    have e : i + 1 + n = i + (n + 1) := by omega
    rw [e] at hb' h'
    refine ⟨b', f', g', ?_, h'⟩
    rw [rampLoop, hb1]
    simp only
    have e2 : offset + i * ampPart + ampPart = offset + ((i + 1 : Nat) : Rat) * ampPart := by
      push_cast; ring
    rw [e2]
    exact hb'

theorem rampInv_empty (other : Nat → Rat → V) (offset ampPart part : Rat) (pc : PC) :
    RampInv other offset ampPart part pc 0 (fun _ => 0) (fun _ => 0) Builder.empty := by
  have e : ((0 : Nat) : Rat) * part = 0 := by simp
  refine ⟨by rw [e]; exact state_empty other, by simp [Builder.empty], by simp [Builder.empty],
    by simp, ?_, by simp, by simp, by simp [Builder.empty]⟩
  intro t h1 h2
  rw [e] at h2
  linarith

/-- The end of the ramp is not taken for its start. -/
theorem isClose_offset {last offset : Rat} (hne : last ≠ offset)
    (h : |offset| < 400000000 * |last - offset|) : isClose last offset = false := by
  unfold isClose
  rw [decide_eq_false_iff_not, not_le]
  have h0 : 0 < |last - offset| := abs_pos.mpr (sub_ne_zero.mpr hne)
  have h1 : |last| ≤ |last - offset| + |offset| := by
    have := abs_add_le (last - offset) offset
    simpa using this
  have h2 : max |last| |offset| ≤ |last - offset| + |offset| :=
    max_le h1 (by linarith)
  linarith

theorem toGridTime_int (n : Int) : toGridTime (n : Rat) 1 = .ok n := by
  unfold toGridTime Numeric.toGridTime
  simp only
  have e : (n : Rat) / 1000000000 * 1000000000 = n := by field_simp
  rw [e, Numeric.pyRound_int]
  have h1 : |(n : Rat) - n| ≤ Numeric.gridTolerance := by
    rw [sub_self, abs_zero]
    unfold Numeric.gridTolerance; norm_num
  have h2 : n % 1 = 0 := Int.emod_one n
  rw [if_neg]
  rintro (h | h)
  · exact h h1
  · exact h h2

theorem longRamp_ok (other : Nat → Rat → V) (amp : Rat) (dur : Int) (pc : PC) (offset t0 : Rat)
    (part : Nat) (hpart : 0 < part) (hp2 : part ≤ 2000) (hd : 0 < dur)
    (hoff : offset = 0 ∨ |offset| < 100000000 * |amp|) :
    ∃ new, longRamp amp dur pc offset t0 part = .ok new ∧
      Replaces other ⟨pc, t0, dur, .wave (.ramp amp offset)⟩ new := by
  have hpartR : (0 : Rat) < part := by exact_mod_cast hpart
  have hdR : (0 : Rat) < dur := by exact_mod_cast hd
  set n := ((dur - 1) / (part : Int)).toNat with hn
  -- the parts are at least half of it, unless there is none
  have hnn : 0 ≤ (dur - 1) / (part : Int) := Int.ediv_nonneg (by omega) (by omega)
  have hnc : (n : Int) = (dur - 1) / (part : Int) := Int.toNat_of_nonneg hnn
  have hlt : (n : Int) * part < dur := by
    rw [hnc]
    have := Int.ediv_mul_le (dur - 1) (b := (part : Int)) (by omega)
    omega
  have hge : dur ≤ (n : Int) * part + part := by
    rw [hnc]
    have := Int.lt_ediv_add_one_mul_self (dur - 1) (b := (part : Int)) (by omega)
    have e : ((dur - 1) / (part : Int) + 1) * part = (dur - 1) / (part : Int) * part + part := by ring
    rw [e] at this
    omega
  have hltR : (n : Rat) * part < dur := by exact_mod_cast hlt
  have hgeR : (dur : Rat) ≤ n * part + part := by exact_mod_cast hge
  set ampPart := (part : Rat) / dur * amp with hap
  obtain ⟨b1, f1, g1, hb1, h1⟩ := rampLoop_ok (pc := pc) (ampPart := ampPart) (offset := offset) hpartR n 0 _ _ _
    (rampInv_empty other offset ampPart part pc)
  rw [Nat.zero_add] at hb1 h1
  have e0 : offset + ((0 : Nat) : Rat) * ampPart = offset := by simp
  rw [e0] at hb1
  set last := offset + (n : Rat) * ampPart with hlast
  -- the offset at the end
  have key : ∃ b2, (if isClose last offset = false ∧ isClose (last - ampPart) 0 = false
        then b1.addOffset (0, 0) else .ok b1) = .ok b2 ∧ b2.pulses = b1.pulses ∧
      ∃ f2, State other b2 (n * part) f2 g1 ∧ (∀ t, (n : Rat) * part ≤ t → f2 t = 0) ∧
        (∀ t, t < (n : Rat) * part → f2 t = f1 t) ∧ (∀ o ∈ b2.offs, o.dur = none) ∧
        (∀ o ∈ b2.offs, 0 ≤ o.t0 ∧ o.t0 ≤ n * part) := by
    by_cases hc : isClose last offset = false ∧ isClose (last - ampPart) 0 = false
    · rw [if_pos hc]
      obtain ⟨b2, hb2, hp2, ho2, s2⟩ := state_offset h1.state (0, 0) 0 4 (le_refl _)
      rw [zero_add] at s2 ho2
      refine ⟨b2, hb2, hp2, _, s2, ?_, ?_, ?_, ?_⟩
      · intro t ht; simp only [if_pos ht]; rfl
      · intro t ht; simp only [if_neg (not_le.mpr ht)]
      · intro o ho
        rw [ho2] at ho
        rcases List.mem_append.mp ho with ho | ho
        · exact h1.none o ho
        · rw [List.mem_singleton.mp ho]
      · intro o ho
        rw [ho2] at ho
        rcases List.mem_append.mp ho with ho | ho
        · exact h1.times o ho
        · rw [List.mem_singleton.mp ho]; exact ⟨by positivity, le_refl _⟩
    · rw [if_neg hc]
      refine ⟨b1, rfl, rfl, f1, h1.state, ?_, fun _ _ => rfl, h1.none, h1.times⟩
      intro t ht
      have hl := (h1.late t ht).2
      by_cases hn0 : n = 0
      · rw [hl, if_pos hn0]
      · rw [not_and_or, Bool.not_eq_false, Bool.not_eq_false, isClose_zero] at hc
        rcases hc with hc | hc
        · -- taken for the start: all is 0
          by_cases hz : amp = 0
          · have hap0 : ampPart = 0 := by rw [hap, hz]; ring
            have ho0 : offset = 0 := by
              rcases hoff with h | h
              · exact h
              · rw [hz, abs_zero, mul_zero] at h
                exact absurd h (not_lt.mpr (abs_nonneg _))
            exact h1.flat ho0 hap0 t
          · exfalso
            have hn1 : (1 : Rat) ≤ n := by exact_mod_cast Nat.one_le_iff_ne_zero.mpr hn0
            have hsub : last - offset = n * part / dur * amp := by rw [hlast, hap]; ring
            have hhalf : (1 : Rat) / 2 ≤ n * part / dur := by
              rw [div_le_div_iff₀ (by norm_num) hdR]
              have : (part : Rat) ≤ n * part := by nlinarith
              linarith
            have habs : |last - offset| = n * part / dur * |amp| := by
              rw [hsub, abs_mul, abs_of_nonneg (by positivity)]
            have hpos : 0 < |amp| := abs_pos.mpr hz
            have hne : last ≠ offset := by
              intro h
              rw [h, sub_self, abs_zero] at habs
              have : 0 < (n : Rat) * part / dur * |amp| := by
                apply mul_pos _ hpos
                linarith
              linarith
            have hsm : |offset| < 400000000 * |last - offset| := by
              rw [habs]
              have : 1 / 2 * |amp| ≤ n * part / dur * |amp| :=
                mul_le_mul_of_nonneg_right hhalf (le_of_lt hpos)
              rcases hoff with h | h
              · rw [h, abs_zero]; linarith
              · linarith
            rw [isClose_offset hne hsm] at hc
            cases hc
        · rw [hl, if_neg hn0]
          have e : offset + ((n : Rat) - 1) * ampPart = last - ampPart := by rw [hlast]; ring
          rw [e, hc]; rfl
  obtain ⟨b2, hb2, hpp, f2, s2, hf0, hf1, hnone, htimes⟩ := key
  set durLeft := (dur : Rat) - n * part with hdl
  have hdl0 : 0 < durLeft := by rw [hdl]; linarith
  set ampLeft := amp - n * ampPart with hal
  have s3 := state_pulse s2 pc durLeft (.ramp ampLeft last) (le_of_lt hdl0)
  set b3 := b2.addPulse [⟨pc, 0, durLeft, .wave (.ramp ampLeft last)⟩] true with hb3
  refine ⟨b3.build pc t0, ?_, ?_⟩
  · unfold longRamp
    rw [toGridTime_int]
    simp only
    rw [if_neg (by omega), if_neg (by omega)]
    rw [← hn, ← hap]
    rw [hb1]
    simp only
    rw [hb2]
  have hE : b3.opEnd = dur := by rw [s3.opEnd, hdl]; ring
  have hoffs : b3.offs = b2.offs := rfl
  have hoff' := offsets_none (b := b3) hnone (t := n * part) (fun o ho => (htimes o ho).2)
    (by rw [s3.held]; exact hf0 _ (le_refl _))
  have hsets : sets (b3.build pc t0) pc = b3.offs.map (fun o => (o.t0 + t0, o.v)) := by
    rw [sets_build b3 s3.no, hoff', List.map_map]; rfl
  have hnear := near_of_none (n * part + durLeft) b3.offs (0, 0) hnone
  have hsum : (n : Rat) * part + durLeft = dur := by rw [hdl]; ring
  have hslope : ampPart / part = amp / dur := by
    rw [hap]; field_simp
  have hslope2 : ampLeft / durLeft = amp / dur := by
    rw [hal, hap, div_eq_div_iff (ne_of_gt hdl0) (ne_of_gt hdR), hdl]
    field_simp
  refine ⟨?_, build_pc b3 pc t0, ?_, ?_, ?_⟩
  · intro pc' t
    by_cases hpc : pc' = pc
    · subst hpc
      rw [state_output s3 hnear, hsum]
      simp only [Info.wave, true_and]
      by_cases ha : (dur : Rat) ≤ t - t0
      · rw [if_pos ha, (h1.late _ (by linarith)).1, if_neg (by rintro ⟨_, h⟩; linarith),
          if_neg (by rintro ⟨_, h⟩; linarith)]
        simp
      · rw [if_neg ha]
        push_neg at ha
        by_cases hb : (n : Rat) * part ≤ t - t0
        · have hnp : (0 : Rat) ≤ n * part := by positivity
          rw [hf0 _ hb, (h1.late _ hb).1, if_pos ⟨hb, ha⟩, if_pos ⟨by linarith, by linarith⟩]
          simp only [Wave.value, zero_add]
          refine Prod.ext ?_ rfl
          simp only
          rw [hslope2, hlast, hap]
          field_simp
          ring
        · push_neg at hb
          rw [hf1 _ hb, if_neg (show ¬ ((n : Rat) * part ≤ t - t0 ∧ t - t0 < dur) from
            fun h => absurd h.1 (not_le.mpr hb)), add_zero]
          by_cases h0 : 0 ≤ t - t0
          · rw [h1.inside _ h0 hb, if_pos ⟨by linarith, by linarith⟩, hslope]
            rfl
          · push_neg at h0
            rw [(h1.early _ h0).1, (h1.early _ h0).2, if_neg (by rintro ⟨h, _⟩; linarith), add_zero]
    · rw [build_output_other other b3 hpc]
      exact (wave_other other hpc t _ rfl).symm
  · intro pc' e he
    by_cases hpc : pc' = pc
    · subst hpc
      rw [hsets] at he
      obtain ⟨o, ho, rfl⟩ := List.mem_map.mp he
      have := htimes o ho
      simp only
      constructor <;> linarith
    · rw [sets_build_other b3 hpc] at he; simp at he
  · intro pc' t ht
    simp only at ht
    by_cases hpc : pc' = pc
    · subst hpc
      rw [sets_build b3 s3.no, valueAt_shift, offsets_value b3 s3.inv (by rw [s3.opEnd]; exact hnear),
        held_eq, if_pos (by rw [hE]; linarith)]
    · rw [sets_build_other b3 hpc]; rfl
  · intro q hq
    unfold Builder.build at hq
    rcases List.mem_append.mp hq with hq | hq
    · obtain ⟨e, _, rfl⟩ := List.mem_map.mp hq
      simp
    · obtain ⟨r, hr, rfl⟩ := List.mem_map.mp hq
      have hp2R : (part : Rat) ≤ 2000 := by exact_mod_cast hp2
      have e : b3.pulses = b1.pulses ++ [⟨pc, 0 + b2.opEnd, durLeft, .wave (.ramp ampLeft last)⟩] := by
        rw [hb3]; simp [Builder.addPulse, hpp]
      rw [e] at hr
      rcases List.mem_append.mp hr with hr | hr
      · obtain ⟨a, ha, had⟩ := h1.short r hr
        refine ⟨by intro a' h'; simp only [ha] at h'; simp at h', ?_⟩
        intro _ _ _
        simp only [had]; exact hp2R
      · rw [List.mem_singleton.mp hr]
        refine ⟨by simp, ?_⟩
        intro _ _ _
        simp only
        linarith

end Verif.Long
