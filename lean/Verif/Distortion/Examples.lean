/-
Cases of distortion corrections, and what goes wrong.
-/
import Verif.Distortion.Samples
import Verif.Shapes.Props

namespace Verif.Distortion

open Verif.Shapes (Err Shape)

set_option linter.unusedSimpArgs false
set_option linter.unusedVariables false

/-- A filter that multiplies by a factor. -/
noncomputable def gain (g : ℝ) : Software := { filter := fun l => .ok (l.map fun z => g * z.re), clipping := none, samplingRate := 1 }

/-- The port-clock that is corrected. -/
noncomputable def example_cfg (g : ℝ) : String → Option Correction := fun k => if k = "q0:fl-cl0" then some (.software (gain g)) else none

/-- A square pulse. -/
noncomputable def square_pulse (amp : ℂ) (n : ℝ) : Pulse Unit :=
  { port := some "q0:fl", clock := "cl0", t0 := 0, duration := n, shape := some (.square amp)
    hasOffset := false, other := none }

theorem square_key (amp : ℂ) (n : ℝ) : key (square_pulse amp n) = "q0:fl-cl0" := by
  simp only [key, square_pulse]; decide

/-- A square pulse of one sample. -/
theorem correct_square_one (amp : ℂ) (g : ℝ) : correctPulse (square_pulse amp 1) (gain g) =
    .ok { square_pulse amp 1 with
          shape := some (.interpolated [((g * amp.re : ℝ) : ℂ), ((g * amp.re : ℝ) : ℂ)] [0, 1]) } := by
  have hw : Shapes.getWaveform (.square amp) 1 1 = .ok [amp] := by
    have := (Shapes.sampled_pointwise (.square amp) 1 1 one_pos (fun _ => amp) (fun t => by
      simp only [Shapes.execWaveform, Shapes.square_eq, List.map_const'])).2
    simpa using this
  have hl : linspace 1 2 = [0, 1] := by
    simp only [linspace, List.range_succ, List.range_zero]; norm_num
  rw [correctPulse_eq]
  simp only [square_pulse, gain, hw, clipped, doubled, List.map_cons, List.map_nil, List.length_singleton, if_true,
    List.getLast?_singleton, Option.toList, List.cons_append, List.nil_append, List.length_cons, List.length_nil]
  rw [show (0 + 1 + 1 : Nat) = 2 from rfl, hl]
  simp

/-- A pulse of two equal samples at times 0 and 1, corrected once more. -/
theorem correct_again (x g : ℝ) : correctPulse
      { square_pulse 1 1 with shape := some (.interpolated [(x : ℂ), (x : ℂ)] [0, 1]) } (gain g) =
    .ok { square_pulse 1 1 with
          shape := some (.interpolated [((g * x : ℝ) : ℂ), ((g * x : ℝ) : ℂ)] [0, 1]) } := by
  have hw : Shapes.getWaveform (.interpolated [(x : ℂ), (x : ℂ)] [0, 1]) 1 1 = .ok [(x : ℂ)] := by
    obtain ⟨ts, -, h2, hl, h3, -⟩ := Shapes.sample_times 1 1 one_pos
    have e := h3 0 (by omega)
    obtain ⟨a, rfl⟩ := List.length_eq_one_iff.mp hl
    simp only [List.getElem?_cons_zero, Nat.cast_zero, zero_div, Option.some.injEq] at e
    subst e
    simp only [Nat.cast_one, div_one] at h2
    simp only [Shapes.getWaveform, h2, bind, Except.bind, Shapes.execWaveform]
    obtain ⟨f, -, h5, h6⟩ := Shapes.interpolated_shape [(x : ℂ), (x : ℂ)] [0, 1] (by simp) rfl (by simp)
    rw [h6 [0] (by simp), if_neg]
    · have := h5 0 (by simp)
      simpa using this
    · simp
  have hl : linspace 1 2 = [0, 1] := by
    simp only [linspace, List.range_succ, List.range_zero]; norm_num
  rw [correctPulse_eq]
  simp only [square_pulse, gain, hw, clipped, doubled, List.map_cons, List.map_nil, List.length_singleton, if_true,
    List.getLast?_singleton, Option.toList, List.cons_append, List.nil_append, List.length_cons, List.length_nil, Complex.ofReal_re]
  rw [show (0 + 1 + 1 : Nat) = 2 from rfl, hl]
  simp

theorem correctList_single (cfg : String → Option Correction) (p : Pulse Unit) (c : Software) (p' : Pulse Unit)
    (h1 : cfg (key p) = some (.software c)) (h2 : p.hasOffset = false) (h3 : correctPulse p c = .ok p') :
    correctList cfg [p] 0 1 = .ok ([p'], true) := by
  simp [correctList, correctEntry, h1, correctable, h2, h3, bind, Except.bind, pure, Except.pure, Except.map]

/-- **Finding.**  A filter that changes nothing changes the pulse that is played: the ramp `0, 1/2` is played as
`0, 1/4`, because `np.linspace` puts the last sample at the end of the pulse and not one sample period before it. -/
theorem identity_filter_changes : ∃ (p p' : Pulse Unit) (s s' : Shape) (out out' : List ℂ),
    correctPulse p (gain 1) = .ok p' ∧ p.shape = some s ∧ p'.shape = some s' ∧ p'.duration = p.duration ∧
    Shapes.generateWaveformData s p.duration none 1 = .ok out ∧
    Shapes.generateWaveformData s' p.duration none 1 = .ok out' ∧
    out[1]? = some (1 / 2) ∧ out'[1]? = some (1 / 4) := by
  have hd : (fun k : Nat => ((((none : Option ℝ).getD 0) + k / (2 : Nat) * 1 : ℝ) : ℂ)) = fun k : Nat => (((k : ℝ) / 2 : ℝ) : ℂ) := by
    funext k; simp
  have h1 := Shapes.sampled_ramp 1 none 2 (by norm_num) 1 one_pos
  rw [hd] at h1
  obtain ⟨f, hf1, -, -, -, hf2⟩ := Shapes.ramp_shape 1 0 2 two_ne_zero
  have h2 : Shapes.getWaveform (.ramp 1 none) ((2 : Nat) / 1) 1 = .ok ((List.range 2).map fun k : Nat => (((k : ℝ) / 2 : ℝ) : ℂ)) := by
    obtain ⟨ts, q1, q2, -⟩ := Shapes.sample_times 2 1 one_pos
    simp only [Shapes.generateWaveformData, q1, bind, Except.bind] at h1
    simp only [Shapes.getWaveform, q2, bind, Except.bind, h1]
  set p : Pulse Unit := { port := some "q0:fl", clock := "cl0", t0 := 0, duration := (2 : Nat) / 1
                          shape := some (.ramp 1 none), hasOffset := false, other := none } with hp
  have hfil : (gain 1).filter ((List.range 2).map fun k : Nat => (((k : ℝ) / 2 : ℝ) : ℂ)) = .ok [0, 1 / 2] := by
    simp [gain, List.range_succ, Complex.ofReal_re]
  cases hc : correctPulse p (gain 1) with
  | error e =>
    exfalso
    rw [correctPulse_eq] at hc
    simp only [hp, show (gain 1).samplingRate = 1 from rfl, h2, hfil] at hc
    simp only [clipped, show (gain 1).clipping = none from rfl, doubled, List.length_cons, List.length_nil] at hc
    rw [if_neg (by norm_num)] at hc
    simp only [List.length_cons, List.length_nil] at hc
    rw [show (0 + 1 + 1 : Nat) = 2 from rfl, linspace_last _ 2 (le_refl 2), linspace_head _ 2 (le_refl 2)] at hc
    simp at hc
  | ok p' =>
    obtain ⟨zs, s', out, q1, q2, q3, q4, q5, q6⟩ := corrected_played p p' (gain 1) (.ramp 1 none) 2 (le_refl 2) one_pos
      rfl rfl _ _ h2 hfil rfl hc
    have hspec := (correctPulse_spec p (gain 1)).1 p' hc
    have hz : zs = [0, 1 / 2] := by
      have : ∀ ys zs : List ℝ, List.Forall₂ (Spec.Limited none) ys zs → zs = ys := by
        intro ys zs h
        induction h with
        | nil => rfl
        | cons a _ ih => simp only [Spec.Limited] at a; rw [a, ih]
      exact this _ _ q1
    subst hz
    refine ⟨p, p', .ramp 1 none, s', _, out, hc, rfl, q2, hspec.duration, h1, ?_, ?_, ?_⟩
    · rw [← hspec.duration]; exact q3
    · simp [List.range_succ]
    · rw [q6 0 0 (1 / 2) rfl rfl]
      congr 1
      norm_num

/-- A pulse with two equal samples. -/
noncomputable def flat (x : ℝ) : Pulse Unit :=
  { square_pulse 1 1 with shape := some (.interpolated [(x : ℂ), (x : ℂ)] [0, 1]) }

/-- A pulse on another port. -/
noncomputable def other_pulse : Pulse Unit := { square_pulse 1 1 with port := some "q1:res" }

theorem flat_key (x : ℝ) : key (flat x) = "q0:fl-cl0" := square_key 1 1

theorem apply_single {A K : Type} (num : K) (cfg : String → Option Correction) (h : Heap Unit) (l : Nat) (acqs : List A) (kind : K)
    (p : Pulse Unit) (c : Software) (p' : Pulse Unit) (h0 : h l = [p])
    (h1 : cfg (key p) = some (.software c)) (h2 : p.hasOffset = false) (h3 : correctPulse p c = .ok p') :
    apply num cfg h (.leaf l acqs kind) = .ok (fun k => if k = l then [p'] else h k, .leaf l [] num) := by
  have := correctList_single cfg p c p' h1 h2 h3
  simp only [apply, h0, List.length_singleton, this, bind, Except.bind, pure, Except.pure, if_true]

theorem square_to_flat (g : ℝ) : correctPulse (square_pulse 1 1) (gain g) = .ok (flat g) := by
  rw [correct_square_one, flat]; simp

theorem flat_to_flat (x g : ℝ) : correctPulse (flat x) (gain g) = .ok (flat (g * x)) := correct_again x g

/-- **Finding.**  The acquisitions of an operation are lost if its first pulse is corrected. -/
theorem acquisition_lost : ∃ h' : Heap Unit,
    apply (A := String) (K := String) "NumericalPulse" (example_cfg 1) (fun _ => [square_pulse 1 1]) (.leaf 0 ["acquisition"] "Measure") =
      .ok (h', .leaf 0 [] "NumericalPulse") :=
  ⟨_, apply_single _ _ _ _ _ _ _ _ _ rfl (by rw [square_key]; simp only [example_cfg, if_true]) rfl (square_to_flat 1)⟩

/-- **Finding.**  An operation that is in the schedule twice, once directly and once as the body of a loop, is
corrected twice: a gain of 2 becomes a gain of 4. -/
theorem shared_corrected_twice : ∃ (h' : Heap Unit) (o' : Op String String),
    apply (A := String) (K := String) "NumericalPulse" (example_cfg 2) (fun _ => [square_pulse 1 1])
      (.schedule "Schedule" [.leaf 0 [] "SquarePulse", .control "Loop" (.leaf 0 [] "SquarePulse")]) = .ok (h', o') ∧
    ∃ p', h' 0 = [p'] ∧ p'.shape = some (.interpolated [4, 4] [0, 1]) := by
  have k1 := fun h e => apply_single (A := String) (K := String) "NumericalPulse" (example_cfg 2) h 0 [] "SquarePulse" (square_pulse 1 1)
    (gain 2) (flat 2) e (by rw [square_key]; simp [example_cfg]) rfl (square_to_flat 2)
  have k2 := fun h e => apply_single (A := String) (K := String) "NumericalPulse" (example_cfg 2) h 0 [] "SquarePulse" (flat 2)
    (gain 2) (flat (2 * 2)) e (by rw [flat_key]; simp [example_cfg]) rfl (flat_to_flat 2 2)
  have e1 := k1 (fun _ => [square_pulse 1 1]) rfl
  have e2 := k2 (fun k => if k = 0 then [flat 2] else [square_pulse 1 1]) rfl
  refine ⟨fun k => if k = 0 then [flat (2 * 2)] else if k = 0 then [flat 2] else [square_pulse 1 1],
    .schedule "Schedule" [.leaf 0 [] "NumericalPulse", .control "Loop" (.leaf 0 [] "NumericalPulse")], ?_, flat (2 * 2), rfl, ?_⟩
  · rw [apply]
    simp only [applyAll, e1, bind, Except.bind, pure, Except.pure]
    rw [apply]
    simp only [e2, bind, Except.bind, pure, Except.pure]
  · simp only [flat]; norm_num

/-- The hypotheses of `corrections_exact` hold for a nested schedule with three operations, two of them corrected. -/
theorem corrections_exact_example :
    let o : Op String String := .schedule "Schedule" [.leaf 0 [] "SquarePulse",
      .control "Loop" (.schedule "Schedule" [.leaf 1 [] "SquarePulse", .leaf 2 ["acq"] "Measure"])]
    let h : Heap Unit := fun k => if k = 2 then [other_pulse] else [square_pulse 1 1]
    (lists o).Nodup ∧ ∃ r, apply "NumericalPulse" (example_cfg 2) h o = .ok r ∧
      read r.1 r.2 = .schedule "Schedule" [.leaf [flat 2] [] "NumericalPulse",
        .control "Loop" (.schedule "Schedule" [.leaf [flat 2] [] "NumericalPulse", .leaf [other_pulse] ["acq"] "Measure"])] := by
  intro o h
  refine ⟨by decide, ?_⟩
  have k1 := fun h l e => apply_single (A := String) (K := String) "NumericalPulse" (example_cfg 2) h l [] "SquarePulse" (square_pulse 1 1)
    (gain 2) (flat 2) e (by rw [square_key]; simp [example_cfg]) rfl (square_to_flat 2)
  have hk : key other_pulse = "q1:res-cl0" := by
    simp only [key, other_pulse]; decide
  have k3 : correctList (example_cfg 2) [other_pulse] 0 1 = .ok ([other_pulse], false) := by
    simp [correctList, correctEntry, hk, example_cfg, bind, Except.bind, pure, Except.pure]
  let h1 : Heap Unit := fun k => if k = 0 then [flat 2] else h k
  let h2 : Heap Unit := fun k => if k = 1 then [flat 2] else h1 k
  let h3 : Heap Unit := fun k => if k = 2 then [other_pulse] else h2 k
  have e1 : apply "NumericalPulse" (example_cfg 2) h (.leaf 0 [] "SquarePulse") = .ok (h1, (.leaf 0 [] "NumericalPulse" : Op String String)) :=
    k1 h 0 rfl
  have e2 : apply "NumericalPulse" (example_cfg 2) h1 (.leaf 1 [] "SquarePulse") = .ok (h2, (.leaf 1 [] "NumericalPulse" : Op String String)) :=
    k1 h1 1 rfl
  have e3 : apply "NumericalPulse" (example_cfg 2) h2 (.leaf 2 ["acq"] "Measure") = .ok (h3, (.leaf 2 ["acq"] "Measure" : Op String String)) := by
    have : h2 2 = [other_pulse] := rfl
    simp only [apply, this, List.length_singleton, k3, bind, Except.bind, pure, Except.pure, Bool.false_eq_true, if_false]
    rfl
  refine ⟨(h3, .schedule "Schedule" [.leaf 0 [] "NumericalPulse", .control "Loop" (.schedule "Schedule"
    [.leaf 1 [] "NumericalPulse", .leaf 2 ["acq"] "Measure"])]), ?_, ?_⟩
  · show apply _ _ _ (.schedule _ _) = _
    rw [apply]
    simp only [applyAll, e1, bind, Except.bind, pure, Except.pure]
    rw [apply, apply]
    simp only [applyAll, e2, e3, bind, Except.bind, pure, Except.pure]
  · rfl

end Verif.Distortion
