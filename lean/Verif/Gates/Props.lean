/-
C42: the pulses of a circuit do what its gates do.
-/
import Verif.Gates.Matrices

set_option linter.unusedSimpArgs false
set_option linter.unusedVariables false

namespace Verif.Gates

open Complex (I)
open Verif.Numeric (pyRound pyMod)

variable {Q : Type} [DecidableEq Q]

/-! ### Expanding composite gates -/

/-- All composite gates of a circuit replaced by their factories' schedules. -/
def expand : List (Gate Q) → List (Gate Q)
  | [] => []
  | .h q :: gs => hadamardAsY90Z q ++ expand gs
  | .cnot c t :: gs => hadamardAsY90Z t ++ CZ c t :: hadamardAsY90Z t ++ expand gs
  | g :: gs => g :: expand gs

theorem expand_cnot {c t : Q} (h : c ≠ t) (ψ : State Q) :
    run (hadamardAsY90Z t ++ CZ c t :: hadamardAsY90Z t) ψ = (-1 : ℂ) • act (.cnot c t) ψ := by
  have := cnot_exact h ψ
  simp only [cnotAsHCzH, run] at this
  rw [run_append, run, hadamard_exact, hadamard_exact, this]
  rfl

/-- **C41, circuits.** Replacing the composite gates in any circuit on any qubits changes the result by a
sign at most. -/
theorem expand_exact : ∀ (gs : List (Gate Q)), (∀ g ∈ gs, g.Proper) →
    ∃ s : ℂ, (s = 1 ∨ s = -1) ∧ ∀ ψ : State Q, run (expand gs) ψ = s • run gs ψ
  | [], _ => ⟨1, .inl rfl, fun ψ => by simp [expand, run]⟩
  | g :: gs, h => by
    obtain ⟨s, hs, ih⟩ := expand_exact gs (fun g' hg' => h g' (List.mem_cons_of_mem _ hg'))
    cases g with
    | rxy θ φ q => exact ⟨s, hs, fun ψ => by simp only [expand, run, ih]⟩
    | rz θ q => exact ⟨s, hs, fun ψ => by simp only [expand, run, ih]⟩
    | cz c t => exact ⟨s, hs, fun ψ => by simp only [expand, run, ih]⟩
    | h q =>
      refine ⟨s, hs, fun ψ => ?_⟩
      simp only [expand, run]
      rw [run_append, ih, hadamard_exact]
      rfl
    | cnot c t =>
      have hp : c ≠ t := h _ List.mem_cons_self
      refine ⟨-s, ?_, fun ψ => ?_⟩
      · rcases hs with rfl | rfl
        · right; rfl
        · left; simp
      · have e : expand (Gate.cnot c t :: gs) = (hadamardAsY90Z t ++ CZ c t :: hadamardAsY90Z t) ++ expand gs := by
          simp [expand]
        rw [e, run_append, ih, expand_cnot hp, run_smul]
        simp only [run, smul_smul]
        congr 1
        ring

omit [DecidableEq Q] in
theorem rzMatrix_mul (α β : Rat) : rzMatrix β * rzMatrix α = rzMatrix (α + β) := by
  have h : ∀ (b : Fin 2) (x : Rat), rzMatrix x b b = zfac b x := by
    intro b x; rcases fin2_cases b with rfl | rfl <;> simp [rzMatrix, zfac]
  have e0 := zfac_add 0 α β
  have e1 := zfac_add 1 α β
  rw [← h, ← h, ← h] at e0 e1
  ext a b
  fin_cases a <;> fin_cases b <;> simp only [Matrix.mul_apply, Fin.sum_univ_two, Fin.zero_eta, Fin.mk_one]
  · rw [e0]; simp [rzMatrix]; ring
  · simp [rzMatrix]
  · simp [rzMatrix]
  · rw [e1]; simp [rzMatrix]; ring

/-- **C41, merging.** Two rotations about z are one by the sum of the angles, up to the sign. -/
theorem rz_merge (α β : Rat) (q : Q) : ∃ s : ℂ, (s = 1 ∨ s = -1) ∧
    ∀ ψ : State Q, run [Rz α q, Rz β q] ψ = s • run [Rz (α + β) q] ψ := by
  have sgn : ∀ {A B : Matrix (Fin 2) (Fin 2) ℂ}, (A = B ∨ A = -B) → ∃ s : ℂ, (s = 1 ∨ s = -1) ∧ A = s • B := by
    intro A B h
    rcases h with rfl | rfl
    · exact ⟨1, .inl rfl, by simp⟩
    · exact ⟨-1, .inr rfl, by simp⟩
  obtain ⟨a, ha, ha'⟩ := rz_stored α q
  obtain ⟨b, hb, hb'⟩ := rz_stored β q
  obtain ⟨c, hc, hc'⟩ := rz_stored (α + β) q
  obtain ⟨s1, h1, e1⟩ := sgn ha'
  obtain ⟨s2, h2, e2⟩ := sgn hb'
  obtain ⟨s3, h3, e3⟩ := sgn hc'
  have hs3 : s3 * s3 = 1 := by rcases h3 with rfl | rfl <;> norm_num
  refine ⟨s1 * s2 * s3, ?_, fun ψ => ?_⟩
  · rcases h1 with rfl | rfl <;> rcases h2 with rfl | rfl <;> rcases h3 with rfl | rfl <;> norm_num
  · rw [ha, hb, hc]
    simp only [run, act]
    have hsm : ∀ (k : ℂ) (M : Matrix (Fin 2) (Fin 2) ℂ), apply1 (k • M) q ψ = k • apply1 M q ψ := by
      intro k M
      funext x
      simp only [apply1, Fin.sum_univ_two, Matrix.smul_apply, Pi.smul_apply, smul_eq_mul]
      ring
    rw [apply1_mul, e1, e2, e3, Matrix.smul_mul, Matrix.mul_smul, rzMatrix_mul, hsm, hsm, hsm, smul_smul,
      smul_smul]
    congr 1
    linear_combination (-(s1 * s2)) * hs3

/-! ### Pulses -/

variable [Fintype Q]

/-- The hardware's state and the phases of its clocks stand for this state. -/
noncomputable def Hw.means (w : Hw Q) : State Q := frame w.phase w.state

theorem drive_means {d : Device Q} (hd : ∀ q, d.amp180 q ≠ 0) (θ φ : Rat) (q : Q) (w : Hw Q) :
    (play d (-1) (rxyPulse d θ φ q) w).means = apply1 (rxyMatrix θ φ) q w.means := by
  unfold Hw.means
  rw [rxy_frame]
  simp only [play, rxyPulse]
  have e : d.amp180 q * θ / 180 / d.amp180 q * 180 = θ := by
    have := hd q
    field_simp
  have e2 : φ + -1 * w.phase q = φ - w.phase q := by ring
  rw [e, e2]

theorem shift_means {d : Device Q} (s θ : Rat) (q : Q) (w : Hw Q) :
    (play d s (.shift q θ) w).means = apply1 (rzMatrix θ) q w.means := by
  unfold Hw.means
  rw [rz_frame]
  simp only [play]

theorem square_means {d : Device Q} {p c : Q} (hpc : p ≠ c) {e : Edge} (he : d.edge p c = some e) (w : Hw Q) :
    (playAll d (-1) (compositeSquare p c e) w).means = apply2 czMatrix p c w.means := by
  simp only [compositeSquare, playAll]
  rw [shift_means, shift_means]
  unfold Hw.means
  rw [cz_frame hpc]
  funext x
  simp only [apply1_rz, frame, play, he]
  have h1 := zfac_add (x c) e.childPhase (-1 * e.childPhase)
  have h2 := zfac_add (x p) e.parentPhase (-1 * e.parentPhase)
  have e1 : e.childPhase + -1 * e.childPhase = 0 := by ring
  have e2 : e.parentPhase + -1 * e.parentPhase = 0 := by ring
  rw [e1, zfac_zero] at h1
  rw [e2, zfac_zero] at h2
  linear_combination (-(frameFac w.phase x * apply2 czMatrix p c w.state x)) * h1 -
    (frameFac w.phase x * apply2 czMatrix p c w.state x * zfac (x c) e.childPhase *
      zfac (x c) (-1 * e.childPhase)) * h2

theorem lowerH_means {d : Device Q} (hd : ∀ q, d.amp180 q ≠ 0) (q : Q) (w : Hw Q) :
    (playAll d (-1) (lowerH d q) w).means = act (.h q) w.means := by
  have h := hadamard_exact q w.means
  simp only [hadamardAsY90Z, run, Z_stored, Y90_stored, act, H] at h
  simp only [lowerH, hadamardAsY90Z, List.flatMap_cons, List.flatMap_nil, Z_stored, Y90_stored, lowerRot,
    List.singleton_append, List.append_nil, playAll, phaseShift]
  rw [drive_means hd, shift_means, h]
  rfl

theorem lowerCz_means {d : Device Q} {c t : Q} (hct : c ≠ t) {ps : List (Pulse Q)}
    (h : lowerCz d c t = some ps) (w : Hw Q) :
    (playAll d (-1) ps w).means = act (.cz c t) w.means := by
  unfold lowerCz at h
  cases he : d.edge c t with
  | some e =>
    rw [he] at h
    obtain rfl := Option.some.inj h
    rw [square_means hct he]; rfl
  | none =>
    rw [he] at h
    cases he' : d.edge t c with
    | none => rw [he'] at h; simp at h
    | some e =>
      rw [he'] at h
      obtain rfl := Option.some.inj h
      rw [square_means hct.symm he', act, cz_symm hct]

/-- The pulses of one gate. -/
theorem lower_means {d : Device Q} (hd : ∀ q, d.amp180 q ≠ 0) {g : Gate Q} (hg : g.Proper)
    {ps : List (Pulse Q)} (h : lower d g = some ps) :
    ∃ s : ℂ, (s = 1 ∨ s = -1) ∧ ∀ w : Hw Q, (playAll d (-1) ps w).means = s • act g w.means := by
  cases g with
  | rxy θ φ q =>
    obtain rfl := Option.some.inj h
    refine ⟨1, .inl rfl, fun w => ?_⟩
    simp only [lowerRot, playAll, one_smul]
    rw [drive_means hd]; rfl
  | rz θ q =>
    obtain rfl := Option.some.inj h
    refine ⟨1, .inl rfl, fun w => ?_⟩
    simp only [lowerRot, playAll, one_smul, phaseShift]
    rw [shift_means]; rfl
  | h q =>
    obtain rfl := Option.some.inj h
    exact ⟨1, .inl rfl, fun w => by rw [one_smul, lowerH_means hd]⟩
  | cz c t => exact ⟨1, .inl rfl, fun w => by rw [one_smul, lowerCz_means hg h]⟩
  | cnot c t =>
    unfold lower at h
    cases he : d.edge c t with
    | none => simp [he] at h
    | some e =>
      simp only [he] at h
      obtain ⟨m, hm, rfl⟩ := Option.map_eq_some_iff.mp h
      refine ⟨-1, .inr rfl, fun w => ?_⟩
      rw [playAll_append, playAll_append, lowerH_means hd, lowerCz_means hg hm, lowerH_means hd]
      have := cnot_exact hg w.means
      simp only [cnotAsHCzH, run] at this
      exact this

theorem lowerAll_means {d : Device Q} (hd : ∀ q, d.amp180 q ≠ 0) : ∀ (gs : List (Gate Q)) (ps : List (Pulse Q)),
    (∀ g ∈ gs, g.Proper) → lowerAll d gs = some ps →
    ∃ s : ℂ, (s = 1 ∨ s = -1) ∧ ∀ w : Hw Q, (playAll d (-1) ps w).means = s • run gs w.means
  | [], ps, _, h => by
    obtain rfl := Option.some.inj h
    exact ⟨1, .inl rfl, fun w => by simp [playAll, run]⟩
  | g :: gs, ps, hp, h => by
    unfold lowerAll at h
    cases h1 : lower d g with
    | none => rw [h1] at h; simp at h
    | some a =>
      cases h2 : lowerAll d gs with
      | none => rw [h1, h2] at h; simp at h
      | some b =>
        rw [h1, h2] at h
        obtain rfl := Option.some.inj h
        obtain ⟨s, hs, hs'⟩ := lower_means hd (hp g List.mem_cons_self) h1
        obtain ⟨s2, ht, ht'⟩ := lowerAll_means hd gs b (fun x hx => hp x (List.mem_cons_of_mem _ hx)) h2
        refine ⟨s2 * s, ?_, fun w => ?_⟩
        · rcases hs with rfl | rfl <;> rcases ht with rfl | rfl <;> simp
        · rw [playAll_append, ht', hs', run_smul, smul_smul]
          rfl

/-- **C42.** If shifting a clock by an angle shifts the phases of later pulses by minus this angle,
then for every circuit on any number of qubits, the state after its pulses is the one after its
gates, up to a sign and up to a rotation of each qubit about z by the phase of its clock. -/
theorem pulses_do_gates {d : Device Q} (hd : ∀ q, d.amp180 q ≠ 0) {gs : List (Gate Q)} {ps : List (Pulse Q)}
    (hp : ∀ g ∈ gs, g.Proper) (h : lowerAll d gs = some ps) (ψ : State Q) :
    ∃ s : ℂ, (s = 1 ∨ s = -1) ∧ ∀ x,
      (∏ q, if x q = 0 then Complex.exp (-I * rad ((playAll d (-1) ps ⟨fun _ => 0, ψ⟩).phase q) / 2)
        else Complex.exp (I * rad ((playAll d (-1) ps ⟨fun _ => 0, ψ⟩).phase q) / 2)) *
        (playAll d (-1) ps ⟨fun _ => 0, ψ⟩).state x = s * run gs ψ x := by
  obtain ⟨s, hs, hm⟩ := lowerAll_means hd gs ps hp h
  refine ⟨s, hs, fun x => ?_⟩
  have := congrFun (hm ⟨fun _ => 0, ψ⟩) x
  simp only [Hw.means, frame_zero, Pi.smul_apply, smul_eq_mul] at this
  rw [← this]
  rfl

/-- **C42, measurements.** Under the same condition, all results of a measurement have the
probabilities that the circuit's matrices predict. -/
theorem measured_as_predicted {d : Device Q} (hd : ∀ q, d.amp180 q ≠ 0) {gs : List (Gate Q)}
    {ps : List (Pulse Q)} (hp : ∀ g ∈ gs, g.Proper) (h : lowerAll d gs = some ps) (ψ : State Q)
    (x : Q → Fin 2) : prob (playAll d (-1) ps ⟨fun _ => 0, ψ⟩).state x = prob (run gs ψ) x := by
  obtain ⟨s, hs, hm⟩ := lowerAll_means hd gs ps hp h
  have := congrArg Complex.normSq (congrFun (hm ⟨fun _ => 0, ψ⟩) x)
  simp only [Hw.means, frame_zero, Pi.smul_apply, smul_eq_mul] at this
  unfold frame at this
  rw [Complex.normSq_mul, normSq_frameFac, one_mul, Complex.normSq_mul] at this
  have hs1 : Complex.normSq s = 1 := by rcases hs with rfl | rfl <;> simp
  rw [hs1, one_mul] at this
  exact this

/-! ### The sign of the clock's phase -/

omit [DecidableEq Q] [Fintype Q] in
theorem rxy_180 : rxyMatrix 90 180 * rxyMatrix 90 0 = 1 := by
  have h := sqrt2_sq
  rw [rxyMatrix_eq, rxyMatrix_eq, half_90, rad_zero, Real.cos_pi_div_four, Real.sin_pi_div_four]
  have e : rad 180 = Real.pi := by unfold rad; push_cast; ring
  have hI : I * I = -1 := Complex.I_mul_I
  rw [e]
  ext a b
  fin_cases a <;> fin_cases b <;> simp [Matrix.mul_apply, Fin.sum_univ_two]
  · linear_combination (-((Real.sqrt 2 : ℂ) ^ 2 / 4)) * hI + (1 / 2) * h
  · ring
  · ring
  · linear_combination (-((Real.sqrt 2 : ℂ) ^ 2 / 4)) * hI + (1 / 2) * h

/-- The state in which all qubits are 0. -/
noncomputable def ground (Q : Type) [Fintype Q] : State Q := fun x => if ∀ q, x q = 0 then 1 else 0

/-- Finding: `Rz(θ)` shifts the clock by `+θ`. If that adds to the phase of later pulses (`s = 1`) instead
of being subtracted from it, then the circuit X90, S, Y90 gives 0 with certainty where its matrices
predict 1. (Which is the case depends on the hardware; a change of sign of all phases, of pulses
and of clocks, makes no difference.) -/
theorem same_sign_wrong : ∃ (d : Device Unit) (gs : List (Gate Unit)) (ps : List (Pulse Unit)),
    gs = [X90 (), S (), Y90 ()] ∧ lowerAll d gs = some ps ∧
    prob (run gs (ground Unit)) (fun _ => 1) = 1 ∧
    prob (playAll d 1 ps ⟨fun _ => 0, ground Unit⟩).state (fun _ => 1) = 0 := by
  have hq : S () = (.rz 90 () : Gate Unit) := Z90_stored ()
  refine ⟨⟨fun _ => 1, fun _ _ => none⟩, _, [.drive () (90 / 180) 0, .shift () 90, .drive () (90 / 180) 90], rfl, ?_, ?_, ?_⟩
  · rw [X90_stored, hq, Y90_stored]
    simp [lowerAll, lower, lowerRot, rxyPulse, phaseShift]
  · rw [X90_stored, hq, Y90_stored]
    simp only [run, act]
    rw [show (rxyMatrix 90 90) = y90Doc from y90Matrix]
    have hz : rzMatrix 90 = (1 / (Real.sqrt 2 : ℂ)) • !![1 - I, 0; 0, 1 + I] := by
      rw [rzMatrix_eq, half_90, Real.cos_pi_div_four, Real.sin_pi_div_four]
      have h := sqrt2_sq
      have hn := sqrt2_ne
      ext a b
      fin_cases a <;> fin_cases b <;> simp <;> field_simp
      · linear_combination (1 - I) * h
      · linear_combination (1 + I) * h
    have hx : rxyMatrix 90 0 = (1 / (Real.sqrt 2 : ℂ)) • !![1, -I; -I, 1] := by
      rw [rxyMatrix_eq, half_90, rad_zero, Real.cos_pi_div_four, Real.sin_pi_div_four]
      have h := sqrt2_sq
      have hn := sqrt2_ne
      ext a b
      fin_cases a <;> fin_cases b <;> simp <;> field_simp <;> linear_combination h
    rw [apply1_mul, apply1_mul, hz, hx, y90Doc]
    have h := sqrt2_sq
    have hn := sqrt2_ne
    have hI : I * I = -1 := Complex.I_mul_I
    have e : (Function.update (fun _ : Unit => (1 : Fin 2)) () 0) = fun _ => 0 := by funext u; simp
    have e' : (Function.update (fun _ : Unit => (1 : Fin 2)) () 1) = fun _ => 1 := by funext u; simp
    have key : ((1 / (Real.sqrt 2 : ℂ)) • (!![1, -1; 1, 1] : Matrix (Fin 2) (Fin 2) ℂ) *
        (1 / (Real.sqrt 2 : ℂ)) • !![1 - I, 0; 0, 1 + I] * (1 / (Real.sqrt 2 : ℂ)) • !![1, -I; -I, 1]) 1 0 =
        (1 - I) / (Real.sqrt 2 : ℂ) := by
      simp [Matrix.mul_apply, Fin.sum_univ_two]
      field_simp
      linear_combination (-(1 - I)) * h - hI
    unfold prob apply1 ground
    rw [Fin.sum_univ_two, e, e']
    simp only [key]
    simp [Complex.normSq_apply]
  · simp only [playAll, play, Function.update_self]
    have a1 : (90 / 180 / 1 * 180 : Rat) = 90 := by norm_num
    have a2 : (90 + 1 * (0 + 90) : Rat) = 180 := by norm_num
    have a3 : (0 + 1 * 0 : Rat) = 0 := by norm_num
    simp only [a1, a2, a3, apply1_mul, rxy_180]
    unfold prob apply1 ground
    simp [Fin.sum_univ_two]

/-! ### Amplitudes -/

omit [DecidableEq Q] [Fintype Q] in
theorem round8_range {x : Rat} {n : Int} (h1 : -n ≤ x) (h2 : x ≤ n) : -n ≤ round8 x ∧ round8 x ≤ n := by
  have e : ∀ m : Int, round8 m = m := by
    intro m
    unfold round8
    have : (m : Rat) * 100000000 = ((m * 100000000 : Int) : Rat) := by push_cast; ring
    rw [this, Numeric.pyRound_int]
    push_cast
    field_simp
  have mono : ∀ {a b : Rat}, a ≤ b → round8 a ≤ round8 b := by
    intro a b hab
    have := Numeric.pyRound_mono (show a * 100000000 ≤ b * 100000000 by linarith)
    unfold round8
    have h : ((pyRound (a * 100000000) : Int) : Rat) ≤ (pyRound (b * 100000000) : Int) := by exact_mod_cast this
    linarith
  constructor
  · have := mono h1
    have e2 := e (-n)
    push_cast at e2
    rw [e2] at this
    exact this
  · have := mono h2
    rw [e] at this
    exact this

omit [DecidableEq Q] [Fintype Q] in
/-- **C41, amplitudes.** No rotation needs more than the amplitude for 180 degrees. -/
theorem amplitude_bounded (d : Device Q) (θ φ : Rat) (q : Q) : ∃ amp phase,
    lower d (Rxy θ φ q) = some [.drive q amp phase] ∧ |amp| ≤ |d.amp180 q| := by
  refine ⟨_, _, rfl, ?_⟩
  obtain ⟨h1, h2, _⟩ := modulo360_spec θ
  obtain ⟨h3, h4⟩ := round8_range (x := modulo360 θ) (n := 180) (by push_cast; linarith) (by push_cast; linarith)
  push_cast at h3 h4
  rw [mul_div_assoc, abs_mul]
  have : |round8 (modulo360 θ) / 180| ≤ 1 := by
    rw [abs_le]; constructor <;> linarith
  nlinarith [abs_nonneg (d.amp180 q)]

omit [DecidableEq Q] [Fintype Q] in
/-- Finding: rounding can leave the documented ranges of angles: -180 is stored, which is not the same
operation as 180, and a phase of 360 that is not the same as 0. -/
theorem rounding_leaves_range (q : Q) :
    Rxy (-180 + 1 / 1000000000) (-1 / 1000000000) q = .rxy (-180) 360 q := by
  have h1 : round8 (modulo360 (-180 + 1 / 1000000000)) = -180 := by decide +kernel
  have h2 : round8 (pyMod (-1 / 1000000000) 360) = 360 := by decide +kernel
  simp only [Rxy, h1, h2]

/-! ### A case -/

/-- The hypotheses of `pulses_do_gates` and `measured_as_predicted` hold for a Bell state circuit with
an edge in the other direction than the CZ gate, and for a `CNOT`. -/
example : ∃ ps, lowerAll (⟨fun _ => 1 / 2, fun p c => if p = 1 ∧ c = 0 then some ⟨1, 10, 20⟩ else none⟩ : Device (Fin 2))
      [H 0, T 0, CZ 0 1, CNOT 1 0, X90 1] = some ps ∧ ps.length = 14 ∧
    (∀ g ∈ ([H 0, T 0, CZ 0 1, CNOT 1 0, X90 1] : List (Gate (Fin 2))), g.Proper) := by
  refine ⟨_, rfl, by decide +kernel, ?_⟩
  intro g hg
  simp only [List.mem_cons, List.not_mem_nil, or_false] at hg
  rcases hg with rfl | rfl | rfl | rfl | rfl <;>
    simp [Gate.Proper, H, T, CZ, CNOT, X90, Rxy, Rz]

end Verif.Gates
