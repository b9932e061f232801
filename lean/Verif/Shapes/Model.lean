/-
Model of `quantify_scheduler/waveforms.py`, of the sampling functions in
`quantify_scheduler/helpers/waveforms.py` and `quantify_scheduler/backends/qblox/helpers.py`.

Floats are real numbers, numpy arrays are lists.  A division by zero, which is an exception for
Python numbers and `nan` or `inf` for numpy numbers, is an error here.
-/
import Mathlib.Analysis.SpecialFunctions.Trigonometric.Basic
import Mathlib.Analysis.SpecialFunctions.Trigonometric.Bounds
import Mathlib.Data.Real.Sqrt

namespace Verif.Shapes

open Complex (I)

set_option autoLift false

/-- Errors. -/
inductive Err
  | zeroDivision | indexError | valueError | typeError | notANumber
  deriving DecidableEq, Repr

/-- `square` (waveforms.py:24-26): `amp * np.ones(len(t))`. -/
noncomputable def square (t : List ℝ) (amp : ℂ) : List ℂ := (List.replicate t.length 1).map (amp * ·)

/-- `square_imaginary` (waveforms.py:29-31). -/
noncomputable def squareImaginary (t : List ℝ) (amp : ℂ) : List ℂ := square t (I * amp)

/-- `ramp` (waveforms.py:34-45).  `duration = none` is the deprecated way:
`np.linspace(offset, amp + offset, len(t), endpoint=False)`. -/
noncomputable def ramp (t : List ℝ) (amp offset : ℝ) (duration : Option ℝ) : Except Err (List ℝ) :=
  match duration with
  | none => .ok ((List.range t.length).map fun k : Nat =>
      offset + k * ((amp + offset - offset) / t.length))
  | some d => if d = 0 then .error .zeroDivision else .ok (t.map fun x => amp / d * x + offset)

/-- `staircase` (waveforms.py:48-94) for real amplitudes. -/
noncomputable def staircase (t : List ℝ) (startAmp finalAmp : ℝ) (numSteps : ℤ)
    (duration : Option ℝ) : Except Err (List ℝ) :=
  let go (d : ℝ) : Except Err (List ℝ) :=
    if numSteps - 1 = 0 then .error .zeroDivision
    else if d = 0 then .error .zeroDivision
    else
      let ampStep := (finalAmp - startAmp) / ((numSteps - 1 : ℤ) : ℝ)
      let waveform := t.map fun x => (⌊x * (numSteps / d)⌋ : ℤ) * ampStep + startAmp
      .ok (waveform.map fun w => min (max w startAmp) finalAmp)
  match duration with
  | some d => go d
  | none =>
    match t.getLast?, t.head? with
    | some l, some h => go (l - h)
    | _, _ => .error .indexError

/-- `scipy.signal.windows.hann(M)` (symmetric): nothing, one, or `0.5 - 0.5 cos(2 pi n / (M-1))`. -/
noncomputable def hann (m : Nat) : List ℝ :=
  if m = 1 then [1]
  else (List.range m).map fun n : Nat => 1 / 2 - 1 / 2 * Real.cos (2 * Real.pi * n / (m - 1 : ℝ))

/-- The item at a position, zero outside of the list (for convolutions). -/
def at0 {A : Type} [Zero A] (l : List A) (i : Int) : A :=
  if i < 0 then 0 else (l[i.toNat]?).getD 0

/-- `scipy.signal.convolve(data, window, mode="same")`: the full convolution, cut to the length of the
data around its center. -/
noncomputable def convolveSame (data : List ℂ) (window : List ℝ) : List ℂ :=
  (List.range data.length).map fun i : Nat =>
    (((List.range window.length).map fun k : Nat =>
      at0 data ((i : Int) + ((window.length - 1) / 2 : Nat) - k) * ((at0 window (k : Int) : ℝ) : ℂ))).sum

/-- `soft_square` (waveforms.py:97-114). -/
noncomputable def softSquare (t : List ℝ) (amp : ℂ) : Except Err (List ℂ) :=
  let data := square t amp
  if t.length > 1 then
    let window := hann (t.length / 2)
    if window.sum = 0 then .error .notANumber
    else .ok ((convolveSame data window).map (· / (window.sum : ℂ)))
  else .ok data

/-- `chirp` (waveforms.py:117-173). -/
noncomputable def chirp (t : List ℝ) (amp startFreq endFreq : ℝ) (duration : Option ℝ) :
    Except Err (List ℂ) :=
  let go (d : ℝ) : Except Err (List ℂ) :=
    if d = 0 then .error .zeroDivision
    else
      let rate := (endFreq - startFreq) / d
      .ok (t.map fun x => (amp : ℂ) *
        Complex.exp (1 * I * 2 * (Real.pi : ℂ) * ((rate * x / 2 + startFreq : ℝ) : ℂ) * (x : ℂ)))
  match duration with
  | some d => go d
  | none =>
    match t.getLast?, t.head? with
    | some l, some h => go (l - h)
    | _, _ => .error .indexError

/-- `np.deg2rad`. -/
noncomputable def deg2rad (x : ℝ) : ℝ := x * Real.pi / 180

/-- `rotate_wave` (waveforms.py:453-473). -/
noncomputable def rotateWave (wave : List ℂ) (phase : ℝ) : List ℂ :=
  wave.map fun w =>
    ((Real.cos (deg2rad phase) : ℂ) + 1 * I * (Real.sin (deg2rad phase) : ℂ)) * w

/-- The values of the keyword `subtract_offset` that are accepted. -/
inductive Subtract
  | average | first | last | none
  deriving DecidableEq, Repr

/-- Subtract an offset from all items (waveforms.py:246-262). -/
noncomputable def subtractOffset (l : List ℝ) : Subtract → List ℝ
  | .none => l
  | .average => l.map (· - (l.head?.getD 0 + l.getLast?.getD 0) / 2)
  | .first => l.map (· - l.head?.getD 0)
  | .last => l.map (· - l.getLast?.getD 0)

/-- `drag` (waveforms.py:176-272). -/
noncomputable def drag (t : List ℝ) (gAmp dAmp duration : ℝ) (nrSigma sigma : Option ℝ) (phase : ℝ)
    (sub : Subtract) : Except Err (List ℂ) :=
  match t.head? with
  | none => .error .indexError
  | some t0 =>
    let mu := t0 + duration / 2
    let go (s : ℝ) : Except Err (List ℂ) :=
      if s = 0 then .error .notANumber
      else
        let gauss := t.map fun x => gAmp * Real.exp (-(1 / 2 * (x - mu) ^ 2 / s ^ 2))
        let deriv := List.zipWith (fun x g => -dAmp * (x - mu) / s * g) t gauss
        let gauss := subtractOffset gauss sub
        let deriv := subtractOffset deriv sub
        .ok (rotateWave (List.zipWith (fun g d : ℝ => (g : ℂ) + 1 * I * (d : ℂ)) gauss deriv) phase)
    match sigma, nrSigma with
    | some _, some _ => .error .valueError
    | some s, none => go s
    | none, some n => if 2 * n = 0 then .error .zeroDivision else go (duration / (2 * n))
    | none, none => .error .typeError

/-- `int(x)`: towards zero. -/
noncomputable def toInt (x : ℝ) : ℤ := if 0 ≤ x then ⌊x⌋ else ⌈x⌉

/-- `waveform[a:b] = v` for `0 ≤ a`, `0 ≤ b`. -/
def setSlice (l : List ℝ) (a b : Nat) (v : ℝ) : List ℝ :=
  l.zipIdx.map fun p => if a ≤ p.2 ∧ p.2 < b then v else p.1

/-- `waveform[i] = v`: negative positions count from the end; an error outside. -/
def setItem (l : List ℝ) (i : Int) (v : ℝ) : Except Err (List ℝ) :=
  let j := if i < 0 then i + l.length else i
  if 0 ≤ j ∧ j < l.length then .ok (l.set j.toNat v) else .error .indexError

/-- `sudden_net_zero` (waveforms.py:275-370), for durations that are not negative. -/
noncomputable def suddenNetZero (t : List ℝ) (ampA ampB scale tPulse tPhi tCorr : ℝ) :
    Except Err (List ℝ) :=
  match t with
  | t0 :: t1 :: _ =>
    let rate := t1 - t0
    if rate = 0 then .error .notANumber
    else
      let arm := (toInt (tPulse / 2 / rate)).toNat
      let mid := (toInt (tPhi / rate)).toNat
      let corr := (toInt (tCorr / rate)).toNat
      if 2 * arm + mid + corr > t.length then .error .valueError
      else do
        let w := List.replicate t.length (0 : ℝ)
        let w := setSlice w 0 arm ampA
        let w ← setItem w ((arm : Int) - 1) (ampA * ampB)
        let w := setSlice w (arm + mid) (2 * arm + mid) (-ampA * scale)
        let w ← setItem w ((arm : Int) + mid) (-ampA * scale * ampB)
        if corr = 0 then .ok w   -- the integral value is infinite, but not used
        else .ok (setSlice w (2 * arm + mid) (2 * arm + mid + corr) (-w.sum / corr))
  | _ => .error .indexError

/-- The number of items that are smaller (`np.searchsorted(..., side="left")`). -/
noncomputable def searchsorted (xs : List ℝ) (x : ℝ) : Nat := by
  classical exact (xs.takeWhile (· < x)).length

/-- `scipy.interpolate.interp1d(xs, ys, kind="linear", fill_value="extrapolate")(x)`, for `xs` in
increasing order: the line through the two neighbours. -/
noncomputable def interp1d (xs ys : List ℝ) (x : ℝ) : ℝ :=
  let i := max 1 (min (searchsorted xs x) (xs.length - 1))
  let xlo := xs.getD (i - 1) 0
  let xhi := xs.getD i 0
  let ylo := ys.getD (i - 1) 0
  let yhi := ys.getD i 0
  (yhi - ylo) / (xhi - xlo) * (x - xlo) + ylo

/-- `interpolated_complex_waveform` (waveforms.py:373-445) with linear interpolation, no further keyword
arguments, and arrays of the same length. -/
noncomputable def interpolated (t : List ℝ) (samples : List ℂ) (tSamples : List ℝ) :
    Except Err (List ℂ) :=
  match tSamples with
  | s0 :: s1 :: _ =>
    let delta := s1 - s0
    match t.head?, t.getLast? with
    | some h, some l =>
      if h < s0 - delta ∨ l > (tSamples.getLast?.getD 0) + delta then .error .valueError
      else .ok (t.map fun x => (interp1d tSamples (samples.map Complex.re) x : ℂ) +
        1 * I * (interp1d tSamples (samples.map Complex.im) x : ℂ))
    | _, _ => .error .indexError
  | _ => .error .indexError

/-- `skewed_hermite` (waveforms.py:476-561). -/
noncomputable def skewedHermite (t : List ℝ) (duration amplitude skewness phase : ℝ) (pi2 : Bool)
    (center : Option ℝ) (ratio : ℝ) : Except Err (List ℂ) :=
  if ratio = 0 then .error .zeroDivision
  else
    let tH := duration / ratio
    let factor : ℝ := if pi2 then 667 / 1000 else 956 / 1000
    let center := center.getD (duration / 2)
    match t.head? with
    | none => .error .indexError
    | some t0 =>
      if tH = 0 then .error .notANumber
      else
        let total := center + t0
        let n (x : ℝ) : ℝ := (x - total) / tH
        let h (x : ℝ) : ℝ := (1 - factor * n x ^ 2) * Real.exp (-(n x ^ 2))
        let i (x : ℝ) : ℝ := amplitude * h x
        let q (x : ℝ) : ℝ := amplitude * (skewness / Real.pi) * (n x / tH) *
          (factor + 1 - factor * n x ^ 2) * Real.exp (-(n x ^ 2))
        .ok (rotateWave (t.map fun x => (i x : ℂ) + 1 * I * (q x : ℂ)) phase)

/-! ### Sampling -/

/-- `round` of Python: to the nearest integer, halves to the even one. -/
noncomputable def pyRound (x : ℝ) : ℤ :=
  if x - ⌊x⌋ < 1 / 2 then ⌊x⌋
  else if 1 / 2 < x - ⌊x⌋ then ⌊x⌋ + 1
  else if ⌊x⌋ % 2 = 0 then ⌊x⌋ else ⌊x⌋ + 1

/-- The times at which `generate_waveform_data` samples (backends/qblox/helpers.py:75-85).  `duration or
data_dict["duration"]`: an argument of zero counts as absent. -/
noncomputable def qbloxTimes (arg dataDuration : Option ℝ) (fs : ℝ) : Except Err (List ℝ) :=
  let go (d : ℝ) : Except Err (List ℝ) :=
    if fs = 0 then .error .zeroDivision
    else .ok ((List.range (pyRound (d * fs)).toNat).map fun k : Nat => (k : ℝ) / fs)
  match (if arg = some 0 then none else arg), dataDuration with
  | some d, _ => go d
  | none, some d => go d
  | none, none => .error .typeError

/-- The times at which `get_waveform` samples (helpers/waveforms.py:178):
`np.arange(0, 0 + duration, 1 / sampling_rate)`, whose length is `ceil(duration / step)`. -/
noncomputable def arangeTimes (duration fs : ℝ) : Except Err (List ℝ) :=
  if fs = 0 then .error .zeroDivision
  else .ok ((List.range ⌈(0 + duration - 0) / (1 / fs)⌉.toNat).map fun k : Nat => 0 + (k : ℝ) * (1 / fs))

/-- A `pulse_info` as far as `exec_waveform_function` reads it (operations/pulse_library.py); the
constructor is the function named by `wf_func`. -/
inductive Shape
  | square (amp : ℂ)
  | squareImaginary (amp : ℂ)
  | ramp (amp : ℝ) (offset : Option ℝ)
  | staircase (startAmp finalAmp : ℝ) (numSteps : ℤ)
  | softSquare (amp : ℂ)
  | chirp (amp startFreq endFreq : ℝ)
  | drag (gAmp dAmp : ℝ) (nrSigma sigma : Option ℝ) (phase : ℝ)
  | suddenNetZero (ampA ampB scale tPulse tPhi tCorr : ℝ)
  | interpolated (samples : List ℂ) (tSamples : List ℝ)
  | skewedHermite (amplitude skewness phase : ℝ) (pi2 : Bool) (center : Option ℝ)

/-- `exec_waveform_function` and `exec_custom_waveform_function` (helpers/waveforms.py:253-349) for the
functions of the library, `duration` being `pulse_info["duration"]`: a `drag` has its default
`subtract_offset`, a `skewed_hermite` its default `duration_over_char_time`. -/
noncomputable def execWaveform (s : Shape) (duration : ℝ) (t : List ℝ) : Except Err (List ℂ) :=
  match s with
  | .square amp => .ok (square t amp)
  | .squareImaginary amp => .ok (squareImaginary t amp)
  | .ramp amp offset => (ramp t amp (offset.getD 0) (some duration)).map (·.map (fun x : ℝ => (x : ℂ)))
  | .staircase a b n => (staircase t a b n (some duration)).map (·.map (fun x : ℝ => (x : ℂ)))
  | .softSquare amp => softSquare t amp
  | .chirp amp a b => chirp t amp a b (some duration)
  | .drag g d n s p => drag t g d duration n s p .average
  | .suddenNetZero a b c d e f => (suddenNetZero t a b c d e f).map (·.map (fun x : ℝ => (x : ℂ)))
  | .interpolated s ts => interpolated t s ts
  | .skewedHermite a s p b c => skewedHermite t duration a s p b c 6

/-- `generate_waveform_data` (backends/qblox/helpers.py:46-89). -/
noncomputable def generateWaveformData (s : Shape) (duration : ℝ) (arg : Option ℝ) (fs : ℝ) :
    Except Err (List ℂ) := do
  let t ← qbloxTimes arg (some duration) fs
  execWaveform s duration t

/-- `get_waveform` (helpers/waveforms.py:158-182). -/
noncomputable def getWaveform (s : Shape) (duration fs : ℝ) : Except Err (List ℂ) := do
  let t ← arangeTimes duration fs
  execWaveform s duration t

/-- `waveform.mean() * pulse["duration"]` (helpers/waveforms.py:552).  The mean of no samples is `nan`. -/
noncomputable def meanTimes (ys : List ℂ) (duration : ℝ) : Except Err ℂ :=
  if ys.length = 0 then .error .notANumber else .ok (ys.sum / (ys.length : ℂ) * duration)

/-- `area_pulse` (helpers/waveforms.py:515-552): `amp * duration` for a square pulse, otherwise mean times
duration. -/
noncomputable def areaPulse (s : Shape) (duration fs : ℝ) : Except Err ℂ :=
  if ¬ 0 < fs then .error .valueError
  else match s with
    | .square amp => .ok (amp * duration)
    | s => do meanTimes (← getWaveform s duration fs) duration

/-- `area_pulses` (helpers/waveforms.py:490-512). -/
noncomputable def areaPulses (ps : List (Shape × ℝ)) (fs : ℝ) : Except Err ℂ :=
  ps.foldlM (fun a p => do return a + (← areaPulse p.1 p.2 fs)) 0

/-! ### Helpers for sequencers with a granularity -/

/-- `closest_number_ceil` (math.py:8-38) for natural numbers. -/
def closestNumberCeil (number multiple : Nat) : Except Err Nat :=
  if ¬ number > 0 then .error .valueError
  else if ¬ multiple > 0 then .error .valueError
  else .ok (multiple * (number / multiple + 1))

/-- `get_waveform_size` (helpers/waveforms.py:44-60). -/
def getWaveformSize (len granularity : Nat) : Except Err Nat :=
  if granularity = 0 then .error .zeroDivision
  else if len % granularity ≠ 0 then (closestNumberCeil len granularity).map (max · granularity)
  else .ok (max len granularity)

/-- `resize_waveform` (helpers/waveforms.py:80-109). -/
def resizeWaveform (w : List ℂ) (granularity : Nat) : Except Err (List ℂ) :=
  if w.length = 0 then .ok (List.replicate granularity 0)
  else if granularity = 0 then .error .zeroDivision
  else if w.length % granularity = 0 then .ok w
  else (closestNumberCeil w.length granularity).map fun n => w ++ List.replicate (n - w.length) 0

/-- `shift_waveform` (helpers/waveforms.py:111-155): the sequencer count at which to start, and the
waveform with zeros before it. -/
noncomputable def shiftWaveform (w : List ℂ) (start fs : ℝ) (resolution : Nat) :
    Except Err (ℤ × List ℂ) :=
  if resolution = 0 then .error .zeroDivision
  else
    let count := pyRound (start * fs)
    let shift := count % (resolution : ℤ)
    .ok (count / (resolution : ℤ), if shift = 0 then w else List.replicate shift.toNat 0 ++ w)

/-- `modulate_waveform` (helpers/waveforms.py:413-446). -/
noncomputable def modulateWaveform (t : List ℝ) (envelope : List ℂ) (freq t0 : ℝ) : List ℂ :=
  List.zipWith (fun x e => e * Complex.exp (1 * I * 2 * (Real.pi : ℂ) * (freq : ℂ) * ((x + t0 : ℝ) : ℂ)))
    t envelope

/-- `np.max(np.abs(l))`; an error for an empty array. -/
noncomputable def maxAbs (l : List ℝ) : Except Err ℝ :=
  match l with
  | [] => .error .valueError
  | x :: l => .ok (l.foldl (fun m y => max m |y|) |x|)

/-- The inner functions `skew_real` and `skew_imag` after their first line: rescale `l` to the maximum
`orig` (helpers/waveforms.py:386-405). -/
noncomputable def rescale (l : List ℝ) (orig : ℝ) : Except Err (List ℝ) := do
  let new ← maxAbs l
  return (if new ≠ 0 then l.map (· / new) else List.replicate l.length 0).map (· * orig)

/-- `apply_mixer_skewness_corrections` (helpers/waveforms.py:352-410).  Division by `cos = 0` or
`sqrt(alpha) = 0` is `nan` or `inf`, and `sqrt` of a negative number is `nan`. -/
noncomputable def mixerCorrections (w : List ℂ) (alpha phaseShift : ℝ) : Except Err (List ℂ) :=
  let phi := deg2rad phaseShift
  if alpha ≤ 0 ∨ Real.cos phi = 0 then .error .notANumber
  else do
    let origRe ← maxAbs (w.map Complex.re)
    let re ← rescale (w.map fun z => z.re + z.im * Real.tan phi) origRe
    let re := re.map (· * Real.sqrt alpha)
    let origIm ← maxAbs (w.map Complex.im)
    let im ← rescale (w.map fun z => z.im / Real.cos phi) origIm
    let im := im.map (· / Real.sqrt alpha)
    return List.zipWith (fun a b : ℝ => (a : ℂ) + 1 * I * (b : ℂ)) re im

end Verif.Shapes
