/-
Concrete cases for C63, C64 and C65, and cases where the full statements fail.
-/
import Verif.Zi.DeviceProps

namespace Verif.Zi.Examples

open Spec

def qa : Option Chan := some ⟨"uhfqa", 0, some .uhfqa⟩
def awg (k : Nat) : Option Chan := some ⟨"hdawg", k, some .hdawg⟩

/-- A pulse at 100 ns, a measurement at 200 ns (pulse and acquisition), a pulse at 600 ns, and a second measurement,
which is not at a multiple of 40 ns; the first row has no channel. -/
def rows : List (Row String) :=
  [⟨0, 0, 0, none, false, "reset"⟩, ⟨1, 100 / 1000000000, 20 / 1000000000, awg 0, false, "x"⟩,
   ⟨2, 200 / 1000000000, 300 / 1000000000, qa, false, "ro"⟩, ⟨3, 200 / 1000000000, 300 / 1000000000, qa, true, "acq"⟩,
   ⟨4, 600 / 1000000000, 20 / 1000000000, awg 0, false, "x"⟩,
   ⟨5, 1010 / 1000000000, 300 / 1000000000, qa, true, "acq"⟩]

/-- The rows meet the hypotheses of `times_aligned_partial` and `times_exact`. -/
example : Ordered rows ∧ (∀ r ∈ rows, AcqOnUhfqa r) ∧ ∀ r ∈ rows, OnSample r := by
  refine ⟨?_, ?_, ?_⟩
  · intro k r h
    obtain ⟨hk, rfl⟩ := List.getElem?_eq_some_iff.mp h
    change k < 6 at hk
    interval_cases k <;> rfl
  · intro r hr ha
    simp only [rows, List.mem_cons, List.not_mem_nil, or_false] at hr
    rcases hr with rfl | rfl | rfl | rfl | rfl | rfl
    · simp at ha
    · simp at ha
    · simp at ha
    · exact ⟨_, rfl, rfl⟩
    · simp at ha
    · exact ⟨_, rfl, rfl⟩
  · intro r hr c hc
    simp only [rows, List.mem_cons, List.not_mem_nil, or_false] at hr
    rcases hr with rfl | rfl | rfl | rfl | rfl | rfl
    · simp at hc
    · exact ⟨.hdawg, 240, by cases hc; rfl, by norm_num [At, samplesPerSecond]⟩
    · exact ⟨.uhfqa, 360, by cases hc; rfl, by norm_num [At, samplesPerSecond]⟩
    · exact ⟨.uhfqa, 360, by cases hc; rfl, by norm_num [At, samplesPerSecond]⟩
    · exact ⟨.hdawg, 1440, by cases hc; rfl, by norm_num [At, samplesPerSecond]⟩
    · exact ⟨.uhfqa, 1818, by cases hc; rfl, by norm_num [At, samplesPerSecond]⟩

/-- The second acquisition is shifted from clock cycle 227, sample 2, by 6 samples, and with it the pulse before it,
from clock cycle 180 of the HDAWG to 181. -/
example : (times rows).toOption.map (fun l => l.map Prod.snd) =
    some [none, some (30, 0), some (45, 0), some (45, 0), some (181, 0), some (228, 0)] := by decide +kernel

/-- What `times` gives for `rows`. -/
def out : List (Row String × Option (Int × Rat)) := ((times rows).toOption).getD []

/-! ### C63: why it is partial -/

/-- Two acquisitions that were not listed in the order of time. -/
def disordered : List (Row String) :=
  [⟨1, 1 / 1800000000, 300 / 1000000000, qa, true, "a"⟩, ⟨0, 1000 / 1000000000, 300 / 1000000000, qa, true, "b"⟩]

/-- The full statement of C63 fails if operations were not listed in the order of time: the second acquisition
starts at sample 7 of a clock cycle. -/
theorem not_listed_in_order : (times disordered).toOption.map (fun l => l.map Prod.snd) = some [some (2, 0), some (226, 7)] := by
  decide +kernel

/-! ### C64 -/

def wf : String → Option (List Rat)
  | "x" => some [1, 2]
  | "ro" => some [3, 4]
  | _ => none

def pulses : List (Ins String) := [⟨"x", false, 30⟩, ⟨"ro", false, 60⟩, ⟨"x", false, 180⟩]

/-- The program of an HDAWG without trigger. -/
example : hdawgProg wf 1000 (1 / 1000000) [] none pulses = .ok
    ⟨[(0, [1, 2]), (1, [3, 4])], [(0, 0), (1, 1)], [.setTrigger []], 1000,
      [.setTrigger ["AWG_MARKER1", "AWG_MARKER2"], .wait 25, .table 0, .wait 27, .table 1, .wait 117, .table 0,
        .setTrigger [], .wait 116]⟩ := by decide +kernel

/-- The program of an HDAWG with trigger. -/
example : hdawgProg wf 1000 (1 / 1000000) [] (some 1) pulses = .ok
    ⟨[(0, [1, 2]), (1, [3, 4])], [(0, 0), (1, 1)], [.setTrigger []], 1000,
      [.waitTrigger 1, .wait 27, .table 0, .wait 27, .table 1, .wait 117, .table 0, .setTrigger []]⟩ := by
  decide +kernel

/-- Two pulses 2 clock cycles apart are refused. -/
example : hdawgProg wf 1 (1 / 1000000) [] none [⟨"x", false, 30⟩, ⟨"x", false, 32⟩] = .error .valueError := by
  decide +kernel

def readout : List (Ins String) := [⟨"ro", false, 45⟩, ⟨"acq", true, 45⟩, ⟨"acq", true, 228⟩]

/-- The program of a UHFQA. -/
example : uhfqaProg wf 1000 (some 2) readout = .ok
    ⟨[(0, [3, 4])], [], [], 1000,
      [.waitTrigger 2, .wait 45, .play 0, .wait 0, .startQA, .wait 176, .startQA]⟩ := by decide +kernel

/-- Both programs meet the hypothesis of `uhfqa_synchronous`, if the schedule takes 2 microseconds: the UHFQA starts at
every trigger. -/
example : ∃ p q, hdawgProg wf 1000 (2 / 1000000) [] none pulses = .ok p ∧ uhfqaProg wf 1000 (some 2) readout = .ok q ∧
    ∀ (start : Rat) (r k : Nat), Starts (fun k => start + k * ((duration .hdawg p.body : Rat) / 300000000))
      ((duration .uhfqa q.body : Rat) / 225000000) r k ↔ k = r := by
  obtain ⟨p, hp⟩ := (hdawg_iff (wf := wf) (reps := 1000) (dur := 2 / 1000000) (markers := []) (trigger := none)
    (ins := pulses)).mpr (by
      refine ⟨by decide, by simp, by simp [Apart, pulses, afterStart], fun _ => by decide +kernel⟩)
  obtain ⟨q, hq⟩ := (uhfqa_iff (wf := wf) (reps := 1000) (trigger := some 2) (ins := readout)).mpr (by
      refine ⟨by decide, by simp [Apart, readout]⟩)
  refine ⟨p, q, hp, hq, fun start r k => uhfqa_synchronous hp hq ?_ start r k⟩
  decide +kernel

/-- If the UHFQA takes longer than the schedule, every other trigger is missed (`starts_missed`): the acquisitions of
repetition 1 are those of trigger 2. -/
theorem trigger_missed : Starts (fun k => (k : Rat) * (1 / 1000000)) (235 / 225000000) 1 2 :=
  (starts_missed (fun k => by push_cast; linarith) (fun k => by push_cast; linarith) 1 2).mpr rfl

/-- The period is cut to whole clock cycles of the HDAWG: a schedule of 1001 ns is repeated every 1000 ns. -/
theorem period_cut : (hdawgProg wf 1 (1001 / 1000000000) [] none pulses).toOption.map (fun p => duration .hdawg p.body) =
    some 300 := by decide +kernel

/-- With markers *and* a trigger, the program neither waits for the trigger nor until the schedule is over: its
repetitions are not synchronous with anything. -/
theorem marker_and_trigger : (hdawgProg wf 2 (1 / 1000000) ["AWG_MARKER1"] (some 1) pulses).toOption.map (fun p => p.body) =
    some [.setTrigger ["AWG_MARKER1"], .wait 26, .table 0, .wait 27, .table 1, .wait 117, .table 0, .setTrigger []] := by
  decide +kernel

/-! ### C65 -/

def shape (r : Row String) : Option (List Rat) := wf r.wave

def hdawg : Hdawg Nat :=
  { name := "hdawg", awgs := 4, grouping := 0, channel0 := ⟨10, [], none⟩, channel1 := some ⟨11, ["AWG_MARKER1"], none⟩ }

/-- The device and the rows meet the hypotheses of `hdawg_outputs_partial`. -/
example : NoGaps hdawg ∧ hdawg.grouping = 0 ∧ Consistent shape (out.map Prod.fst) ∧
    (compileHdawg shape 5 out hdawg).isOk = true := by
  refine ⟨?_, rfl, ?_, by decide +kernel⟩
  · intro a ha
    match a with
    | 0 => exact ⟨by decide, fun b hb => by omega⟩
    | 1 => exact ⟨by decide, fun b hb => by
        have : b = 0 := by omega
        subst this; rfl⟩
    | 2 => simp [channel, hdawg] at ha
    | 3 => simp [channel, hdawg] at ha
    | n + 4 => simp [channel] at ha
  · intro r _ r' _ h _ _
    simp only [shape, h]

/-- `times rows` is `out`, and the UHFQA can be compiled too. -/
example : (times rows).isOk = true ∧ (compileUhfqa shape 5 out "uhfqa" (some 2)).isOk = true := by decide +kernel

/-- One pulse on the third output. -/
def third : List (Row String × Option (Int × Rat)) :=
  [(⟨0, 100 / 1000000000, 900 / 1000000000, awg 2, false, "x"⟩, some (30, 0))]

/-- Outputs with a gap: `channel_0` and `channel_2`. -/
def gap : Hdawg Nat :=
  { name := "hdawg", awgs := 4, grouping := 0, channel0 := ⟨10, [], none⟩, channel2 := some ⟨12, [], none⟩ }

set_option synthInstance.maxHeartbeats 400000 in
set_option synthInstance.maxSize 1000 in
/-- The full statement of C65 fails with a gap: sequencer 1 gets the settings of `channel_2` and plays nothing, and the
pulse on `channel_2` is not played at all. -/
theorem gap_not_played : (compileHdawg shape 5 third gap).toOption.map (fun l => l.map fun x => (x.1, x.2.1, run .hdawg x.2.2 0 x.2.2.body)) =
    some [(0, 10, []), (1, 12, [])] := by decide +kernel

/-- Outputs in groups of four. -/
def grouped : Hdawg Nat :=
  { name := "hdawg", awgs := 4, grouping := 1, channel0 := ⟨10, [], none⟩, channel1 := some ⟨11, [], none⟩,
    channel2 := some ⟨12, [], none⟩, channel3 := some ⟨13, [], none⟩ }

/-- The full statement of C65 fails if outputs are grouped: only the first sequencer gets a program, and the pulse on
`channel_2`, the first output of the second group, is not played. -/
theorem group_not_played : (compileHdawg shape 5 third grouped).toOption.map (fun l => l.map fun x => (x.1, run .hdawg x.2.2 0 x.2.2.body)) =
    some [(0, [])] := by decide +kernel

/-- A pulse that does not start at the start of a clock cycle. -/
def between : List (Row String) := [⟨0, 105 / 1000000000, 900 / 1000000000, awg 0, false, "x"⟩]

/-- It starts too early: at 31 / 300 MHz = 103.3 ns instead of 105 ns, with the same samples. -/
theorem starts_early : ((times between).toOption.bind fun o => (compileHdawg shape 5 o hdawg).toOption).map
    (fun l => l.map fun x => (x.1, run .hdawg x.2.2 0 x.2.2.body)) =
    some [(0, [(31, .samples (some [1, 2]))]), (1, [])] := by decide +kernel

/-- The pulse and the acquisition of a measurement have the same name, if both are the first of the operation. -/
def measurement : List (Row String × Option (Int × Rat)) :=
  [(⟨0, 200 / 1000000000, 300 / 1000000000, qa, false, "measure_acq_0"⟩, some (45, 0)),
   (⟨1, 200 / 1000000000, 300 / 1000000000, qa, true, "measure_acq_0"⟩, some (45, 0))]

/-- The waveform of the pulse, and the integration weights. -/
def shapes (r : Row String) : Option (List Rat) := if r.acq then some [7, 8] else some [1, 2]

/-- Then the rows are not `Consistent`, and the integration weights of the acquisition are the waveform of the pulse. -/
theorem weights_mixed_up : measurement.map (fun e => waveOf shapes measurement (waveId e)) = [some [1, 2], some [1, 2]] := by
  decide +kernel

/-- Overlapping pulses are not refused (only acquisitions are checked). -/
theorem overlapping_pulses : ensureNoOverlap [⟨0, 0, 100, awg 0, false, "x"⟩, ⟨1, 50, 100, awg 0, false, "x"⟩] = .ok () := by
  decide +kernel

/-- Overlapping acquisitions are. -/
example : ensureNoOverlap [⟨0, 0, 100, qa, true, "a"⟩, ⟨1, 50, 100, qa, true, "b"⟩] = .error .valueError := by
  decide +kernel

end Verif.Zi.Examples
