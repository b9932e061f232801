/-
Examples on files of settings (C84).
-/
import Verif.ZiFiles.Compiled
import Verif.ZiPrepare.Examples

namespace Verif.ZiFiles

open Verif.ZiPrepare Verif.ZiPrepare.Examples

set_option linter.unusedSimpArgs false

/-- VIOLATION: no waveform is read back as it was written; settings with waveforms are never equal to the settings that are
read back. -/
theorem wave_differs {u : Bool} {d d' : Daq} {l : List (Int × Int)} (hd : IsWave d l) (hl : l ≠ []) (h : Back u d d') :
    d'.value ≠ d.value := by
  obtain ⟨_, _, h1, h2⟩ := h.2.2 l hd
  obtain ⟨_, _, _, hv⟩ := hd
  rw [hv]
  match l, hl, h1, h2 with
  | [p], _, h1, _ => rw [h1 p rfl]; simp
  | p :: q :: r, _, _, h2 => rw [h2 (by simp)]; simp

/-- The settings of two outputs with waveforms can be read back. -/
theorem two_readable : Readable (built two).build := hd_readable two_ok two_valid (by decide)

theorem known_hd : Known "hdawg" false := .inr ⟨by decide +kernel, rfl⟩

/-- They are written and read back. -/
theorem two_back : ∃ fs' b, serialize "hd0" "dev1" "hdawg" (built two).build [] = .ok fs' ∧
    deserialize fs' (.settings "hd0") = .ok b ∧ b.awg = [(0, "seqc0"), (2, "seqc2")] := by
  obtain ⟨fs', h1, _, h2⟩ := read_back_partial "hd0" "dev1" known_hd two_readable []
  obtain ⟨b, h3, h4, _⟩ := h2 fs' fun _ _ => rfl
  exact ⟨fs', b, h1, h3, by rw [h4]; decide +kernel⟩

/-- The hypotheses of `read_back_exactly_partial`. -/
theorem one_single : (∀ d ∈ (built one).build.daq, Single d) ∧ ((built one).build.daq.map (·.node)).Nodup ∧
    ((built one).build.awg.map Prod.fst).Nodup := by
  have hr : Readable (built one).build := hd_readable one_ok ⟨by decide, by decide⟩ (by decide)
  refine ⟨fun d hd => ?_, by decide +kernel, by decide +kernel⟩
  rcases hr.1 d hd with h | ⟨l, ⟨a, w, hn, hv⟩, hl⟩
  · exact h
  · exfalso
    have : ∀ d ∈ (built one).build.daq, Seg.name "waves" ∉ d.node := by decide +kernel
    exact this d hd (by rw [hn]; simp)

/-- One output without waveforms is read back exactly. -/
theorem one_back : ∃ fs' b, serialize "hd0" "dev1" "hdawg" (built one).build [] = .ok fs' ∧
    deserialize fs' (.settings "hd0") = .ok b ∧ b.build = (built one).build := by
  obtain ⟨fs', h1, h2⟩ := read_back_exactly_partial "hd0" "dev1" known_hd one_single.1 one_single.2.1 one_single.2.2 []
  obtain ⟨b, h3, h4⟩ := h2 fs' fun _ _ => rfl
  exact ⟨fs', b, h1, h3, h4⟩

/-- VIOLATION: of a node that is set twice only the last setting is read back. -/
theorem twice : ∃ fs' b, serialize "uh" "dev1" "uhfqa"
      ⟨[⟨[.name "qas", .index 0, .name "result", .name "reset"], .num 0, .setValue⟩,
        ⟨[.name "qas", .index 0, .name "result", .name "reset"], .num 1, .setValue⟩], []⟩ [] = .ok fs' ∧
    deserialize fs' (.settings "uh") = .ok b ∧
    b.daq = [⟨[.name "qas", .index 0, .name "result", .name "reset"], .num 1, .setValue⟩] := by
  refine ⟨_, ⟨[⟨[.name "qas", .index 0, .name "result", .name "reset"], .num 1, .setValue⟩], []⟩, rfl, ?_, rfl⟩
  decide +kernel

/-- VIOLATION: the last setting of a node takes the place of its first one, before a wildcard that came between them. -/
theorem reordered : ∃ fs' b, serialize "hd" "dev1" "hdawg"
      ⟨[⟨[.name "sigouts", .index 0, .name "on"], .num 1, .setValue⟩, ⟨[.name "sigouts", .any, .name "on"], .num 0, .setValue⟩,
        ⟨[.name "sigouts", .index 0, .name "on"], .num 1, .setValue⟩], []⟩ [] = .ok fs' ∧
    deserialize fs' (.settings "hd") = .ok b ∧
    b.daq = [⟨[.name "sigouts", .index 0, .name "on"], .num 1, .setValue⟩,
      ⟨[.name "sigouts", .any, .name "on"], .num 0, .setValue⟩] := by
  refine ⟨_, ⟨[⟨[.name "sigouts", .index 0, .name "on"], .num 1, .setValue⟩,
      ⟨[.name "sigouts", .any, .name "on"], .num 0, .setValue⟩], []⟩, rfl, ?_, rfl⟩
  decide +kernel

/-- A compiled UHFQA is written, and cannot be read back. -/
theorem trace_lost : ∃ b fs', uhBuilder trace = .ok b ∧ serialize "uh" "dev2" "uhfqa" b.build [] = .ok fs' ∧
    ∀ b', deserialize fs' (.settings "uh") ≠ .ok b' := by
  obtain ⟨b, hb⟩ := trace_ok
  obtain ⟨fs', h⟩ := uh_written hb (by decide) "uh" "dev2" "uhfqa" []
  exact ⟨b, fs', hb, h, uhfqa_unreadable hb h⟩

/-- No device has this type. -/
theorem unknown : ∀ u, ¬ Known "HDAWG8" u := by
  have h : "HDAWG8".toUpper = "HDAWG8" := by decide +kernel
  rintro u (⟨h1, _⟩ | ⟨h1, _⟩)
  · rw [h] at h1; exact absurd h1 (by decide)
  · rw [h] at h1; exact absurd h1 (by decide)

end Verif.ZiFiles
