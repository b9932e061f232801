/-
Files of the settings of compiled devices (C84).
-/
import Verif.ZiFiles.Props
import Verif.ZiPrepare.Props

namespace Verif.ZiFiles

open Verif.ZiPrepare

set_option linter.unusedSimpArgs false

theorem single_num (n : Node) (q : Rat) (h : ∀ x ∈ special, Seg.name x ∉ n) : Single ⟨n, .num q, .setValue⟩ :=
  .inr (.inr (.inr ⟨h, rfl, .inl ⟨q, rfl⟩⟩))

/-- All settings of a compiled HDAWG can be read back, if no waveform is empty. -/
theorem hd_readable {cfg : HdCfg} {b : Builder} (hb : hdBuilder cfg = .ok b) (hv : HdValid cfg)
    (hw : ∀ o ∈ cfg.outs, ∀ w ∈ o.waves, w.2 ≠ []) : Readable b.build := by
  obtain ⟨C, h1, h2, h3⟩ := hdBuilder_daq hb
  have hn : (b.awg.map Prod.fst).Nodup := by
    rw [h3, List.map_map]; exact hv.outs
  refine ⟨?_, by unfold Builder.build; rw [foldl_set _ [] (by simpa using hn)]; exact hn⟩
  intro d hd
  have hd' : d ∈ b.daq := hd
  rw [h1, List.mem_append] at hd'
  rcases hd' with hd' | hd'
  · left
    simp only [List.mem_cons, List.not_mem_nil, or_false] at hd'
    rcases hd' with rfl | rfl | rfl <;> exact single_num _ _ (by simp [special])
  · rw [h2] at hd'
    rcases hd' with ⟨a, _, rfl⟩ | ⟨o, ho, rfl | rfl | rfl | rfl | rfl | rfl | rfl | ⟨w, hm, rfl⟩⟩
    · exact .inl (single_num _ _ (by simp [special]))
    · exact .inl (single_num _ _ (by simp [special]))
    · exact .inl (single_num _ _ (by simp [special]))
    · exact .inl (single_num _ _ (by simp [special]))
    · exact .inl (single_num _ _ (by simp [special]))
    · exact .inl (single_num _ _ (by simp [special]))
    · exact .inl (single_num _ _ (by simp [special]))
    · exact .inl (.inl ⟨_, _, rfl⟩)
    · exact .inr ⟨w.2, ⟨_, _, rfl, rfl⟩, hw o ho w hm⟩

theorem writeDaqs_ok (name : String) : ∀ (l : List Daq) (c : List (Node × J)) (fs : Fs),
    (∀ d ∈ l, ∃ p, write name d = .ok p) → ∃ p, writeDaqs name l c fs = .ok p
  | [], c, fs, _ => ⟨_, rfl⟩
  | d :: l, c, fs, h => by
    obtain ⟨⟨j, f⟩, hp⟩ := h d (by simp)
    unfold writeDaqs
    rw [hp]
    exact writeDaqs_ok name l _ _ fun x hx => h x (by simp [hx])

theorem withWeights_good : ∀ {l : List (Bool × Nat × List Rat)} {m : List Daq}, withWeights l = .ok m → ∀ d ∈ m, Single d
  | [], m, h, d, hd => by simp only [withWeights, Except.ok.injEq] at h; subst h; simp at hd
  | (im, k, v) :: l, m, h, d, hd => by
    unfold withWeights at h
    split at h
    · simp at h
    · split at h
      · simp at h
      · split at h
        · simp at h
        · rename_i h1 h2 m' hm
          simp only [Except.ok.injEq] at h
          subst h
          simp only [List.mem_cons] at hd
          rcases hd with rfl | hd
          · refine .inr (.inl ⟨k, v, if im then "imag" else "real", by omega, by omega, ?_, rfl⟩)
            cases im <;> simp
          · exact withWeights_good hm d hd

/-- The settings of a compiled UHFQA are written, if no waveform is empty. -/
theorem uh_written {cfg : UhCfg} {b : Builder} (hb : uhBuilder cfg = .ok b) (hw : ∀ w ∈ cfg.waves, w.2 ≠ [])
    (name serial type : String) (fs : Fs) : ∃ fs', serialize name serial type b.build fs = .ok fs' := by
  have key : ∀ d ∈ b.daq, ∃ p, write name d = .ok p := by
    unfold uhBuilder at hb
    split at hb
    · simp at hb
    · rename_i time ht
      split at hb
      · simp at hb
      · rename_i weights hwt
        split at hb
        · simp at hb
        · rename_i acq ha
          simp only [Except.ok.injEq] at hb
          subst hb
          intro d hd
          have num : ∀ (n : Node) (q : Rat), (∀ x ∈ special, Seg.name x ∉ n) →
              ∃ p, write name ⟨n, .num q, .setValue⟩ = .ok p := fun n q h => write_good name (.inl (single_num n q h))
          simp only [List.mem_append] at hd
          rcases hd with ((((((((hd | hd) | hd) | hd) | hd) | hd) | hd) | hd) | hd) | hd
          · simp only [List.mem_cons, List.not_mem_nil, or_false] at hd
            rcases hd with rfl | rfl | rfl
            · exact num _ _ (by simp [special, awgNode])
            · refine ⟨(.cplx 1 1, none), ?_⟩
              unfold write
              have : kindOf [.name "qas", .index 0, .name "rotations", .any] = .rotation := by
                simp [kindOf, hasPair, hasBefore]
              rw [this]
            · exact num _ _ (by simp [special])
          · simp only [withSigouts, List.mem_cons, List.not_mem_nil, or_false] at hd
            rcases hd with rfl | rfl <;> exact num _ _ (by simp [special, onNode])
          · unfold withTime at ht
            split at ht
            · simp at ht
            · simp only [Except.ok.injEq] at ht
              subst ht
              simp only [List.mem_cons, List.not_mem_nil, or_false] at hd
              subst hd
              exact num _ _ (by simp [special, awgNode])
          · simp only [zeroWeights, List.mem_append, List.mem_map, List.mem_range] at hd
            rcases hd with ⟨k, hk, rfl⟩ | ⟨k, hk, rfl⟩
            · exact write_good name (.inl (.inr (.inl ⟨k, _, "real", hk, List.length_replicate.le, by simp, rfl⟩)))
            · exact write_good name (.inl (.inr (.inl ⟨k, _, "imag", hk, List.length_replicate.le, by simp, rfl⟩)))
          · simp only [List.mem_cons, List.not_mem_nil, or_false] at hd
            rcases hd with rfl | rfl <;> exact num _ _ (by simp [special, offsetNode])
          · simp only [List.mem_map] at hd
            obtain ⟨w, hm, rfl⟩ := hd
            exact write_good name (.inr ⟨w.2, ⟨0, w.1, rfl, rfl⟩, hw w hm⟩)
          · simp only [List.mem_flatMap, monitorDaqs, List.mem_cons, List.not_mem_nil, or_false] at hd
            obtain ⟨m, _, hd⟩ := hd
            rcases hd with rfl | rfl | rfl <;> exact num _ _ (by simp [special, qaNode])
          · exact write_good name (.inl (withWeights_good hwt d hd))
          · unfold withAcq at ha
            split at ha
            · simp only [Except.ok.injEq] at ha
              subst ha
              simp at hd
            · split at ha
              · simp at ha
              · simp only [Except.ok.injEq] at ha
                subst ha
                simp only [acqDaqs, List.mem_cons, List.not_mem_nil, or_false] at hd
                rcases hd with rfl | rfl | rfl | rfl | rfl | rfl | rfl | rfl | rfl | rfl <;>
                  exact num _ _ (by simp [special, qaNode, result])
          · simp only [List.mem_cons, List.not_mem_nil, or_false] at hd
            rcases hd with rfl | rfl | rfl | rfl <;> exact num _ _ (by simp [special, qaNode, result])
  obtain ⟨⟨c, fs1⟩, h⟩ := writeDaqs_ok name b.build.daq [] fs key
  exact ⟨_, by unfold serialize; rw [h]⟩

end Verif.ZiFiles
