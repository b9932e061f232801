/-
Lemmas on writing and reading single settings.
-/
import Verif.ZiFiles.Spec
import Mathlib.Tactic.NormNum

namespace Verif.ZiFiles

open Verif.ZiPrepare

set_option linter.unusedSimpArgs false

theorem hasPair_false {a b : String} : ∀ {n : Node}, Seg.name b ∉ n → hasPair a b n = false
  | [], _ => rfl
  | [.name _], _ => rfl
  | [.index _], _ => rfl
  | [.any], _ => rfl
  | .name x :: .name y :: l, h => by
    have h1 : Seg.name b ∉ (.name y :: l : Node) := fun x => h (List.mem_cons_of_mem _ x)
    have h2 : y ≠ b := by intro e; subst e; exact h (by simp)
    unfold hasPair
    rw [hasPair_false h1]; simp [h2]
  | .name x :: .index y :: l, h => by
    unfold hasPair; exact hasPair_false fun x => h (List.mem_cons_of_mem _ x)
  | .name x :: .any :: l, h => by
    unfold hasPair; exact hasPair_false fun x => h (List.mem_cons_of_mem _ x)
  | .index x :: y :: l, h => by
    unfold hasPair; exact hasPair_false fun x => h (List.mem_cons_of_mem _ x)
  | .any :: y :: l, h => by
    unfold hasPair; exact hasPair_false fun x => h (List.mem_cons_of_mem _ x)

theorem hasBefore_false {a : String} : ∀ {n : Node}, Seg.name a ∉ n → hasBefore a n = false
  | [], _ => rfl
  | [.name _], _ => rfl
  | [.index _], _ => rfl
  | [.any], _ => rfl
  | .name x :: y :: l, h => by
    have h2 : x ≠ a := by intro e; subst e; exact h (by simp)
    unfold hasBefore
    rw [hasBefore_false fun x => h (List.mem_cons_of_mem _ x)]; simp [h2]
  | .index x :: y :: l, h => by
    unfold hasBefore; exact hasBefore_false fun x => h (List.mem_cons_of_mem _ x)
  | .any :: y :: l, h => by
    unfold hasBefore; exact hasBefore_false fun x => h (List.mem_cons_of_mem _ x)

theorem kindOf_other {n : Node} (h : ∀ x ∈ special, Seg.name x ∉ n) : kindOf n = .other := by
  unfold kindOf
  rw [hasPair_false (h "waves" (by decide)), hasPair_false (h "data" (by decide)),
    hasPair_false (h "weights" (by decide)), hasBefore_false (h "rotations" (by decide))]
  rfl

theorem kindOf_wave (a w : Nat) :
    kindOf [.name "awgs", .index a, .name "waveform", .name "waves", .index w] = .wave := by
  simp [kindOf, hasPair]

theorem kindOf_table (a : Nat) : kindOf [.name "awgs", .index a, .name "commandtable", .name "data"] = .table := by
  simp [kindOf, hasPair]

theorem kindOf_weights (k : Nat) (p : String) :
    kindOf [.name "qas", .index 0, .name "integration", .name "weights", .index k, .name p] = .weights := by
  simp [kindOf, hasPair]

theorem kindOf_rotation (k : Nat) : kindOf [.name "qas", .index 0, .name "rotations", .index k] = .rotation := by
  simp [kindOf, hasPair, hasBefore]

theorem not_single {d : Daq} {l : List (Int × Int)} (h : IsWave d l) : ¬ Single d := by
  obtain ⟨a, w, hn, hv⟩ := h
  rintro (⟨b, s, rfl⟩ | ⟨k, m, p, _, _, _, rfl⟩ | ⟨k, x, y, rfl⟩ | ⟨h, _⟩)
  · simp at hn
  · simp at hn
  · simp at hn
  · exact h "waves" (by decide) (by rw [hn]; simp)

/-- A setting that can be written and read. -/
def Good (d : Daq) : Prop := Single d ∨ ∃ l, IsWave d l ∧ l ≠ []

/-- It is written. -/
theorem write_good (name : String) {d : Daq} (h : Good d) : ∃ p, write name d = .ok p := by
  obtain (⟨b, s, rfl⟩ | ⟨k, m, p, _, _, _, rfl⟩ | ⟨k, x, y, rfl⟩ | ⟨h, hf, hv⟩) | ⟨l, ⟨a, w, hn, hv⟩, hl⟩ := h
  · exact ⟨_, by unfold write; rw [kindOf_table]; rfl⟩
  · exact ⟨_, by unfold write; rw [kindOf_weights]⟩
  · exact ⟨_, by unfold write; rw [kindOf_rotation]⟩
  · obtain ⟨q, hv⟩ | ⟨s, hv⟩ := hv
    · exact ⟨_, by unfold write; rw [kindOf_other h, hv]⟩
    · exact ⟨_, by unfold write; rw [kindOf_other h, hv]⟩
  · cases l with
    | nil => exact absurd rfl hl
    | cons x l => exact ⟨_, by unfold write; rw [hn, kindOf_wave, hv]; rfl⟩

/-- The file that is written belongs to the node. -/
theorem write_file {name : String} {d : Daq} (h : Good d) {j : J} {e : File × Content} (hw : write name d = .ok (j, some e)) :
    (∃ a w, e.1 = .wave name a w ∧ d.node = [.name "awgs", .index a, .name "waveform", .name "waves", .index w]) ∨
    ∃ a, e.1 = .table name (.index a) ∧ d.node = [.name "awgs", .index a, .name "commandtable", .name "data"] := by
  obtain (⟨b, s, rfl⟩ | ⟨k, m, p, _, _, _, rfl⟩ | ⟨k, x, y, rfl⟩ | ⟨h, hf, hv⟩) | ⟨l, ⟨a, w, hn, hv⟩, hl⟩ := h
  · unfold write at hw; rw [kindOf_table] at hw
    simp only [List.getElem?_cons_succ, List.getElem?_cons_zero, Except.ok.injEq, Prod.mk.injEq, Option.some.injEq] at hw
    obtain ⟨_, rfl⟩ := hw
    exact .inr ⟨b, rfl, rfl⟩
  · unfold write at hw; rw [kindOf_weights] at hw; simp at hw
  · unfold write at hw; rw [kindOf_rotation] at hw; simp at hw
  · unfold write at hw; rw [kindOf_other h] at hw
    obtain ⟨q, hv⟩ | ⟨s, hv⟩ := hv <;> simp [hv] at hw
  · cases l with
    | nil => exact absurd rfl hl
    | cons x l =>
      unfold write at hw; rw [hn, kindOf_wave, hv] at hw
      simp [int] at hw
      obtain ⟨_, rfl⟩ := hw
      exact .inl ⟨a, w, rfl, hn⟩

/-- Files of different nodes are different. -/
theorem write_inj {name : String} {d d' : Daq} (h : Good d) (h' : Good d') {j j' : J} {e e' : File × Content}
    (hw : write name d = .ok (j, some e)) (hw' : write name d' = .ok (j', some e')) (he : e.1 = e'.1) :
    d.node = d'.node := by
  rcases write_file h hw with ⟨a, w, h1, h2⟩ | ⟨a, h1, h2⟩ <;>
    rcases write_file h' hw' with ⟨a', w', h3, h4⟩ | ⟨a', h3, h4⟩ <;> rw [h1, h3] at he <;> simp at he
  · obtain ⟨rfl, rfl⟩ := he; rw [h2, h4]
  · subst he; rw [h2, h4]

/-- It is read back. -/
theorem read_good (uhfqa : Bool) {name : String} {d : Daq} (h : Good d) {j : J} {f : Option (File × Content)}
    (hw : write name d = .ok (j, f)) {fs : Fs} (hf : ∀ e, f = some e → Dict.get? fs e.1 = some e.2) :
    ∃ d', read uhfqa fs d.node j = .ok [d'] ∧ Back uhfqa d d' := by
  obtain hs | ⟨l, hi, hl⟩ := h
  · refine ⟨d, ?_, rfl, fun _ => rfl, fun l hi => absurd hs (not_single hi)⟩
    obtain ⟨b, s, rfl⟩ | ⟨k, m, p, hk, hm, hp, rfl⟩ | ⟨k, x, y, rfl⟩ | ⟨h, hfn, hv⟩ := hs
    · unfold write at hw; rw [kindOf_table] at hw
      simp only [List.getElem?_cons_succ, List.getElem?_cons_zero, Except.ok.injEq, Prod.mk.injEq] at hw
      obtain ⟨rfl, rfl⟩ := hw
      unfold read; rw [kindOf_table]
      simp [int, hf _ rfl, tableNode]
    · unfold write at hw; rw [kindOf_weights] at hw
      simp only [Except.ok.injEq, Prod.mk.injEq] at hw
      obtain ⟨rfl, rfl⟩ := hw
      unfold read; rw [kindOf_weights]
      have h1 : ¬ 4096 < m.length := by omega
      have h2 : ¬ 10 ≤ k := by omega
      rcases hp with rfl | rfl <;> simp [int, h1, h2, weightNode]
    · unfold write at hw; rw [kindOf_rotation] at hw
      simp only [Except.ok.injEq, Prod.mk.injEq] at hw
      obtain ⟨rfl, rfl⟩ := hw
      unfold read; rw [kindOf_rotation]
      simp [int, rotationNode]
    · unfold write at hw; rw [kindOf_other h] at hw
      obtain ⟨n, v, fn⟩ := d
      simp only at hfn hv h
      subst hfn
      obtain ⟨q, rfl⟩ | ⟨s, rfl⟩ := hv <;> simp only [Except.ok.injEq, Prod.mk.injEq] at hw <;> obtain ⟨rfl, rfl⟩ := hw <;>
        (unfold read; rw [kindOf_other h]; rfl)
  · obtain ⟨a, w, hn, hv⟩ := hi
    have hns : ¬ Single d := not_single ⟨a, w, hn, hv⟩
    unfold write at hw
    rw [hn, kindOf_wave, hv] at hw
    cases l with
    | nil => exact absurd rfl hl
    | cons x l =>
      simp only [List.getElem?_cons_succ, List.getElem?_cons_zero, List.getLast?_cons_cons, List.getLast?_singleton, int,
        Except.ok.injEq, Prod.mk.injEq] at hw
      obtain ⟨rfl, rfl⟩ := hw
      have hg := hf _ rfl
      unfold read
      rw [hn, kindOf_wave]
      simp only [List.getElem?_cons_succ, List.getElem?_cons_zero, List.getLast?_cons_cons, List.getLast?_singleton, int]
      rw [hg]
      refine ⟨_, rfl, ?_, fun x => absurd x hns, ?_⟩
      · rw [hn]; rfl
      · intro m hm
        obtain ⟨a', w', hn', hv'⟩ := hm
        rw [hv] at hv'
        simp only [Val.wave.injEq] at hv'
        subst hv'
        refine ⟨by cases uhfqa <;> simp, by cases uhfqa <;> simp, ?_, ?_⟩
        · intro p hp
          simp only [List.cons.injEq] at hp
          obtain ⟨rfl, rfl⟩ := hp
          norm_num
        · intro h2
          cases l with
          | nil => simp at h2
          | cons y l =>
            simp only [List.map_cons]
            norm_num

end Verif.ZiFiles
