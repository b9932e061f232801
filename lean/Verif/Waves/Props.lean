/-
C27: waveforms in the sequencer memory keep unique indices and are shared iff equal.
C38: what is played is the requested waveform.
-/
import Verif.Waves.Model
import Verif.Numeric.Props
import Mathlib.Data.List.Basic
import Mathlib.Data.List.Induction
import Mathlib.Data.List.Nodup
import Mathlib.Data.List.Perm.Subperm

set_option linter.unusedSimpArgs false
set_option linter.unusedVariables false
set_option linter.unusedSectionVars false

namespace Verif.Waves

open Verif.Numeric

variable {K : Type} [DecidableEq K]

/-- The first free index is the least one not in use. -/
theorem firstFree_spec (used : List Nat) :
    firstFree used ∉ used ∧ ∀ j < firstFree used, j ∈ used := by
  unfold firstFree
  cases h : (List.range (used.length + 1)).find? (fun i => !used.contains i) with
  | none =>
    exfalso
    have hall : ∀ i ∈ List.range (used.length + 1), i ∈ used := by
      intro i hi
      simpa using List.find?_eq_none.mp h i hi
    have := (List.nodup_range.subperm hall).length_le
    simp at this
  | some i =>
    simp only [Option.getD_some]
    obtain ⟨h1, as, bs, h2, h3⟩ := List.find?_eq_some_iff_append.mp h
    have h1 : i ∉ used := by simpa using h1
    refine ⟨h1, ?_⟩
    intro j hj
    have hmem : j ∈ List.range (used.length + 1) := by
      have hi : i ∈ List.range (used.length + 1) := List.mem_of_find?_eq_some h
      have := List.mem_range.mp hi
      exact List.mem_range.mpr (by omega)
    rw [h2] at hmem
    rcases List.mem_append.mp hmem with hm | hm
    · simpa using h3 j hm
    · exfalso
      have hs := List.pairwise_lt_range (n := used.length + 1)
      rw [h2] at hs
      rcases List.mem_cons.mp hm with e | hm
      · omega
      · have := (List.pairwise_cons.mp (List.pairwise_append.mp hs).2.1).1 j hm
        omega

/-- Add waveforms one after the other; the returned indices, latest last. -/
def addAll (hash : List Int → K) (d : List (Entry K)) (ws : List (List Rat)) :
    List (Entry K) × List Nat :=
  ws.foldl (fun x w => ((addIfUnique hash x.1 w).1, x.2 ++ [(addIfUnique hash x.1 w).2])) (d, [])

/-- A well-formed dict: names and indices are unique. -/
def WfDict (d : List (Entry K)) : Prop := (d.map Entry.key).Nodup ∧ (d.map Entry.index).Nodup

theorem add_prefix (hash : List Int → K) (d : List (Entry K)) (w : List Rat) :
    d <+: (addIfUnique hash d w).1 := by
  unfold addIfUnique
  split
  · exact List.prefix_rfl
  · exact List.prefix_append _ _

theorem add_wf (hash : List Int → K) {d : List (Entry K)} (w : List Rat) (h : WfDict d) :
    WfDict (addIfUnique hash d w).1 := by
  unfold addIfUnique
  split
  · exact h
  · rename_i hn
    have hk : ∀ e ∈ d, e.key ≠ hash (round12 w) := by
      intro e he
      simpa using List.find?_eq_none.mp hn e he
    constructor
    · simp only [List.map_append, List.map_cons, List.map_nil]
      refine List.nodup_append.mpr ⟨h.1, by simp, ?_⟩
      intro a ha b hb
      obtain ⟨e, he, rfl⟩ := List.mem_map.mp ha
      simp at hb
      subst hb
      exact hk e he
    · simp only [List.map_append, List.map_cons, List.map_nil]
      refine List.nodup_append.mpr ⟨h.2, by simp, ?_⟩
      intro a ha b hb
      simp at hb
      subst hb
      exact fun e => (firstFree_spec _).1 (e ▸ ha)

/-- The returned index names an entry for the hash of the waveform. -/
theorem add_entry (hash : List Int → K) (d : List (Entry K)) (w : List Rat) :
    ∃ e ∈ (addIfUnique hash d w).1, e.index = (addIfUnique hash d w).2 ∧
      e.key = hash (round12 w) := by
  unfold addIfUnique
  split
  · rename_i e he
    exact ⟨e, List.mem_of_find?_eq_some he, rfl, by simpa using List.find?_some he⟩
  · exact ⟨_, List.mem_append_right _ List.mem_cons_self, rfl, rfl⟩

theorem addAll_append (hash : List Int → K) (d : List (Entry K)) (ws : List (List Rat))
    (w : List Rat) : addAll hash d (ws ++ [w]) =
      ((addIfUnique hash (addAll hash d ws).1 w).1,
        (addAll hash d ws).2 ++ [(addIfUnique hash (addAll hash d ws).1 w).2]) := by
  simp [addAll]

theorem addAll_wf (hash : List Int → K) {d : List (Entry K)} (h : WfDict d) (ws : List (List Rat)) :
    WfDict (addAll hash d ws).1 := by
  induction ws using List.reverseRecOn with
  | nil => exact h
  | append_singleton ws w ih => rw [addAll_append]; exact add_wf hash w ih

theorem addAll_length (hash : List Int → K) (d : List (Entry K)) (ws : List (List Rat)) :
    (addAll hash d ws).2.length = ws.length := by
  induction ws using List.reverseRecOn with
  | nil => rfl
  | append_singleton ws w ih => rw [addAll_append]; simp [ih]

theorem addAll_prefix (hash : List Int → K) (d : List (Entry K)) (ws : List (List Rat)) :
    d <+: (addAll hash d ws).1 := by
  induction ws using List.reverseRecOn with
  | nil => exact List.prefix_rfl
  | append_singleton ws w ih =>
    rw [addAll_append]
    exact ih.trans (add_prefix _ _ _)

/-- **C27, unique indices.**  Starting from any dict with unique indices (such as the one with the
user's own waveforms, or the empty one), through any history of additions, names and indices stay
unique, and no entry is changed or removed. -/
theorem indices_unique (hash : List Int → K) (d : List (Entry K)) (h : WfDict d)
    (ws : List (List Rat)) :
    ((addAll hash d ws).1.map Entry.index).Nodup ∧ ((addAll hash d ws).1.map Entry.key).Nodup ∧
    d <+: (addAll hash d ws).1 :=
  ⟨(addAll_wf hash h ws).2, (addAll_wf hash h ws).1, addAll_prefix hash d ws⟩

/-- All entries after a history come from the start or carry the hash of their own samples. -/
theorem addAll_self (hash : List Int → K) (d : List (Entry K))
    (hd : ∀ e ∈ d, e.key = hash (round12 e.data)) (ws : List (List Rat)) :
    ∀ e ∈ (addAll hash d ws).1, e.key = hash (round12 e.data) := by
  induction ws using List.reverseRecOn with
  | nil => exact hd
  | append_singleton ws w ih =>
    rw [addAll_append]
    unfold addIfUnique
    split
    · exact ih
    · intro e he
      rcases List.mem_append.mp he with he | he
      · exact ih e he
      · simp at he; subst he; rfl

theorem mem_of_prefix {α : Type} {a b : List α} (h : a <+: b) {x : α} (hx : x ∈ a) : x ∈ b :=
  h.subset hx

theorem addAll_entry (hash : List Int → K) (d : List (Entry K)) (ws : List (List Rat)) :
    ∀ (k : Nat) w i, ws[k]? = some w → (addAll hash d ws).2[k]? = some i →
    ∃ e ∈ (addAll hash d ws).1, e.index = i ∧ e.key = hash (round12 w) := by
  induction ws using List.reverseRecOn with
  | nil => intro k w i h; simp at h
  | append_singleton ws w' ih =>
    intro k w i h1 h2
    rw [addAll_append] at h2 ⊢
    have hl := addAll_length hash d ws
    rcases Nat.lt_trichotomy k ws.length with hk | hk | hk
    · rw [List.getElem?_append_left hk] at h1
      simp only at h2
      rw [List.getElem?_append_left (by omega)] at h2
      obtain ⟨e, he, h3⟩ := ih k w i h1 h2
      exact ⟨e, mem_of_prefix (add_prefix _ _ _) he, h3⟩
    · subst hk
      rw [List.getElem?_append_right (le_refl _)] at h1
      simp only at h2
      rw [List.getElem?_append_right (by omega)] at h2
      simp [hl] at h1 h2
      subst h1; subst h2
      exact add_entry hash _ _
    · rw [List.getElem?_eq_none (by simp; omega)] at h1
      cases h1

/-- **C27, sharing.**  Two waveforms of a history get the same index exactly when they agree after
rounding to 12 decimals (given that their hashes do not collide). -/
theorem shared_iff_equal (hash : List Int → K) (hinj : Function.Injective hash)
    (d : List (Entry K)) (h : WfDict d) (ws : List (List Rat)) (k l : Nat) (v w : List Rat)
    (i j : Nat) (hk : ws[k]? = some v) (hl : ws[l]? = some w)
    (hi : (addAll hash d ws).2[k]? = some i) (hj : (addAll hash d ws).2[l]? = some j) :
    i = j ↔ round12 v = round12 w := by
  obtain ⟨e, he, rfl, he2⟩ := addAll_entry hash d ws k v i hk hi
  obtain ⟨f, hf, rfl, hf2⟩ := addAll_entry hash d ws l w j hl hj
  obtain ⟨hw1, hw2⟩ := addAll_wf hash h ws
  constructor
  · intro hij
    have : e = f := List.inj_on_of_nodup_map hw2 he hf hij
    subst this
    exact hinj (he2.symm.trans hf2)
  · intro hr
    have : e.key = f.key := by rw [he2, hf2, hr]
    rw [List.inj_on_of_nodup_map hw1 he hf this]

/-- **C27, what is in memory.**  At the end of any history, the index returned for a waveform
names stored samples that agree with it after rounding to 12 decimals, and no other entry has
that index. -/
theorem index_names_waveform (hash : List Int → K) (hinj : Function.Injective hash)
    (d : List (Entry K)) (h : WfDict d) (hd : ∀ e ∈ d, e.key = hash (round12 e.data))
    (ws : List (List Rat)) (k : Nat) (w : List Rat) (i : Nat) (hk : ws[k]? = some w)
    (hi : (addAll hash d ws).2[k]? = some i) :
    ∃ e ∈ (addAll hash d ws).1, e.index = i ∧ round12 e.data = round12 w ∧
      ∀ f ∈ (addAll hash d ws).1, f.index = i → f = e := by
  obtain ⟨e, he, rfl, he2⟩ := addAll_entry hash d ws k w i hk hi
  refine ⟨e, he, rfl, ?_, ?_⟩
  · exact hinj ((addAll_self hash d hd ws e he).symm.trans he2)
  · intro f hf hfe
    exact List.inj_on_of_nodup_map (addAll_wf hash h ws).2 hf he hfe

/-- **C27, indices are dense**: from the empty dict, the indices in use are `0, 1, ..., n - 1`. -/
theorem indices_dense (hash : List Int → K) (ws : List (List Rat)) :
    (addAll hash [] ws).1.map Entry.index = List.range (addAll hash [] ws).1.length := by
  induction ws using List.reverseRecOn with
  | nil => rfl
  | append_singleton ws w ih =>
    rw [addAll_append]
    unfold addIfUnique
    split
    · exact ih
    · simp only [List.map_append, List.map_cons, List.map_nil, List.length_append,
        List.length_cons, List.length_nil, ih]
      rw [List.range_succ]
      congr 2
      obtain ⟨h1, h2⟩ := firstFree_spec (List.range (addAll hash [] ws).1.length)
      rw [List.mem_range, not_lt] at h1
      rcases Nat.lt_or_ge (addAll hash [] ws).1.length
        (firstFree (List.range (addAll hash [] ws).1.length)) with h | h
      · have := h2 _ h
        simp at this
      · omega

/-- Rounded values agree only if the samples differ by at most 1e-12. -/
theorem round12_close {x y : Rat} (h : pyRound (x * 1000000000000) = pyRound (y * 1000000000000)) :
    |x - y| ≤ 1 / 1000000000000 := by
  have h1 := abs_le.mp (pyRound_close (x * 1000000000000))
  have h2 := abs_le.mp (pyRound_close (y * 1000000000000))
  rw [h] at h1
  rw [abs_le]
  constructor <;> linarith [h1.1, h1.2, h2.1, h2.2]

/-- Non-vacuity: three waveforms, the third equal to the first up to rounding, with a user
waveform at index 1 in the dict. -/
example : WfDict [(⟨[5], [5 / 1000000000000], 1⟩ : Entry (List Int))] ∧
    (addAll (K := List Int) id [⟨[5], [5 / 1000000000000], 1⟩]
      [[1, 2], [3], [1, 2 + 1 / 10000000000000]]).2 = [0, 2, 0] := by
  refine ⟨⟨by simp, by simp⟩, by decide +kernel⟩

/-! ### C38: what is played -/

theorem argmaxFrom_spec : ∀ (w : List Rat) (b : Rat),
    (argmaxFrom b w = b ∨ argmaxFrom b w ∈ w) ∧ |b| ≤ |argmaxFrom b w| ∧
    ∀ x ∈ w, |x| ≤ |argmaxFrom b w| := by
  intro w
  induction w with
  | nil => intro b; exact ⟨Or.inl rfl, le_refl _, by simp⟩
  | cons a w ih =>
    intro b
    unfold argmaxFrom
    split
    · rename_i h
      obtain ⟨h1, h2, h3⟩ := ih a
      refine ⟨Or.inr ?_, le_trans (le_of_lt h) h2, ?_⟩
      · rcases h1 with h1 | h1
        · rw [h1]; exact List.mem_cons_self
        · exact List.mem_cons_of_mem _ h1
      · intro x hx
        rcases List.mem_cons.mp hx with rfl | hx
        · exact h2
        · exact h3 x hx
    · rename_i h
      obtain ⟨h1, h2, h3⟩ := ih b
      refine ⟨?_, h2, ?_⟩
      · rcases h1 with h1 | h1
        · exact Or.inl h1
        · exact Or.inr (List.mem_cons_of_mem _ h1)
      · intro x hx
        rcases List.mem_cons.mp hx with rfl | hx
        · exact le_trans (not_lt.mp h) h2
        · exact h3 x hx

/-- The peak is a sample of the largest absolute value. -/
theorem peak_spec {w : List Rat} (hw : w ≠ []) : peak w ∈ w ∧ ∀ x ∈ w, |x| ≤ |peak w| := by
  cases w with
  | nil => exact absurd rfl hw
  | cons a w =>
    obtain ⟨h1, h2, h3⟩ := argmaxFrom_spec w a
    refine ⟨?_, ?_⟩
    · rcases h1 with h1 | h1
      · show argmaxFrom a w ∈ _; rw [h1]; exact List.mem_cons_self
      · exact List.mem_cons_of_mem _ h1
    · intro x hx
      rcases List.mem_cons.mp hx with rfl | hx
      · exact h2
      · exact h3 x hx

/-- **C38, normalisation.**  Every normalised sample is within [-1, 1], and multiplied with the
peak it is the original sample; where the original peaks the normalised waveform is 1. -/
theorem normalise_spec {w : List Rat} (hw : w ≠ []) :
    (normalise w).length = w.length ∧
    (∀ (k : Nat) x, w[k]? = some x → ∃ y, (normalise w)[k]? = some y ∧ |y| ≤ 1 ∧
      y * peak w = x) ∧
    (peak w ≠ 0 → (1 : Rat) ∈ normalise w) := by
  obtain ⟨hp, hmax⟩ := peak_spec hw
  refine ⟨by unfold normalise; split <;> simp, ?_, ?_⟩
  · intro k x hx
    have hm := hmax x (List.mem_of_getElem? hx)
    unfold normalise
    split
    · rename_i h0
      refine ⟨0, by simp only [List.getElem?_map, hx, Option.map_some], by simp, ?_⟩
      rw [h0] at hm
      simp at hm
      rw [h0, hm]; ring
    · rename_i h0
      refine ⟨x / peak w, by simp [hx], ?_, by field_simp⟩
      rw [abs_div, div_le_one (abs_pos.mpr h0)]
      exact hm
  · intro h0
    unfold normalise
    rw [if_neg h0]
    exact List.mem_map.mpr ⟨peak w, hp, div_self h0⟩

/-- **C38, docstring claim**: a rescaled waveform has the same normalised form. -/
theorem normalise_scale {w : List Rat} {c : Rat} (hc : c ≠ 0) :
    normalise (w.map (fun x => c * x)) = normalise w := by
  have hpk : peak (w.map (fun x => c * x)) = c * peak w := by
    cases w with
    | nil => simp [peak]
    | cons a w =>
      simp only [List.map_cons, peak]
      induction w generalizing a with
      | nil => rfl
      | cons b w ih =>
        simp only [List.map_cons, argmaxFrom]
        have hlt : |c * a| < |c * b| ↔ |a| < |b| := by
          rw [abs_mul, abs_mul]
          exact mul_lt_mul_iff_right₀ (abs_pos.mpr hc)
        by_cases h : |a| < |b|
        · rw [if_pos h, if_pos (hlt.mpr h)]; exact ih b
        · rw [if_neg h, if_neg (fun x => h (hlt.mp x))]; exact ih a
  unfold normalise
  rw [hpk]
  by_cases h0 : peak w = 0
  · rw [if_pos (by simp [h0]), if_pos h0, List.map_map]; rfl
  · rw [if_neg (mul_ne_zero hc h0), if_neg h0, List.map_map]
    apply List.map_congr_left
    intro x _
    simp only [Function.comp]
    field_simp

/-- The value a path plays for sample `y` of the waveform with gain `g`. -/
def played (g : Int) (y : Rat) : Rat := (g : Rat) / 32768 * y

/-- **C38, accuracy.**  If a path with samples `w` is played (its peak is not negligible) and the
pulse is accepted, then each played sample is within one step of the gain (1/32768 of the full
range) of the requested one. -/
theorem played_close {w : List Rat} (hw : w ≠ []) {g : Int}
    (hg : expandAwg (peak w) 65536 = .ok g) (k : Nat) (x : Rat) (hx : w[k]? = some x) :
    ∃ y, (normalise w)[k]? = some y ∧ |played g y - x| ≤ 1 / 32768 := by
  obtain ⟨_, hn, _⟩ := normalise_spec hw
  obtain ⟨y, hy, hy1, rfl⟩ := hn k x hx
  refine ⟨y, hy, ?_⟩
  obtain ⟨_, _, h1, _⟩ := (amplitude_range (peak w)).2 g hg
  unfold played
  have : (g : Rat) / 32768 * y - y * peak w = -(peak w * 32768 - g) * y / 32768 := by ring
  rw [this, abs_div, abs_mul, abs_neg]
  have h3 : |peak w * 32768 - ↑g| * |y| ≤ 1 * 1 :=
    mul_le_mul h1 hy1 (abs_nonneg _) (by norm_num)
  rw [div_le_div_iff₀ (by norm_num) (by norm_num)]
  rw [abs_of_pos (show (0 : Rat) < 32768 by norm_num)]
  linarith

/-- **C38, negligible pulses.**  If no waveform is played at all, every sample was below one step
of the gain. -/
theorem not_played_small {w : List Rat} (hw : w ≠ []) (h : nonNull (peak w) = false) :
    ∀ x ∈ w, |x| < 1 / 32768 := by
  intro x hx
  have := (peak_spec hw).2 x hx
  unfold nonNull at h
  simp only [decide_eq_false_iff_not, not_le] at h
  calc |x| ≤ |peak w| := this
    _ < 2 / 65536 := h
    _ = 1 / 32768 := by norm_num

/-! ### C38: the whole pulse -/

/-- The entries carry the hash of their own samples. -/
def SelfHashed (hash : List Int → K) (d : List (Entry K)) : Prop :=
  ∀ e ∈ d, e.key = hash (round12 e.data)

theorem add_self (hash : List Int → K) {d : List (Entry K)} (w : List Rat)
    (hd : SelfHashed hash d) : SelfHashed hash (addIfUnique hash d w).1 := by
  unfold addIfUnique
  split
  · exact hd
  · intro e he
    rcases List.mem_append.mp he with he | he
    · exact hd e he
    · simp at he; subst he; rfl

theorem addPath_spec (hash : List Int → K) (hinj : Function.Injective hash) {d : List (Entry K)}
    (w : List Rat) (h : WfDict d) (hd : SelfHashed hash d) :
    WfDict (addPath hash d w).1 ∧ SelfHashed hash (addPath hash d w).1 ∧ d <+: (addPath hash d w).1 ∧
    ((nonNull (peak w) = true ∧ ∃ i e, (addPath hash d w).2 = some i ∧ e ∈ (addPath hash d w).1 ∧
        e.index = i ∧ round12 e.data = round12 (normalise w)) ∨
      (nonNull (peak w) = false ∧ (addPath hash d w).2 = none)) := by
  unfold addPath
  cases hn : nonNull (peak w) with
  | true =>
    rw [if_pos rfl]
    have hs := add_self hash (normalise w) hd
    refine ⟨add_wf hash _ h, hs, add_prefix hash d _, Or.inl ⟨rfl, ?_⟩⟩
    obtain ⟨e, he, h1, h2⟩ := add_entry hash d (normalise w)
    exact ⟨_, e, rfl, he, h1, hinj ((hs e he).symm.trans h2)⟩
  | false =>
    rw [if_neg (by simp)]
    exact ⟨h, hd, List.prefix_rfl, Or.inr ⟨rfl, rfl⟩⟩

theorem round12_at {a b : List Rat} (h : round12 a = round12 b) {k : Nat} {y : Rat}
    (hy : b[k]? = some y) : ∃ z, a[k]? = some z ∧ |z - y| ≤ 1 / 1000000000000 := by
  have hk : (round12 a)[k]? = (round12 b)[k]? := by rw [h]
  unfold round12 at hk
  rw [List.getElem?_map, List.getElem?_map, hy] at hk
  cases ha : a[k]? with
  | none => rw [ha] at hk; cases hk
  | some z =>
    rw [ha] at hk
    exact ⟨z, rfl, round12_close (Option.some.inj hk)⟩

theorem path_close {xs data : List Rat} (hw : xs ≠ []) {g : Int}
    (hg : expandAwg (peak xs) 65536 = .ok g) (hr : round12 data = round12 (normalise xs))
    (k : Nat) (x : Rat) (hx : xs[k]? = some x) :
    ∃ y, data[k]? = some y ∧ |played g y - x| ≤ 1 / 32768 + 1 / 1000000000000 := by
  obtain ⟨y, hy, h1⟩ := played_close hw hg k x hx
  obtain ⟨z, hz, h2⟩ := round12_at hr hy
  refine ⟨z, hz, ?_⟩
  obtain ⟨g1, g2, _⟩ := (amplitude_range (peak xs)).2 g hg
  have hgq : |(g : Rat) / 32768| ≤ 1 := by
    have a1 : (-32768 : Rat) ≤ (g : Rat) := by exact_mod_cast g1
    have a2 : (g : Rat) ≤ 32767 := by exact_mod_cast g2
    rw [abs_le]; constructor <;> linarith
  have h3 : |(g : Rat) / 32768 * (z - y)| ≤ 1 / 1000000000000 := by
    rw [abs_mul]
    calc |(g : Rat) / 32768| * |z - y| ≤ 1 * (1 / 1000000000000) :=
          mul_le_mul hgq h2 (abs_nonneg _) (by norm_num)
      _ = _ := by ring
  unfold played at *
  rw [abs_le] at *
  constructor <;> linarith [h1.1, h1.2, h3.1, h3.2]

theorem null_close {xs ys data : List Rat} (hw : xs ≠ []) (hy : ys ≠ []) {g : Int}
    (hg : expandAwg (peak xs) 65536 = .ok g) (hn : nonNull (peak xs) = false)
    (hl : ys.length = xs.length)
    (hr : round12 data = round12 (normalise ys)) (k : Nat) (x : Rat) (hx : xs[k]? = some x) :
    ∃ y, data[k]? = some y ∧ |played g y - x| ≤ 2 / 32768 + 1 / 1000000000000 := by
  have hxs := not_played_small hw hn x (List.mem_of_getElem? hx)
  have hpk := not_played_small hw hn _ (peak_spec hw).1
  have hk : k < ys.length := by
    have := (List.getElem?_eq_some_iff.mp hx).1
    omega
  obtain ⟨v, hv, hv1, _⟩ := (normalise_spec hy).2.1 k ys[k] (List.getElem?_eq_getElem hk)
  obtain ⟨z, hz, h2⟩ := round12_at hr hv
  refine ⟨z, hz, ?_⟩
  obtain ⟨_, _, g3, _⟩ := (amplitude_range (peak xs)).2 g hg
  have hg1 : -1 ≤ g ∧ g ≤ 1 := by
    rw [abs_le] at g3
    rw [abs_lt] at hpk
    have a1 : (-2 : Rat) < (g : Rat) := by linarith [g3.1, g3.2, hpk.1, hpk.2]
    have a2 : (g : Rat) < 2 := by linarith [g3.1, g3.2, hpk.1, hpk.2]
    have b1 : (-2 : Int) < g := by exact_mod_cast a1
    have b2 : g < 2 := by exact_mod_cast a2
    omega
  have hgq : |(g : Rat) / 32768| ≤ 1 / 32768 := by
    have a1 : (-1 : Rat) ≤ (g : Rat) := by exact_mod_cast hg1.1
    have a2 : (g : Rat) ≤ 1 := by exact_mod_cast hg1.2
    rw [abs_le]; constructor <;> linarith
  have hz1 : |z| ≤ 1 + 1 / 1000000000000 := by
    rw [abs_le] at *
    constructor <;> linarith [h2.1, h2.2, hv1.1, hv1.2]
  have h3 : |(g : Rat) / 32768 * z| ≤ 1 / 32768 * (1 + 1 / 1000000000000) := by
    rw [abs_mul]
    exact mul_le_mul hgq hz1 (abs_nonneg _) (by norm_num)
  unfold played
  rw [abs_le] at *
  rw [abs_lt] at hxs
  constructor <;> linarith [h3.1, h3.2, hxs.1, hxs.2]

/-- Playing entry `w` of memory `d` with gain `g` gives the samples `xs`: the entry exists and is
the only one with this index; every played sample is within two gain steps of the requested one,
and within one step if the pulse is not negligible (rounding to 12 decimals apart). -/
def Plays (d : List (Entry K)) (g : Int) (w : Nat) (xs : List Rat) : Prop :=
  ∃ e ∈ d, e.index = w ∧ (∀ f ∈ d, f.index = w → f = e) ∧
    ∀ (k : Nat) x, xs[k]? = some x → ∃ y, e.data[k]? = some y ∧
      |played g y - x| ≤ 2 / 32768 + 1 / 1000000000000 ∧
      ((∃ z ∈ xs, 1 / 32768 ≤ |z|) → |played g y - x| ≤ 1 / 32768 + 1 / 1000000000000)

theorem plays_of_close {d : List (Entry K)} (h : WfDict d) {g : Int} {xs : List Rat} {e : Entry K}
    (he : e ∈ d)
    (hc : ∀ (k : Nat) x, xs[k]? = some x → ∃ y, e.data[k]? = some y ∧
      |played g y - x| ≤ 1 / 32768 + 1 / 1000000000000) : Plays d g e.index xs := by
  refine ⟨e, he, rfl, fun f hf hfe => List.inj_on_of_nodup_map h.2 hf he hfe, ?_⟩
  intro k x hx
  obtain ⟨y, hy, hb⟩ := hc k x hx
  exact ⟨y, hy, le_trans hb (by norm_num), fun _ => hb⟩

theorem plays_of_null {d : List (Entry K)} (h : WfDict d) {g : Int} {xs : List Rat} {e : Entry K}
    (he : e ∈ d) (hw : xs ≠ []) (hn : nonNull (peak xs) = false)
    (hc : ∀ (k : Nat) x, xs[k]? = some x → ∃ y, e.data[k]? = some y ∧
      |played g y - x| ≤ 2 / 32768 + 1 / 1000000000000) : Plays d g e.index xs := by
  refine ⟨e, he, rfl, fun f hf hfe => List.inj_on_of_nodup_map h.2 hf he hfe, ?_⟩
  intro k x hx
  obtain ⟨y, hy, hb⟩ := hc k x hx
  refine ⟨y, hy, hb, ?_⟩
  rintro ⟨z, hz, hz1⟩
  exact absurd (not_played_small hw hn z hz) (not_lt.mpr hz1)

/-- **C38, the whole pulse.**  When a pulse with real part `re` and imaginary part `im` is added to
a memory in order, the memory stays in order, keeps its entries, and if the pulse is accepted the
emitted gains and waveform indices play `re` on path I and `im` on path Q; if nothing is emitted,
all samples were below one gain step. -/
theorem pulse_played (hash : List Int → K) (hinj : Function.Injective hash) (d : List (Entry K))
    (h : WfDict d) (hd : SelfHashed hash d) {re im : List Rat} (hre : re ≠ [])
    (hl : im.length = re.length) :
    WfDict (generateData hash d re im).1 ∧ SelfHashed hash (generateData hash d re im).1 ∧
    d <+: (generateData hash d re im).1 ∧
    (∀ gI gQ w0 w1, emitPulse (generateData hash d re im).2.1 (generateData hash d re im).2.2
        (peak re) (peak im) = .ok (some (gI, gQ, w0, w1)) →
      Plays (generateData hash d re im).1 gI w0 re ∧ Plays (generateData hash d re im).1 gQ w1 im) ∧
    (emitPulse (generateData hash d re im).2.1 (generateData hash d re im).2.2
        (peak re) (peak im) = .ok none →
      (∀ x ∈ re, |x| < 1 / 32768) ∧ ∀ x ∈ im, |x| < 1 / 32768) := by
  have him : im ≠ [] := by
    intro hx
    subst hx
    exact hre (List.length_eq_zero_iff.mp hl.symm)
  obtain ⟨a1, a2, a3, a4⟩ := addPath_spec hash hinj re h hd
  obtain ⟨b1, b2, b3, b4⟩ := addPath_spec hash hinj im a1 a2
  refine ⟨b1, b2, a3.trans b3, ?_, ?_⟩
  · intro gI gQ w0 w1 he
    simp only [generateData] at he ⊢
    have hgains : expandAwg (peak re) 65536 = .ok gI ∧ expandAwg (peak im) 65536 = .ok gQ ∧
        ((addPath hash d re).2.or (addPath hash (addPath hash d re).1 im).2).getD 0 = w0 ∧
        ((addPath hash (addPath hash d re).1 im).2.or (addPath hash d re).2).getD 0 = w1 := by
      unfold emitPulse at he
      split at he
      · cases he
      · cases h1 : expandAwg (peak re) 65536 with
        | error e => rw [h1] at he; cases he
        | ok g1 =>
          cases h2 : expandAwg (peak im) 65536 with
          | error e => rw [h1, h2] at he; cases he
          | ok g2 =>
            rw [h1, h2] at he
            simp only [Except.bind, Except.ok.injEq, Option.some.injEq, Prod.mk.injEq] at he
            obtain ⟨rfl, rfl, h3, h4⟩ := he
            exact ⟨rfl, rfl, h3, h4⟩
    obtain ⟨hgI, hgQ, h0, h1⟩ := hgains
    rcases a4 with ⟨an, i, e, ai, am, ae, ar⟩ | ⟨an, ai⟩
    · have am' := mem_of_prefix b3 am
      rcases b4 with ⟨bn, j, f, bi, bm, be, br⟩ | ⟨bn, bi⟩
      · rw [ai, bi] at h0 h1
        simp at h0 h1
        subst h0; subst h1; subst ae; subst be
        exact ⟨plays_of_close b1 am' (path_close hre hgI ar), plays_of_close b1 bm (path_close him hgQ br)⟩
      · rw [ai, bi] at h0 h1
        simp at h0 h1
        subst h0; subst h1; subst ae
        exact ⟨plays_of_close b1 am' (path_close hre hgI ar),
          plays_of_null b1 am' him bn (null_close him hre hgQ bn hl.symm ar)⟩
    · rcases b4 with ⟨bn, j, f, bi, bm, be, br⟩ | ⟨bn, bi⟩
      · rw [ai, bi] at h0 h1
        simp at h0 h1
        subst h0; subst h1; subst be
        exact ⟨plays_of_null b1 bm hre an (null_close hre him hgI an hl br),
          plays_of_close b1 bm (path_close him hgQ br)⟩
      · rw [ai, bi] at he
        simp [emitPulse] at he
  · intro he
    simp only [generateData] at he
    rcases a4 with ⟨an, i, e, ai, am, ae, ar⟩ | ⟨an, ai⟩
    · exfalso
      rw [ai] at he
      unfold emitPulse at he
      simp only at he
      cases h1 : expandAwg (peak re) 65536 with
      | error e => rw [h1] at he; cases he
      | ok g1 =>
        cases h2 : expandAwg (peak im) 65536 with
        | error e => rw [h1, h2] at he; cases he
        | ok g2 => rw [h1, h2] at he; simp [Except.bind] at he
    · rcases b4 with ⟨bn, j, f, bi, bm, be, br⟩ | ⟨bn, bi⟩
      · exfalso
        rw [ai, bi] at he
        unfold emitPulse at he
        simp only at he
        cases h1 : expandAwg (peak re) 65536 with
        | error e => rw [h1] at he; cases he
        | ok g1 =>
          cases h2 : expandAwg (peak im) 65536 with
          | error e => rw [h1, h2] at he; cases he
          | ok g2 => rw [h1, h2] at he; simp [Except.bind] at he
      · exact ⟨not_played_small hre an, not_played_small him bn⟩

/-- Non-vacuity: both parts of a pulse, the imaginary one a rescaled real one (shared entry). -/
example : WfDict ([] : List (Entry (List Int))) ∧ SelfHashed (K := List Int) id [] ∧
    (generateData (K := List Int) id [] [1 / 4, 1 / 2] [-1 / 8, -1 / 4]).2 = (some 0, some 0) ∧
    (emitPulse (some 0) (some 0) (peak [1 / 4, 1 / 2]) (peak [-1 / 8, -1 / 4])).toOption =
      some (some (16384, -8192, 0, 0)) := by
  refine ⟨⟨by simp, by simp⟩, by intro e he; simp at he, by decide +kernel, by decide +kernel⟩

/-- **C38, too large pulses are rejected.** -/
theorem too_large_rejected {re im : List Rat} {i0 i1 : Option Nat} (hi : i0 ≠ none ∨ i1 ≠ none)
    (h : 1 < |peak re|) : emitPulse i0 i1 (peak re) (peak im) = .error .valueError := by
  have he : expandAwg (peak re) 65536 = .error .valueError := by
    unfold expandAwg
    rw [if_pos h]
  unfold emitPulse
  rw [he]
  cases i0 <;> cases i1 <;> first | rfl | simp at hi

/-- Finding: the comment at operation_handling/pulses.py:223-227 says that the gain of a path
without waveform is 0; but an amplitude just below the limit gives gain 1, so the other path's
waveform is played there. -/
theorem dummy_waveform_played :
    nonNull (3 / 4 / 32768) = false ∧
    (emitPulse (some 0) none 1 (3 / 4 / 32768)).toOption = some (some (32767, 1, 0, 0)) := by
  decide +kernel

/-- Weights are refused when one exceeds 1 or all are below -1. -/
theorem weights_refused {w : List Rat} (hw : w ≠ []) :
    weightTooLarge w = true ↔ (∃ x ∈ w, 1 < x) ∨ ∀ x ∈ w, x < -1 := by
  obtain ⟨x, xs, rfl⟩ := List.exists_cons_of_ne_nil hw
  have key : ∀ (l : List Rat) (a : Rat), (a ≤ l.foldl max a ∧ (∀ y ∈ l, y ≤ l.foldl max a)) ∧
      (l.foldl max a = a ∨ l.foldl max a ∈ l) := by
    intro l
    induction l with
    | nil => intro a; simp
    | cons b l ih =>
      intro a
      obtain ⟨⟨h1, h2⟩, h3⟩ := ih (max a b)
      rw [List.foldl_cons]
      refine ⟨⟨le_trans (le_max_left ..) h1, ?_⟩, ?_⟩
      · intro y hy
        rcases List.mem_cons.mp hy with rfl | hy
        · exact le_trans (le_max_right ..) h1
        · exact h2 y hy
      · rcases h3 with h3 | h3
        · rw [h3]
          rcases max_choice a b with h | h <;> rw [h] <;> simp
        · exact Or.inr (List.mem_cons_of_mem _ h3)
  obtain ⟨⟨h1, h2⟩, h3⟩ := key xs x
  show decide (1 < |xs.foldl max x|) = true ↔ _
  rw [decide_eq_true_iff]
  generalize xs.foldl max x = m at h1 h2 h3
  have hm : m ∈ x :: xs := by
    rcases h3 with h3 | h3
    · rw [h3]; simp
    · exact List.mem_cons_of_mem _ h3
  have hall : ∀ y ∈ x :: xs, y ≤ m := by
    intro y hy
    rcases List.mem_cons.mp hy with rfl | hy
    · exact h1
    · exact h2 y hy
  rw [lt_abs]
  constructor
  · rintro (h | h)
    · exact Or.inl ⟨m, hm, h⟩
    · exact Or.inr (fun y hy => lt_of_le_of_lt (hall y hy) (by linarith))
  · rintro (⟨y, hy, h⟩ | h)
    · exact Or.inl (lt_of_lt_of_le h (hall y hy))
    · have := h m hm
      right; linarith

/-- Finding: the check on acquisition weights does not notice weights below -1. -/
theorem negative_weights_accepted : weightTooLarge [1 / 2, -3, 0] = false := by decide +kernel

/-- **C27, memory limit.**  A dict is accepted exactly if the indices are unique and there are at
most 16384 samples. -/
theorem validate_iff (d : List (Entry K)) :
    validate d = .ok () ↔
      (d.map Entry.index).Nodup ∧ (d.map (fun e => e.data.length)).sum ≤ 16384 := by
  unfold validate
  split_ifs with h1 h2
  · simp [h1]; try omega
  · simp; exact ⟨h1, by omega⟩
  · simp [h1]

end Verif.Waves
