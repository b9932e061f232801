/-
C61: a digital output is high during its pulses, and only then.
-/
import Verif.Digital.Lemmas

set_option linter.unusedSimpArgs false
set_option linter.unusedVariables false

namespace Verif.Digital

open Verif.Flatten (Forest leaves)
open Verif.Redundant (Op Kind Params Trace exec appliedAt ordered removeRedundant)
open Verif.StableSort (sortBy)
open Verif.Connect (Chan ModType)

variable {R : Type}

theorem program_of (l : Levels) (ops : List (DOp R)) (F : Forest (DOp R)) (ho : Spec.InOrder ops)
    (hF : Spec.outline ops = F.flatten) (hb : Spec.Bracketed F) :
    ∃ G : Forest (Unt R), UBr G ∧ ordered (replace l ops) = (bindF l G).flatten ∧
      ∀ env, (execU env G 0 [] 0).filterMap markOf = (Spec.pulses env F 0 [] 0).flatMap edges := by
  have hs : (sortBy Unt.time (ops.flatMap units)).filter skel = (expand F).flatten := by
    rw [StableSort.sortBy_filter, units_skel, StableSort.sortBy_of_sorted, expand_flatten F hb, hF]
    refine units_sorted _ ?_ ho.2
    intro o h d hd
    exact ho.1 o (List.mem_filter.mp h).1 d hd
  obtain ⟨G, g1, g2, g3⟩ := rebuild_all (expand F) _ (expand_ubr F hb) hs
  refine ⟨G, g2, ?_, ?_⟩
  · rw [ordered_replace, g1, bindF_flatten l G g2]
  · intro env
    rw [← marks_keepF env G 0 [] 0 g2, g3, marks_expand env F 0 [] 0 hb]

theorem harmless (l : Levels) (ops : List (DOp R)) : Redundant.AsmHarmless (replace l ops) := by
  intro o ho f hf
  unfold replace at ho
  obtain ⟨x, _, hx⟩ := List.mem_flatMap.mp ho
  cases ha : x.act with
  | pulse d =>
    rw [ha] at hx
    simp at hx
    rcases hx with rfl | rfl | rfl | rfl <;> simp [setLevel] at hf
  | rest k =>
    rw [ha] at hx
    simp at hx
    subst hx
    cases k <;> simp [Rest.kind] at hf

/-- The program of the sequencer has the structure of loops and conditionals. -/
theorem digital_structured (l : Levels) (ops : List (DOp R)) (F : Forest (DOp R)) (ho : Spec.InOrder ops)
    (hF : Spec.outline ops = F.flatten) (hb : Spec.Bracketed F) :
    ∃ g, ordered (removeRedundant (replace l ops)) = g.flatten ∧ Redundant.Bracketed g := by
  obtain ⟨G, g1, g2, _⟩ := program_of l ops F ho hF hb
  exact Redundant.removeRedundant_structured _ (bindF l G) g2 (bindF_bracketed l G g1)

open Classical in
/-- **C61.** Whatever else the sequencer does, and whatever the conditionals decide: at any time, the level applied
is the high one if a pulse is on and the low one if none is, in every repetition of every loop. -/
theorem high_during_pulses (l : Levels) (ops : List (DOp R)) (F : Forest (DOp R)) (ho : Spec.InOrder ops)
    (hF : Spec.outline ops = F.flatten) (hb : Spec.Bracketed F)
    (g : Forest (Op (Nat × R))) (hg : ordered (removeRedundant (replace l ops)) = g.flatten)
    (hbg : Redundant.Bracketed g) (env : List Nat → Bool) (hs : Spec.Sequential (Spec.pulses env F 0 [] 0))
    (p : Params (Nat × R)) (hp : p.pending.1 = l.low) (ha : p.applied.1 = l.low) (now : Int) :
    (appliedAt now (exec env g 0 [] 0) p).1 = if Spec.On (Spec.pulses env F 0 [] 0) now then l.high else l.low := by
  obtain ⟨G, g1, g2, g3⟩ := program_of l ops F ho hF hb
  rw [(Redundant.removeRedundant_same_parameters (replace l ops) (bindF l G) g g2 (bindF_bracketed l G g1) hg hbg
    (harmless l ops) env p).1 now, appliedAt, exec_bindF l env G 0 [] 0 g1,
    spread_level l now _ p (by rw [hp, ha]), g3 env, ha]
  have hle := pulses_le env F 0 [] 0 (fun o h d hd =>
    ho.1 o (List.mem_filter.mp (show o ∈ ops.filter _ from by rw [← hF] at h; exact h)).1 d hd)
  have key := level_of_edges l now (Spec.pulses env F 0 [] 0) l.low hs hle
  by_cases hx : ∃ q ∈ Spec.pulses env F 0 [] 0, q.1 ≤ now
  · exact key.1 hx
  · rw [key.2 hx, if_neg]
    rintro ⟨q, hq, h1, _⟩
    exact hx ⟨q, hq, h1⟩

/-! ### Levels -/

theorem get_mem {t : ModType} {c : Chan} {m : Nat} (h : Dict.get? (markers t) c = some m) : (c, m) ∈ markers t :=
  Dict.mem_of_get? h

/-- The digital outputs of analog modules: the low level is the one set before the program starts, and the high level
is that with the bit of the output added, which was not in it. -/
theorem digital_level (t : ModType) (rf : Bool) (c : Chan) (b : Nat) (h : Spec.bit t c = some b) :
    ∃ l, markerLevels t rf c = .ok l ∧ l.low = initLevel t rf c ∧ l.low.testBit b = false ∧
      ∀ j, l.high.testBit j = (l.low.testBit j || decide (j = b)) := by
  have key : ∀ (hi lo b : Nat), hi = lo ||| 2 ^ b → ∀ j, hi.testBit j = (lo.testBit j || decide (j = b)) := by
    intro hi lo b e j
    rw [e, Nat.testBit_or, Nat.testBit_two_pow]
    congr 1
    by_cases hj : b = j
    · simp [hj]
    · have : ¬j = b := fun h => hj h.symm
      simp [hj, this]
  obtain ⟨m, d, i⟩ := c
  cases m <;> cases d <;> simp [Spec.bit] at h
  have fin : i < 4 := by
    cases t <;> simp at h
    · exact h.1
    · exact h.1
    all_goals (try (split at h <;> simp at h <;> omega))
    all_goals (rcases h with ⟨h, _⟩; omega)
  have hi : i = 0 ∨ i = 1 ∨ i = 2 ∨ i = 3 := by omega
  rcases hi with rfl | rfl | rfl | rfl <;> cases t <;> simp at h <;> subst h <;> cases rf <;>
    refine ⟨_, rfl, by decide, by decide, key _ _ _ (by decide)⟩

/-- The bit is in neither level. -/
def without (b : Nat) : Except Err Levels → Bool
  | .ok l => !l.low.testBit b && !l.high.testBit b
  | .error _ => true

/-- A digital output is not touched through another output of the module: its bit is in no level of another
channel. -/
theorem digital_independent (t : ModType) (rf : Bool) (c c' : Chan) (b : Nat) (h : Spec.bit t c = some b)
    (hc : c' ≠ c) (l : Levels) (hl : markerLevels t rf c' = .ok l) :
    l.low.testBit b = false ∧ l.high.testBit b = false := by
  obtain ⟨m, d, i⟩ := c
  cases m <;> cases d <;> simp [Spec.bit] at h
  have fin : i < 4 := by
    cases t <;> simp at h
    · exact h.1
    · exact h.1
    all_goals (try (split at h <;> simp at h <;> omega))
    all_goals (rcases h with ⟨h, _⟩; omega)
  have ht : t ≠ .qtm := by rintro rfl; simp [markerLevels] at hl
  have hmem : ∃ m, (c', m) ∈ markers t := by
    unfold markerLevels at hl
    rw [if_neg ht] at hl
    cases hm : Dict.get? (markers t) c' with
    | none => rw [hm] at hl; simp at hl
    | some m => exact ⟨m, get_mem hm⟩
  obtain ⟨m, hmem⟩ := hmem
  have chk : ∀ e ∈ markers t, e.1 ≠ ⟨.digital, .output, i⟩ → without b (markerLevels t rf e.1) = true := by
    have hi : i = 0 ∨ i = 1 ∨ i = 2 ∨ i = 3 := by omega
    rcases hi with rfl | rfl | rfl | rfl <;> cases t <;> simp at h <;> subst h <;> cases rf <;> decide
  have := chk _ hmem hc
  rw [hl] at this
  simpa [without] using this

/-- RF outputs: with `rf_output_on` the switch is on from the start and a pulse on it is refused; without, the switch
is on exactly at the high level. -/
theorem rf_switch (t : ModType) (c : Chan) (b : Nat) (h : Spec.switch t c = some b) :
    (initLevel t true c).testBit b = true ∧ markerLevels t true c = .error .runtimeError ∧
    ∃ l, markerLevels t false c = .ok l ∧ l.low = 0 ∧ initLevel t false c = 0 ∧
      ∀ j, l.high.testBit j = decide (j = b) := by
  have key : ∀ (hi b : Nat), hi = 2 ^ b → ∀ j, hi.testBit j = decide (j = b) := by
    intro hi b e j
    rw [e, Nat.testBit_two_pow]
    by_cases hj : b = j
    · simp [hj]
    · have : ¬j = b := fun h => hj h.symm
      simp [hj, this]
  obtain ⟨m, d, i⟩ := c
  cases t <;> cases m <;> cases d <;> simp [Spec.switch] at h
  · by_cases h0 : i = 0
    · subst h0
      simp at h
      subst h
      exact ⟨by decide, by decide, _, rfl, by decide, by decide, key _ _ (by decide)⟩
    · rw [if_neg h0] at h
      by_cases h1 : i = 1
      · subst h1
        simp at h
        subst h
        exact ⟨by decide, by decide, _, rfl, by decide, by decide, key _ _ (by decide)⟩
      · simp [h1] at h
  · obtain ⟨rfl, rfl⟩ := h
    exact ⟨by decide, by decide, _, rfl, by decide, by decide, key _ _ (by decide)⟩

/-- With `rf_output_on`, pulses on a digital output of an RF module leave all RF outputs on. -/
theorem rf_stays_on (t : ModType) (c c' : Chan) (b b' : Nat) (h : Spec.bit t c = some b)
    (h' : Spec.switch t c' = some b') (l : Levels) (hl : markerLevels t true c = .ok l) :
    l.low.testBit b' = true ∧ l.high.testBit b' = true := by
  obtain ⟨m', d', i'⟩ := c'
  obtain ⟨m, d, i⟩ := c
  cases m <;> cases d <;> simp [Spec.bit] at h
  cases t <;> cases m' <;> cases d' <;> simp [Spec.switch] at h'
  · have hi : i = 0 ∨ i = 1 := by
      simp at h
      by_cases h0 : i = 0
      · exact Or.inl h0
      · by_cases h1 : i = 1
        · exact Or.inr h1
        · simp [h0, h1] at h
    have hb : b' = 0 ∨ b' = 1 := by
      by_cases h0 : i' = 0
      · simp [h0] at h'; exact Or.inl h'.symm
      · by_cases h1 : i' = 1
        · simp [h1] at h'; exact Or.inr h'.symm
        · simp [h0, h1] at h'
    rcases hi with rfl | rfl
    · have e : markerLevels .qcmRf true ⟨.digital, .output, 0⟩ = .ok ⟨11, 3⟩ := by decide
      rw [e, Except.ok.injEq] at hl
      subst hl
      rcases hb with rfl | rfl <;> decide
    · have e : markerLevels .qcmRf true ⟨.digital, .output, 1⟩ = .ok ⟨7, 3⟩ := by decide
      rw [e, Except.ok.injEq] at hl
      subst hl
      rcases hb with rfl | rfl <;> decide
  · have hi : i = 0 ∨ i = 1 := by
      simp at h
      by_cases h0 : i = 0
      · exact Or.inl h0
      · by_cases h1 : i = 1
        · exact Or.inr h1
        · simp [h0, h1] at h
    obtain ⟨-, rfl⟩ := h'
    rcases hi with rfl | rfl
    · have e : markerLevels .qrmRf true ⟨.digital, .output, 0⟩ = .ok ⟨6, 2⟩ := by decide
      rw [e, Except.ok.injEq] at hl
      subst hl
      decide
    · have e : markerLevels .qrmRf true ⟨.digital, .output, 1⟩ = .ok ⟨10, 2⟩ := by decide
      rw [e, Except.ok.injEq] at hl
      subst hl
      decide

/-- The level of debug mode is the one of a program with `rf_output_on`, whatever the setting is. -/
theorem debug_level (t : ModType) (c : Chan) : (isRf t = false → debugLevel t c = some 0) ∧
    ∀ v, debugLevel t c = some v → v = initLevel t true c := by
  unfold debugLevel initLevel
  constructor
  · intro h
    cases t <;> first | rfl | (simp [isRf] at h)
  · intro v
    cases t <;> simp [isRf, defaults] <;> intro h <;> (try rw [h]) <;> simp_all

/-- Everything else is refused. -/
theorem others_refused (t : ModType) (rf : Bool) (c : Chan) (h : Spec.bit t c = none) (h' : Spec.switch t c = none) :
    ∃ e, markerLevels t rf c = .error e := by
  unfold markerLevels
  by_cases ht : t = .qtm
  · rw [if_pos ht]; exact ⟨_, rfl⟩
  · rw [if_neg ht]
    cases hm : Dict.get? (markers t) c with
    | none => exact ⟨_, rfl⟩
    | some m =>
      exfalso
      have hmem := get_mem hm
      cases t <;> simp [markers, dig, co] at hmem
      all_goals first | exact ht rfl | skip
      all_goals (rcases hmem with ⟨rfl, rfl⟩ | hmem; · simp [Spec.bit, Spec.switch] at h h')
      all_goals (try (rcases hmem with ⟨rfl, rfl⟩ | hmem; · simp [Spec.bit, Spec.switch] at h h'))
      all_goals (try (rcases hmem with ⟨rfl, rfl⟩ | hmem; · simp [Spec.bit, Spec.switch] at h h'))
      all_goals (try (obtain ⟨rfl, rfl⟩ := hmem; simp [Spec.bit, Spec.switch] at h h'))

/-- QTM: one bit, on digital channels only. -/
theorem qtm_levels (c : Chan) : (c.mode = .digital → digitalLevels c = .ok ⟨1, 0⟩) ∧
    (c.mode ≠ .digital → digitalLevels c = .error .valueError) := by
  unfold digitalLevels
  constructor
  · intro h; rw [if_pos h]
  · intro h; rw [if_neg h]

end Verif.Digital
