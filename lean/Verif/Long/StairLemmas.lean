/-
Staircases.
-/
import Verif.Long.FactoryLemmas
import Verif.Long.RampLemmas

set_option linter.unusedSimpArgs false
set_option linter.unusedVariables false

namespace Verif.Long

open Verif.Numeric (isClose)

/-- One offset after the other, without pause; those without a duration are 0. -/
def Chained (offs : List Off) : Prop :=
  offs.IsChain (fun a b => b.t0 = a.stop) ∧ ∀ o ∈ offs, o.dur = none → o.v = (0, 0)

theorem near_of_chained (E : Rat) : ∀ offs : List Off, Chained offs → Near E (0, 0) offs
  | [], _ => trivial
  | o :: rest, h => by
    have hr : Chained rest := ⟨h.1.tail, fun x hx => h.2 x (List.mem_cons_of_mem _ hx)⟩
    have ih := near_of_chained E rest hr
    rw [Near]
    cases hd : o.dur with
    | none =>
      simp only
      rw [h.2 o List.mem_cons_self hd]
      exact ih
    | some d =>
      simp only
      refine ⟨fun _ => .inr rfl, ?_, ?_⟩
      · intro next hnext _
        cases rest with
        | nil => simp at hnext
        | cons x r =>
          simp only [List.head?_cons, Option.some.injEq] at hnext
          rw [← hnext]
          exact (List.isChain_cons_cons.mp h.1).1
      · rw [ite_self]; exact ih

theorem chained_concat {offs : List Off} (h : Chained offs) {o : Off}
    (hl : ∀ l, offs.getLast? = some l → o.t0 = l.stop) (ho : o.dur = none → o.v = (0, 0)) :
    Chained (offs ++ [o]) := by
  refine ⟨?_, ?_⟩
  · rw [List.isChain_append]
    refine ⟨h.1, List.isChain_singleton _, ?_⟩
    intro x hx y hy
    simp only [List.head?_cons, Option.mem_def, Option.some.injEq] at hy
    rw [← hy]
    exact hl x hx
  · intro x hx
    rcases List.mem_append.mp hx with hx | hx
    · exact h.2 x hx
    · rw [List.mem_singleton.mp hx]; exact ho

/-- The last offset ends where the operation ends. -/
def EndsAt (offs : List Off) (E : Rat) : Prop := ∀ l, offs.getLast? = some l → l.stop = E

theorem stairLoop_ok {other : Nat → Rat → V} (step m : Rat) (hm : 0 ≤ m) (hs : m ≤ step) :
    ∀ (l : List Rat) (b : Builder) (E : Rat) (f g : Rat → V), State other b E f g → Chained b.offs →
    EndsAt b.offs E →
    ∃ b' f', stairLoop step m l b = .ok b' ∧ State other b' (E + l.length * step) f' g ∧
      Chained b'.offs ∧ EndsAt b'.offs (E + l.length * step) ∧ b'.pulses = b.pulses ∧
      (∀ (k : Nat) v, l[k]? = some v → ∀ t, E + k * step ≤ t → t < E + (k + 1) * step → f' t = (v, 0)) ∧
      (∀ t, t < E ∨ E + l.length * step ≤ t → f' t = f t)
  | [], b, E, f, g, h, hc, he => by
    refine ⟨b, f, rfl, ?_, hc, ?_, rfl, by simp, fun _ _ => rfl⟩
    · simpa using h
    · simpa using he
  | a :: l, b, E, f, g, h, hc, he => by
    have hs0 : 0 ≤ step := le_trans hm hs
    obtain ⟨b1, hb1, hp1, ho1, s1⟩ := state_offset_dur h (a, 0) step m hm hs
    have hc1 : Chained b1.offs := by
      rw [ho1]
      exact chained_concat hc (fun x hx => (he x hx).symm) (by simp)
    have he1 : EndsAt b1.offs (E + step) := by
      intro x hx
      rw [ho1, List.getLast?_concat] at hx
      simp only [Option.some.injEq] at hx
      rw [← hx]; simp [Off.stop]
    obtain ⟨b', f', hb', s', hc', he', hp', hf1, hf2⟩ :=
      stairLoop_ok step m hm hs l b1 (E + step) _ g s1 hc1 he1
    have hlen : E + step + (l.length : Rat) * step = E + ((a :: l).length : Nat) * step := by
      rw [List.length_cons]; push_cast; ring
    have hlen0 : (0 : Rat) ≤ l.length * step := by positivity
    refine ⟨b', f', ?_, by rw [← hlen]; exact s', hc', by rw [← hlen]; exact he', hp'.trans hp1, ?_, ?_⟩
    · rw [stairLoop, hb1]
      exact hb'
    · intro k v hk t h1 h2
      cases k with
      | zero =>
        simp only [List.getElem?_cons_zero, Option.some.injEq] at hk
        simp only [Nat.cast_zero, zero_mul, add_zero, zero_add, one_mul] at h1 h2
        rw [hf2 t (.inl h2), if_pos ⟨h1, h2⟩, hk]
      | succ k =>
        rw [List.getElem?_cons_succ] at hk
        apply hf1 k v hk t
        · push_cast at h1; linarith
        · push_cast at h2; linarith
    · intro t ht
      rw [← hlen] at ht
      have h1 : t < E + step ∨ E + step + l.length * step ≤ t := by
        rcases ht with h | h
        · left; linarith
        · right; exact h
      rw [hf2 t h1, if_neg]
      rintro ⟨h2, h3⟩
      rcases ht with h | h <;> linarith

theorem linspace_length (a b : Rat) (n : Nat) : (linspace a b n).length = n := by simp [linspace]

theorem toGridTime_mult (n grid : Int) (h : n % grid = 0) : toGridTime (n : Rat) grid = .ok n := by
  unfold toGridTime Numeric.toGridTime
  simp only
  have e : (n : Rat) / 1000000000 * 1000000000 = n := by field_simp
  rw [e, Numeric.pyRound_int]
  have h1 : |(n : Rat) - n| ≤ Numeric.gridTolerance := by
    rw [sub_self, abs_zero]
    unfold Numeric.gridTolerance; norm_num
  rw [if_neg]
  rintro (h' | h')
  · exact h' h1
  · exact h' h

theorem staircase_ok (other : Nat → Rat → V) (start stop : Rat) (n : Nat) (hn : 0 < n) (step : Int)
    (pc : PC) (t0 : Rat) (m : Int) (hm : 0 < m) (hg : step % m = 0) (hs : 2 * m ≤ step) :
    ∃ new, staircase start stop n (n * step) pc t0 m = .ok new ∧
      (∀ (k : Nat) v, (linspace start stop n)[k]? = some v → ∀ t, t0 + k * step ≤ t →
        t < t0 + (k + 1) * step → output other new pc t = (v, 0)) ∧
      (∀ t, t < t0 ∨ t0 + n * step ≤ t → output other new pc t = 0) ∧
      (∀ pc' t, pc' ≠ pc → output other new pc' t = 0) := by
  have hmR : (0 : Rat) < m := by exact_mod_cast hm
  have hsR : 2 * (m : Rat) ≤ step := by exact_mod_cast hs
  have hnR : (n : Rat) ≠ 0 := by exact_mod_cast (by omega : n ≠ 0)
  have hlen := linspace_length start stop n
  -- split off the last one
  obtain ⟨init, last, hl⟩ : ∃ init last, linspace start stop n = init ++ [last] := by
    have hne : linspace start stop n ≠ [] := by
      intro h; rw [h] at hlen; simp at hlen; omega
    exact ⟨_, _, (List.dropLast_append_getLast hne).symm⟩
  have hil : init.length + 1 = n := by rw [← hlen, hl]; simp
  have hilR : (init.length : Rat) + 1 = n := by exact_mod_cast hil
  have hilR' : (init.length : Rat) = n - 1 := by linarith
  obtain ⟨b1, f1, hb1, s1, hc1, he1, hp1, hf1, hf1'⟩ := stairLoop_ok (other := other) step m (le_of_lt hmR)
    (by linarith) init Builder.empty 0 _ _ (state_empty other)
    ⟨by simp [Builder.empty], by simp [Builder.empty]⟩ (by intro l h; simp [Builder.empty] at h)
  rw [zero_add] at s1 he1
  obtain ⟨b2, hb2, hp2, ho2, s2⟩ := state_offset_dur s1 (last, 0) ((step : Rat) - m) m (le_of_lt hmR)
    (by linarith)
  have hc2 : Chained b2.offs := by
    rw [ho2]; exact chained_concat hc1 (fun x hx => (he1 x hx).symm) (by simp)
  obtain ⟨b3, hb3, hp3, ho3, s3⟩ := state_offset s2 (0, 0) 0 4 (le_refl _)
  rw [zero_add] at ho3 s3
  have hc3 : Chained b3.offs := by
    rw [ho3]
    refine chained_concat hc2 ?_ (by simp)
    intro x hx
    rw [ho2, List.getLast?_concat] at hx
    simp only [Option.some.injEq] at hx
    rw [← hx]; simp [Off.stop]
  have s4 := state_pulse s3 pc m (.square (last, 0)) (le_of_lt hmR)
  set b4 := b3.addPulse [⟨pc, 0, m, .wave (.square (last, 0))⟩] true with hb4
  have hE : (init.length : Rat) * step + (step - m) + m = n * step := by rw [hilR']; ring
  have hnear : Near ((init.length : Rat) * step + (step - m) + m) (0, 0) b4.offs :=
    near_of_chained _ _ hc3
  refine ⟨b4.build pc t0, ?_, ?_, ?_, fun pc' t h => build_output_other other b4 h t0 t⟩
  · unfold staircase
    rw [if_neg (by omega)]
    have e : (n : Rat) * step / n = step := by field_simp
    rw [e, toGridTime_mult step m hg]
    simp only
    rw [hl, List.dropLast_concat, hb1]
    simp only [List.getLast?_concat, Option.getD_some]
    rw [hb2]
    simp only
    rw [hb3]
  · intro k v hk t h1 h2
    have hk' : k < n := by
      have := (List.getElem?_eq_some_iff.mp hk).1
      rw [hlen] at this; exact this
    have hkR : (k : Rat) + 1 ≤ n := by exact_mod_cast hk'
    have hs0 : (0 : Rat) < step := by linarith
    have hk0 : (0 : Rat) ≤ k * step := by positivity
    have hkn : ((k : Rat) + 1) * step ≤ n * step := mul_le_mul_of_nonneg_right hkR (le_of_lt hs0)
    rw [state_output s4 hnear, hE, if_neg (by linarith)]
    rw [hl] at hk
    by_cases hki : k < init.length
    · rw [List.getElem?_append_left hki] at hk
      have hkiR : (k : Rat) + 1 ≤ init.length := by exact_mod_cast hki
      have hki2 : ((k : Rat) + 1) * step ≤ init.length * step :=
        mul_le_mul_of_nonneg_right hkiR (le_of_lt hs0)
      have hf := hf1 k v hk (t - t0) (by linarith) (by linarith)
      rw [if_neg (by push_neg; linarith), if_neg (by rintro ⟨h, _⟩; linarith), hf]
      rw [if_neg (by rintro ⟨h, _⟩; linarith)]
      simp
    · have hke : k = init.length := by omega
      have hkeR : (k : Rat) = init.length := by exact_mod_cast hke
      rw [hke, List.getElem?_concat_length] at hk
      simp only [Option.some.injEq] at hk
      rw [hkeR] at h1 h2
      by_cases hx : (init.length : Rat) * step + (step - m) ≤ t - t0
      · rw [if_pos hx, if_pos ⟨hx, by linarith⟩, hk]
        refine Prod.ext ?_ ?_ <;> simp [Wave.value]
      · push_neg at hx
        rw [if_neg (not_le.mpr hx), if_pos ⟨by linarith, hx⟩, if_neg (by rintro ⟨h, _⟩; linarith), hk]
        simp
  · intro t ht
    have hs0 : (0 : Rat) < step := by linarith
    have hi0 : (0 : Rat) ≤ init.length * step := by positivity
    rw [state_output s4 hnear, hE]
    rcases ht with h | h
    · rw [if_neg (by push_neg; nlinarith), if_neg (by push_neg; linarith),
        if_neg (by rintro ⟨h, _⟩; linarith), if_neg (by rintro ⟨h, _⟩; linarith),
        hf1' _ (.inl (by linarith))]
      simp
    · rw [if_pos (by linarith), if_neg (by rintro ⟨_, h⟩; linarith)]
      simp

end Verif.Long
