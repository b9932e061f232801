/-
C56: hardware options reach the settings of the module.
-/
import Verif.Settings.OptionsSpec
import Verif.Common.FoldM
import Mathlib.Tactic.Linarith
import Mathlib.Tactic.NormNum

set_option linter.unusedSimpArgs false
set_option linter.unusedVariables false

namespace Verif.Settings

open Verif.Connect (PC Chan Mode Dir ModType)
open Verif.Settings.Spec
open Verif (Dict.get? Dict.set)

/-! ### Gains -/

/-- What the state of the loop says about the port-clocks seen so far. -/
structure GainInv (gains : PC → Option Gain) (done : List (PC × Chan)) (st : GainSt) : Prop where
  g0 : GainOf gains done 0 st.in0
  g1 : GainOf gains done 1 st.in1
  prev : st.prev = none → st.in0 = none ∧ st.in1 = none
  prev' : ∀ p, st.prev = some p → p = (st.in0, st.in1)

/-- The new value is consistent with the old one. -/
theorem gainOf_step {gains : PC → Option Gain} {done : List (PC × Chan)} {e : PC × Chan} {i : Nat}
    {a b : Option Int} (h : GainOf gains done i a) (hd : differ b a = false)
    (hb : ∀ g, b = some g → a = some g ∨ Asks gains e i g) (he : ∀ g, Asks gains e i g → b = some g)
    (hn : b = none → a = none) :
    GainOf gains (done ++ [e]) i b := by
  have hab : ∀ g, a = some g → b = some g := by
    intro g hg
    cases b with
    | none => rw [hn rfl] at hg; simp at hg
    | some x => rw [hg] at hd; simp [differ] at hd; rw [hd]
  refine ⟨fun x hx g hg => ?_, fun g hg => ?_⟩
  · rw [List.mem_append, List.mem_singleton] at hx
    rcases hx with hx | rfl
    · exact hab g (h.1 x hx g hg)
    · exact he g hg
  · rcases hb g hg with hh | hh
    · obtain ⟨x, hx, hx'⟩ := h.2 g hh
      exact ⟨x, by simp [hx], hx'⟩
    · exact ⟨e, by simp, hh⟩

/-- What a port-clock asks for becomes the value. -/
theorem new_asks (gains : PC → Option Gain) (st : GainSt) (e : PC × Chan) {g : Gain}
    (h : gains e.1 = some g) :
    let in0 := newIn0 g e.2.idx st.in0
    let in1 := newIn1 g e.2.idx st.in1
    (∀ x, Asks gains e 0 x → in0 = some x) ∧ (∀ x, Asks gains e 1 x → in1 = some x) ∧
    (∀ x, in0 = some x → st.in0 = some x ∨ Asks gains e 0 x) ∧
    (∀ x, in1 = some x → st.in1 = some x ∨ Asks gains e 1 x) ∧
    (in0 = none → st.in0 = none) ∧ (in1 = none → st.in1 = none) := by
  unfold newIn0 newIn1
  cases g with
  | complex i q =>
    refine ⟨?_, ?_, ?_, ?_, by simp, by simp⟩ <;> intro x hx <;> simp [Asks, h] at hx ⊢ <;> simp [hx]
  | real y =>
    refine ⟨?_, ?_, ?_, ?_, ?_, ?_⟩
    · intro x hx; simp [Asks, h] at hx; simp [hx]
    · intro x hx; simp [Asks, h] at hx; simp [hx]
    · intro x hx
      by_cases hc : e.2.idx = 0
      · simp [hc] at hx; right; simp [Asks, h, hc, hx]
      · simp [hc] at hx; exact Or.inl hx
    · intro x hx
      by_cases hc : e.2.idx = 1
      · simp [hc] at hx; right; simp [Asks, h, hc, hx]
      · simp [hc] at hx; exact Or.inl hx
    · intro hx
      by_cases hc : e.2.idx = 0
      · simp [hc] at hx
      · simpa [hc] using hx
    · intro hx
      by_cases hc : e.2.idx = 1
      · simp [hc] at hx
      · simpa [hc] using hx

theorem differ_none_right (a : Option Int) : differ a none = false := by cases a <;> rfl

theorem gainStep_spec {gains : PC → Option Gain} {done : List (PC × Chan)} {st : GainSt}
    (hi : GainInv gains done st) (e : PC × Chan) :
    (∀ st', gainStep gains st e = .ok st' → GainInv gains (done ++ [e]) st') ∧
    ((∃ a b, GainOf gains (done ++ [e]) 0 a ∧ GainOf gains (done ++ [e]) 1 b) →
      ∃ st', gainStep gains st e = .ok st') := by
  unfold gainStep
  cases hg : gains e.1 with
  | none =>
    have hna : ∀ i x, ¬Asks gains e i x := by intro i x; simp [Asks, hg]
    refine ⟨fun st' h => ?_, fun _ => ⟨_, rfl⟩⟩
    simp only [Except.ok.injEq] at h
    subst h
    refine ⟨?_, ?_, hi.prev, hi.prev'⟩
    · refine ⟨fun x hx g hx' => ?_, fun g hx => ?_⟩
      · rw [List.mem_append, List.mem_singleton] at hx
        rcases hx with hx | rfl
        · exact hi.g0.1 x hx g hx'
        · exact absurd hx' (hna 0 g)
      · obtain ⟨y, hy, hy'⟩ := hi.g0.2 g hx
        exact ⟨y, by simp [hy], hy'⟩
    · refine ⟨fun x hx g hx' => ?_, fun g hx => ?_⟩
      · rw [List.mem_append, List.mem_singleton] at hx
        rcases hx with hx | rfl
        · exact hi.g1.1 x hx g hx'
        · exact absurd hx' (hna 1 g)
      · obtain ⟨y, hy, hy'⟩ := hi.g1.2 g hx
        exact ⟨y, by simp [hy], hy'⟩
  | some g =>
    have hk := new_asks gains st e hg
    simp only at hk ⊢
    generalize newIn0 g e.2.idx st.in0 = in0 at hk ⊢
    generalize newIn1 g e.2.idx st.in1 = in1 at hk ⊢
    obtain ⟨k1, k2, k3, k4, k5, k6⟩ := hk
    cases hp : st.prev with
    | none =>
      obtain ⟨p0, p1⟩ := hi.prev hp
      refine ⟨fun st' h => ?_, fun _ => ⟨_, rfl⟩⟩
      simp only [Except.ok.injEq] at h
      subst h
      exact ⟨gainOf_step hi.g0 (by rw [p0]; exact differ_none_right _) k3 k1 k5,
        gainOf_step hi.g1 (by rw [p1]; exact differ_none_right _) k4 k2 k6, by simp, by simp⟩
    | some p =>
      have := hi.prev' p hp
      subst this
      simp only
      refine ⟨fun st' h => ?_, ?_⟩
      · split at h
        · simp at h
        · rename_i hd
          simp only [Bool.or_eq_true, not_or, Bool.not_eq_true] at hd
          simp only [Except.ok.injEq] at h
          subst h
          exact ⟨gainOf_step hi.g0 hd.1 k3 k1 k5, gainOf_step hi.g1 hd.2 k4 k2 k6, by simp, by simp⟩
      · rintro ⟨a, b, ha, hb⟩
        have key : ∀ {i : Nat} {x y c : Option Int}, GainOf gains (done ++ [e]) i c →
            GainOf gains done i x → (∀ g, y = some g → x = some g ∨ Asks gains e i g) →
            differ y x = false := by
          intro i x y c hc hx hy
          cases y with
          | none => rfl
          | some v =>
            cases x with
            | none => rfl
            | some w =>
              simp only [differ, decide_eq_false_iff_not, not_not]
              rcases hy v rfl with hh | hh
              · exact (Option.some.inj hh).symm
              · obtain ⟨z, hz, hz'⟩ := hx.2 w rfl
                have e1 := hc.1 z (by simp [hz]) w hz'
                have e2 := hc.1 e (by simp) v hh
                rw [e1] at e2
                exact (Option.some.inj e2).symm
        rw [if_neg (by rw [key ha hi.g0 k3, key hb hi.g1 k4]; simp)]
        exact ⟨_, rfl⟩

theorem gainOf_prefix {gains : PC → Option Gain} {l1 l2 : List (PC × Chan)} {i : Nat} {v : Option Int}
    (h : GainOf gains (l1 ++ l2) i v) : ∃ w, GainOf gains l1 i w := by
  classical
  by_cases hx : ∃ e ∈ l1, ∃ g, Asks gains e i g
  · obtain ⟨e, he, g, hg⟩ := hx
    refine ⟨some g, fun x hx y hy => ?_, fun y hy => ⟨e, he, ?_⟩⟩
    · have e1 := h.1 x (by simp [hx]) y hy
      have e2 := h.1 e (by simp [he]) g hg
      rw [← e1, e2]
    · rw [← Option.some.inj hy]; exact hg
  · exact ⟨none, fun x hx' y hy => absurd ⟨x, hx', y, hy⟩ hx, by simp⟩

theorem gain_loop {gains : PC → Option Gain} : ∀ (l done : List (PC × Chan)) (st : GainSt),
    GainInv gains done st →
    (∀ st', l.foldlM (gainStep gains) st = .ok st' → GainInv gains (done ++ l) st') ∧
    ((∃ a b, GainOf gains (done ++ l) 0 a ∧ GainOf gains (done ++ l) 1 b) →
      ∃ st', l.foldlM (gainStep gains) st = .ok st')
  | [], done, st, hi => by
    refine ⟨fun st' h => ?_, fun _ => ⟨_, rfl⟩⟩
    simp only [FoldM.nil, Except.ok.injEq] at h
    subst h
    simpa using hi
  | e :: l, done, st, hi => by
    have hs := gainStep_spec hi e
    refine ⟨fun st' h => ?_, fun hab => ?_⟩
    · obtain ⟨s1, h1, h2⟩ := (FoldM.ok_cons ..).mp h
      have := (gain_loop l (done ++ [e]) s1 (hs.1 s1 h1)).1 st' h2
      simpa using this
    · obtain ⟨a, b, ha, hb⟩ := hab
      rw [show done ++ e :: l = (done ++ [e]) ++ l by simp] at ha hb
      obtain ⟨s1, h1⟩ := hs.2 (by
        obtain ⟨a', ha'⟩ := gainOf_prefix ha
        obtain ⟨b', hb'⟩ := gainOf_prefix hb
        exact ⟨a', b', ha', hb'⟩)
      obtain ⟨s2, h2⟩ := (gain_loop l (done ++ [e]) s1 (hs.1 s1 h1)).2 ⟨a, b, ha, hb⟩
      exact ⟨s2, (FoldM.ok_cons ..).mpr ⟨s1, h1, h2⟩⟩

theorem gainOf_unique {gains : PC → Option Gain} {l : List (PC × Chan)} {i : Nat} {v w : Option Int}
    (hv : GainOf gains l i v) (hw : GainOf gains l i w) : v = w := by
  cases v with
  | none =>
    cases w with
    | none => rfl
    | some g =>
      obtain ⟨e, he, ha⟩ := hw.2 g rfl
      have := hv.1 e he g ha
      simp at this
  | some g =>
    obtain ⟨e, he, ha⟩ := hv.2 g rfl
    exact (hw.1 e he g ha).symm

/-- **C56.** The gains of the inputs are what the port-clocks ask for; they are found exactly if no two
port-clocks ask for different gains of an input. -/
theorem gains_exact (pcs : List (PC × Chan)) (gains : PC → Option Gain) (a b : Option Int) :
    inputGains pcs gains = .ok (a, b) ↔ GainOf gains pcs 0 a ∧ GainOf gains pcs 1 b := by
  have h0 : GainInv gains [] ⟨none, none, none⟩ :=
    ⟨⟨by simp, by simp⟩, ⟨by simp, by simp⟩, by simp, by simp⟩
  have hl := gain_loop pcs [] ⟨none, none, none⟩ h0
  unfold inputGains
  constructor
  · intro h
    split at h
    · simp at h
    · rename_i st hst
      simp only [Except.ok.injEq, Prod.mk.injEq] at h
      obtain ⟨rfl, rfl⟩ := h
      have := hl.1 st hst
      exact ⟨this.g0, this.g1⟩
  · rintro ⟨ha, hb⟩
    obtain ⟨st, hst⟩ := hl.2 ⟨a, b, ha, hb⟩
    have := hl.1 st hst
    rw [hst]
    simp only [Except.ok.injEq, Prod.mk.injEq]
    exact ⟨gainOf_unique this.g0 ha, gainOf_unique this.g1 hb⟩

end Verif.Settings
