/-
Lemmas about setting parameters.
-/
import Verif.Prepare.Spec
import Verif.Common.FoldM

set_option linter.unusedSimpArgs false
set_option linter.unusedVariables false

namespace Verif.Prepare

open Verif.Prepare.Spec
open Verif.Connect (Chan Mode Dir ModType)

variable {σ : Type} [DecidableEq σ]

/-- The last value a parameter is given. -/
def last (ws : List (Param × Val σ)) (p : Param) : Option (Val σ) :=
  match ws with
  | [] => none
  | e :: ws => (last ws p).or (if e.1 = p then some e.2 else none)

omit [DecidableEq σ] in
theorem last_append (a b : List (Param × Val σ)) (p : Param) : last (a ++ b) p = (last b p).or (last a p) := by
  induction a with
  | nil => simp [last]
  | cons e a ih => simp only [List.cons_append, last, ih, Option.or_assoc]

omit [DecidableEq σ] in
theorem last_none {ws : List (Param × Val σ)} {p : Param} : last ws p = none ↔ ∀ v, (p, v) ∉ ws := by
  induction ws with
  | nil => simp [last]
  | cons e ws ih =>
    simp only [last, Option.or_eq_none_iff, ih, List.mem_cons, not_or]
    constructor
    · rintro ⟨h1, h2⟩ v
      refine ⟨fun h => ?_, h1 v⟩
      rw [← h] at h2; simp at h2
    · intro h
      refine ⟨fun v => (h v).2, ?_⟩
      by_cases hp : e.1 = p
      · exfalso; exact (h e.2).1 (by rw [← hp])
      · simp [hp]

omit [DecidableEq σ] in
theorem last_mem {ws : List (Param × Val σ)} {p : Param} {v : Val σ} (h : last ws p = some v) :
    (p, v) ∈ ws := by
  induction ws with
  | nil => simp [last] at h
  | cons e ws ih =>
    simp only [last] at h
    cases hl : last ws p with
    | some w =>
      rw [hl] at h
      simp only [Option.some_or, Option.some.injEq] at h
      subst h
      exact List.mem_cons_of_mem _ (ih hl)
    | none =>
      rw [hl] at h
      by_cases hp : e.1 = p
      · simp only [hp, if_true, Option.none_or, Option.some.injEq] at h
        rw [← h, ← hp]; exact List.mem_cons_self ..
      · simp [hp] at h

omit [DecidableEq σ] in
/-- A parameter that is given one value only. -/
theorem last_eq {ws : List (Param × Val σ)} {p : Param} {v : Val σ} (h : (p, v) ∈ ws)
    (hu : ∀ w, (p, w) ∈ ws → w = v) : last ws p = some v := by
  cases hl : last ws p with
  | none => exact absurd h (last_none.mp hl v)
  | some w => rw [hu w (last_mem hl)]

omit [DecidableEq σ] in
theorem put_coherent {d : Dev σ} (h : Coherent d) (p : Param) (v : Val σ) : Coherent (d.put p v) := by
  intro q w hq
  simp only [Dev.put] at hq ⊢
  by_cases hp : q = p
  · simp only [hp, if_true, Option.some.injEq] at hq ⊢; exact hq
  · simp only [if_neg hp] at hq ⊢; exact h q w hq

/-- If the driver's memory is right, skipping a parameter that has the value already makes no
difference. -/
theorem setParam_put {d : Dev σ} (h : Coherent d) (force : Bool) (e : Param × Val σ) :
    setParam force d e = d.put e.1 e.2 := by
  unfold setParam
  cases force with
  | true => rfl
  | false =>
    simp only [Bool.false_eq_true, if_false]
    by_cases hc : d.cache e.1 = some e.2
    · rw [if_pos hc]
      have hh := h _ _ hc
      unfold Dev.put
      cases d with
      | mk hw cache cals =>
        simp only [Dev.mk.injEq, and_true] at hc hh ⊢
        constructor
        · funext q; by_cases hq : q = e.1
          · rw [if_pos hq, hq]; exact hh
          · rw [if_neg hq]
        · funext q; by_cases hq : q = e.1
          · rw [if_pos hq, hq]; exact hc
          · rw [if_neg hq]
    · rw [if_neg hc]

theorem setAll_force : ∀ (ws : List (Param × Val σ)) {d : Dev σ} (h : Coherent d) (force : Bool),
    setAll force ws d = setAll true ws d
  | [], d, h, force => rfl
  | e :: ws, d, h, force => by
    simp only [setAll, List.foldl_cons]
    have h1 : setParam force d e = setParam true d e := by
      rw [setParam_put h, setParam_put h]
    rw [h1]
    refine setAll_force ws ?_ force
    rw [setParam_put h]; exact put_coherent h _ _

/-- What happened between two states: parameters were given values (`ws`, in order) and calibrations
were run (`cs`). -/
structure Step (d d' : Dev σ) (ws : List (Param × Val σ)) (cs : List Cal) : Prop where
  coherent : Coherent d'
  cals : d'.cals = d.cals ++ cs
  hw : ∀ p, (∀ c ∈ cs, ¬Changes c p) → d'.hw p = (last ws p).getD (d.hw p)
  seqCache : ∀ k q, (∀ c ∈ cs, c ≠ .sideband k) → d'.cache (.seq k q) = (last ws (.seq k q)).or (d.cache (.seq k q))
  globCache : ∀ n, (∀ c ∈ cs, ∀ o, c ≠ .lo o) → d'.cache (.glob n) = (last ws (.glob n)).or (d.cache (.glob n))

omit [DecidableEq σ] in
theorem Step.refl {d : Dev σ} (h : Coherent d) : Step d d [] [] :=
  ⟨h, by simp, by simp [last], by simp [last], by simp [last]⟩

omit [DecidableEq σ] in
theorem Step.trans {d1 d2 d3 : Dev σ} {ws ws' : List (Param × Val σ)} {cs cs' : List Cal}
    (h1 : Step d1 d2 ws cs) (h2 : Step d2 d3 ws' cs') : Step d1 d3 (ws ++ ws') (cs ++ cs') := by
  refine ⟨h2.coherent, by rw [h2.cals, h1.cals, List.append_assoc], ?_, ?_, ?_⟩
  · intro p hp
    rw [h2.hw p fun c hc => hp c (List.mem_append_right _ hc),
      h1.hw p fun c hc => hp c (List.mem_append_left _ hc), last_append]
    cases last ws' p <;> simp
  · intro k q hp
    rw [h2.seqCache k q fun c hc => hp c (List.mem_append_right _ hc),
      h1.seqCache k q fun c hc => hp c (List.mem_append_left _ hc), last_append, Option.or_assoc]
  · intro n hp
    rw [h2.globCache n fun c hc => hp c (List.mem_append_right _ hc),
      h1.globCache n fun c hc => hp c (List.mem_append_left _ hc), last_append, Option.or_assoc]

theorem step_param {d : Dev σ} (h : Coherent d) (force : Bool) (e : Param × Val σ) :
    Step d (setParam force d e) [e] [] := by
  rw [setParam_put h]
  refine ⟨put_coherent h _ _, by simp [Dev.put], ?_, ?_, ?_⟩
  · intro p _
    simp only [Dev.put, last, Option.none_or]
    by_cases hp : p = e.1
    · rw [if_pos hp, if_pos hp.symm]; rfl
    · rw [if_neg hp, if_neg (fun h => hp h.symm)]; rfl
  · intro k q _
    simp only [Dev.put, last, Option.none_or]
    by_cases hp : Param.seq k q = e.1
    · rw [if_pos hp, if_pos hp.symm]; rfl
    · rw [if_neg hp, if_neg (fun h => hp h.symm)]; rfl
  · intro n _
    simp only [Dev.put, last, Option.none_or]
    by_cases hp : Param.glob n = e.1
    · rw [if_pos hp, if_pos hp.symm]; rfl
    · rw [if_neg hp, if_neg (fun h => hp h.symm)]; rfl

theorem step_all (force : Bool) : ∀ (ws : List (Param × Val σ)) {d : Dev σ}, Coherent d →
    Step d (setAll force ws d) ws []
  | [], d, h => Step.refl h
  | e :: ws, d, h => by
    have h1 := step_param h force e
    have h2 := step_all force ws h1.coherent
    exact h1.trans h2

omit [DecidableEq σ] in
theorem step_cal {run : Run σ} (hr : CalOk run) {d : Dev σ} (h : Coherent d) (c : Cal) :
    Step d (calibrate run c d) [] [c] := by
  refine ⟨?_, rfl, ?_, ?_, ?_⟩
  · exact fun p v hp => hr.coherent c d h p v hp
  · intro p hp
    simp only [last, Option.getD_none]
    exact hr.changes c d p (hp c (by simp))
  · intro k q hp
    simp only [last, Option.none_or]
    cases c with
    | sideband k' =>
      refine hr.sideband k' d _ fun q' he => ?_
      cases he; exact hp _ (by simp) rfl
    | lo o => exact hr.lo o d _ fun n he => by cases he
  · intro n hp
    simp only [last, Option.none_or]
    cases c with
    | sideband k' => exact hr.sideband k' d _ fun q' he => by cases he
    | lo o => exact absurd rfl (hp _ (by simp) o)

end Verif.Prepare
