/-
Lemmas for the frequencies of Zurich Instruments outputs.
-/
import Verif.ZiFreq.Spec
import Verif.Common.FoldM

set_option linter.unusedSimpArgs false
set_option linter.unusedVariables false

namespace Verif.ZiFreq

theorem isIn_iff {p : List Char} : ∀ {l : List Char}, isIn p l = true ↔ p <:+: l
  | [] => by
    simp only [isIn, List.isEmpty_iff]
    constructor
    · rintro rfl; exact List.infix_refl _
    · intro h; exact List.eq_nil_of_infix_nil h
  | c :: l => by
    rw [isIn, Bool.or_eq_true, isIn_iff (l := l), List.isPrefixOf_iff_prefix, List.infix_cons_iff]

/-- What stays of a channel when its intermediate frequency is set. -/
def wiring (c : Chan) : String × String × String × String × Option String := (c.device, c.io, c.port, c.clock, c.lo)

theorem setInterm_some {pc : String × String} {f : Option Rat} {cs cs' : List Chan} {c : Chan}
    (h : setInterm pc f cs = some (c, cs')) :
    ∃ a b, cs = a ++ c :: b ∧ cs' = a ++ { c with modulation := some f } :: b ∧ c.port = pc.1 ∧ c.clock = pc.2 ∧
      ∀ d ∈ a, ¬ (d.port = pc.1 ∧ d.clock = pc.2) := by
  induction cs generalizing c cs' with
  | nil => cases h
  | cons e cs ih =>
    rw [setInterm] at h
    by_cases he : e.port = pc.1 ∧ e.clock = pc.2
    · rw [if_pos he] at h
      simp only [Option.some.injEq, Prod.mk.injEq] at h
      obtain ⟨rfl, rfl⟩ := h
      exact ⟨[], cs, rfl, rfl, he.1, he.2, by simp⟩
    · rw [if_neg he] at h
      cases hr : setInterm pc f cs with
      | none => rw [hr] at h; cases h
      | some q =>
        obtain ⟨d, m⟩ := q
        rw [hr] at h
        simp only [Option.some.injEq, Prod.mk.injEq] at h
        obtain ⟨rfl, rfl⟩ := h
        obtain ⟨a, b, e1, e2, e3, e4, e5⟩ := ih hr
        refine ⟨e :: a, b, by rw [e1]; rfl, by rw [e2]; rfl, e3, e4, ?_⟩
        intro x hx
        rcases List.mem_cons.1 hx with rfl | hx
        · exact he
        · exact e5 x hx

/-- One step of the loop over modulation frequencies. -/
theorem modStep_ok {cfg : Cfg} {s s' : List Chan × List (String × Option Rat)} {pc : String × String}
    (h : modStep cfg s pc = .ok s') :
    (Dict.get? cfg.mods pc = none ∧ s' = s) ∨
    ∃ m a c b l, Dict.get? cfg.mods pc = some m ∧ s.1 = a ++ c :: b ∧ s'.1 = a ++ { c with modulation := some m.interm } :: b ∧
      c.port = pc.1 ∧ c.clock = pc.2 ∧ c.lo = some l ∧ (∀ d ∈ a, ¬ (d.port = pc.1 ∧ d.clock = pc.2)) ∧
      s'.2 = Dict.set s.2 l m.lo := by
  unfold modStep at h
  cases hm : Dict.get? cfg.mods pc with
  | none => rw [hm] at h; cases h; exact Or.inl ⟨rfl, rfl⟩
  | some m =>
    rw [hm] at h
    simp only at h
    cases hs : setInterm pc m.interm s.1 with
    | none => rw [hs] at h; cases h
    | some q =>
      obtain ⟨c, cs⟩ := q
      rw [hs] at h
      simp only at h
      cases hl : c.lo with
      | none => rw [hl] at h; cases h
      | some l =>
        rw [hl] at h
        simp only at h
        by_cases ha : cfg.los.any (fun o => o.name == l) = true
        · rw [if_pos ha] at h
          cases h
          obtain ⟨a, b, e1, e2, e3, e4, e5⟩ := setInterm_some hs
          exact Or.inr ⟨m, a, c, b, l, rfl, e1, e2, e3, e4, hl, e5, rfl⟩
        · rw [if_neg ha] at h; cases h

theorem modStep_wiring {cfg : Cfg} {s s' : List Chan × List (String × Option Rat)} {pc : String × String}
    (h : modStep cfg s pc = .ok s') : s'.1.map wiring = s.1.map wiring := by
  rcases modStep_ok h with ⟨_, rfl⟩ | ⟨m, a, c, b, l, _, e1, e2, _⟩
  · rfl
  · rw [e1, e2]; simp [wiring]

theorem parse_ok {cfg : Cfg} {cs cs' : List Chan} (h : parse cfg cs = .ok cs') :
    cs'.Perm cs ∧ (∀ c ∈ cs, accepted cfg cs c = true) ∧ (∀ o ∈ cfg.los, o.instrument.isSome = true) ∧
    cs'.Pairwise (fun c d => c.device < d.device ∨ (c.device = d.device ∧ (ioIndex c.io).getD 0 ≤ (ioIndex d.io).getD 0)) := by
  unfold parse at h
  by_cases hc : (cs.all (accepted cfg cs) && cfg.los.all (fun o => o.instrument.isSome)) = true
  · rw [if_pos hc] at h
    cases h
    rw [Bool.and_eq_true, List.all_eq_true, List.all_eq_true] at hc
    refine ⟨(StableSort.sortBy_perm _ _).trans (StableSort.sortBy_perm _ _), hc.1, hc.2, ?_⟩
    have e := StableSort.sortBy_sortBy (fun c : Chan => (ioIndex c.io).getD 0) (fun c : Chan => c.device) cs
    rw [e]
    refine (StableSort.sortBy_sorted _ _).imp ?_
    intro a b hab
    rw [Prod.Lex.toLex_le_toLex] at hab
    exact hab
  · rw [if_neg hc] at h; cases h

/-- The steps of a compilation. -/
theorem compile_ok {cfg : Cfg} {pcs : List (String × String)} {chans : List Chan} {conf : Conf}
    (h : compile cfg pcs = .ok (chans, conf)) :
    ∃ cs0 cs1 cs2 freqs, pcs.foldlM (addPort cfg) [] = .ok cs0 ∧ cs1 = StableSort.sortBy (fun c => c.device) cs0 ∧
      pcs.foldlM (modStep cfg) (cs1, []) = .ok (cs2, freqs) ∧ parse cfg cs2 = .ok chans ∧
      chans.foldlM (addLo cfg) ⟨freqs, []⟩ = .ok conf := by
  unfold compile wire at h
  cases h0 : pcs.foldlM (addPort cfg) [] with
  | error e => rw [h0] at h; cases h
  | ok cs0 =>
    rw [h0] at h
    simp only at h
    cases h1 : pcs.foldlM (modStep cfg) (StableSort.sortBy (fun c => c.device) cs0, []) with
    | error e => rw [h1] at h; cases h
    | ok q =>
      obtain ⟨cs2, freqs⟩ := q
      rw [h1] at h
      simp only at h
      cases h2 : parse cfg cs2 with
      | error e => rw [h2] at h; cases h
      | ok cs =>
        rw [h2] at h
        simp only at h
        cases h3 : cs.foldlM (addLo cfg) ⟨freqs, []⟩ with
        | error e => rw [h3] at h; cases h
        | ok s =>
          rw [h3] at h
          cases h
          exact ⟨cs0, _, cs2, freqs, rfl, rfl, h1, h2, h3⟩

/-- Channels of the result are those that were wired. -/
theorem compile_wiring {cfg : Cfg} {pcs : List (String × String)} {chans : List Chan} {conf : Conf}
    (h : compile cfg pcs = .ok (chans, conf)) :
    ∃ cs0, pcs.foldlM (addPort cfg) [] = .ok cs0 ∧ (chans.map wiring).Perm (cs0.map wiring) := by
  obtain ⟨cs0, cs1, cs2, freqs, h0, e1, h1, h2, h3⟩ := compile_ok h
  refine ⟨cs0, h0, ?_⟩
  have hw : (cs2.map wiring) = cs1.map wiring :=
    FoldM.invariant (P := fun s => s.1.map wiring = cs1.map wiring) (s' := (cs2, freqs))
      (fun pc _ a a' hp hs => (modStep_wiring hs).trans hp) rfl h1
  refine ((parse_ok h2).1.map _).trans ?_
  rw [hw, e1]
  exact (StableSort.sortBy_perm _ _).map _

theorem mem_wiring {chans cs0 : List Chan} (h : (chans.map wiring).Perm (cs0.map wiring)) {c : Chan} (hc : c ∈ chans) :
    ∃ d ∈ cs0, wiring d = wiring c := by
  have := h.mem_iff.1 (List.mem_map_of_mem (f := wiring) hc)
  obtain ⟨d, hd, e⟩ := List.mem_map.1 this
  exact ⟨d, hd, e⟩

end Verif.ZiFreq
