/-
C83: the text of an operation makes it again, except for some classes.
-/
import Verif.Ops.Text

set_option linter.unusedSimpArgs false
set_option linter.unusedVariables false

namespace Verif.Ops

theorem head_single {c : Cls} {i : Info} {d : Rat} (hc : PrintsAll c)
    (hs : c = .SquarePulse → (Dict.get? i "amp").isSome = true) :
    (if (single c i d).cls.isAcq then (single c i d).acqs.head? else
      if (single c i d).cls = .SquarePulse then
        ((single c i d).pulses.filter fun i => (Dict.get? i "amp").isSome).head?
      else (single c i d).pulses.head?) = some i := by
  simp only [single]
  by_cases hq : c.isAcq = true
  · simp [hq]
  · by_cases h : c = .SquarePulse
    · subst h
      simp [hs rfl, Cls.isAcq]
    · simp [h, hq]

theorem cachedFor_self {k : Cache} {c : Cls} (h : c ≠ .SimpleNumericalPulse) : cachedFor k c = c := by
  unfold cachedFor
  simp [h]

/-- What is printed, for the classes that print all their arguments. -/
theorem text_eq {c : Cls} {i j : Info} {d : Rat} {k : Cache} (hc : PrintsAll c)
    (hs : c = .SquarePulse → (Dict.get? i "amp").isSome = true) (hj : textInfo c i = .ok j) :
    (text k (single c i d)).1 = signature c ((params c).map Prod.fst) j := by
  have hne : c ≠ .SimpleNumericalPulse := by rintro rfl; simp [PrintsAll] at hc
  have hd : (single c i d).cls = c := rfl
  unfold text
  rw [head_single hc hs]
  simp only [hd]
  have hsig : ∀ i, (cachedSignature k c i).1 = signature c ((params c).map Prod.fst) i := by
    intro i
    simp [cachedSignature, cachedFor_self hne]
  unfold textInfo at hj
  by_cases ht : c = .ThresholdedTriggerCount
  · subst ht
    rw [if_pos rfl] at hj
    simp only [hj, hsig]
  · rw [if_neg ht] at hj
    simp only [Except.ok.injEq] at hj
    subst hj
    rw [← hsig]
    cases c
    case ThresholdedTriggerCount => exact absurd rfl ht
    all_goals first | rfl | (exact absurd hc (by simp [PrintsAll]))

theorem signature_ok {c : Cls} {j : Info} (ps : List String)
    (h : ∀ p ∈ ps, ∃ v, Dict.get? j p = some v) :
    signature c ps j = .ok ⟨c, ps.map fun p => (p, token (val j p))⟩ := by
  unfold signature
  refine bind_ok.mpr ⟨_, ?_, rfl⟩
  induction ps with
  | nil => rfl
  | cons p ps ih =>
    obtain ⟨v, hv⟩ := h p (by simp)
    simp only [List.mapM_cons, hv, List.map_cons]
    rw [ih fun q hq => h q (by simp [hq])]
    simp [val, hv, Bind.bind, Except.bind, pure, Except.pure]

/-- A value whose text evaluates to it. -/
def CanPrint (v : Val) : Prop :=
  (∃ s, (v = .str s ∨ v = .enum s) ∧ Clean s) ∨ (Literal v ∧ ∀ s, v ≠ .str s)

theorem evaluates_token {shown : List Val → Option (List Val)} {v w : Val} (h : CanPrint v) :
    Evaluates shown (token v) w ↔ w = un v := by
  rcases h with ⟨s, rfl | rfl, hs⟩ | ⟨hl, hn⟩
  · constructor
    · intro h; cases h; rfl
    · rintro rfl; exact .quoted s hs
  · constructor
    · intro h; cases h; rfl
    · rintro rfl; exact .quoted s hs
  · have e1 : token v = .repr v := by
      cases v <;> first | rfl | (exact absurd rfl (hn _)) | cases hl
    have e2 : un v = v := by
      cases v <;> first | rfl | cases hl
    rw [e1, e2]
    constructor
    · intro h; cases h; rfl
    · rintro rfl; exact .repr _ hl

theorem canPrint_kept {c : Cls} {p : String} {v w : Val} (h : Printable p v) (hk : Kept c p v w) :
    CanPrint w := by
  have dist : CanPrint (.enum "distribution") := by
    refine .inl ⟨_, .inr rfl, ?_⟩
    unfold Clean
    decide +kernel
  rcases hk with ⟨rfl, h1, h2⟩ | ⟨s, hv, rfl⟩ | ⟨hc, l, hl, rfl⟩ | rfl
  · rcases h with h | h | ⟨hp, l, rfl, hl⟩
    · exact .inl h
    · exact .inr h
    · rcases hp with hp | hp
      · exact absurd hp h1
      · exact absurd hp h2
  · rcases h with ⟨s', hs', hcl⟩ | ⟨hl, hn⟩ | ⟨_, l, rfl, _⟩
    · have : s' = s := by
        rcases hv with rfl | rfl <;> rcases hs' with h | h <;> cases h <;> rfl
      subst this
      exact .inl ⟨_, .inr rfl, hcl⟩
    · rcases hv with rfl | rfl
      · exact absurd rfl (hn s)
      · cases hl
    · rcases hv with h | h <;> cases h
  · refine .inr ⟨?_, by simp⟩
    rcases hl with rfl | rfl
    · rcases h with ⟨s', h | h, _⟩ | ⟨h, _⟩ | ⟨_, m, h, _⟩
      · cases h
      · cases h
      · exact h
      · cases h
    · rcases h with ⟨s', h | h, _⟩ | ⟨h, _⟩ | ⟨_, m, h, hm⟩
      · cases h
      · cases h
      · cases h
      · cases h; exact .list _ hm
  · exact dist

theorem default_printable (c : Cls) (p : String) : Printable p (defaultOf c p) := by
  have hs : ∀ s : String, (Clean s) → Printable p (.str s) := fun s h => .inl ⟨s, .inl rfl, h⟩
  have he : ∀ s : String, (Clean s) → Printable p (.enum s) := fun s h => .inl ⟨s, .inr rfl, h⟩
  have hn : ∀ q, Printable p (.num q) := fun q => .inr (.inl ⟨.num q, by simp⟩)
  have ho : Printable p .none := .inr (.inl ⟨.none, by simp⟩)
  unfold defaultOf
  split
  all_goals try split
  all_goals first
    | exact hn _ | exact ho
    | (apply hs; unfold Clean; decide +kernel)
    | (apply he; unfold Clean; decide +kernel)

/-- The arguments that a text evaluates to. -/
theorem evaluated {shown : List Val → Option (List Val)} {ps : List String} {f : String → Val}
    (h : ∀ p ∈ ps, CanPrint (f p)) {kw : List (String × Val)} :
    List.Forall₂ (fun a b => a.1 = b.1 ∧ Evaluates shown a.2 b.2)
      (ps.map fun p => (p, token (f p))) kw ↔ kw = ps.map fun p => (p, un (f p)) := by
  induction ps generalizing kw with
  | nil => simp
  | cons p ps ih =>
    have ih := @ih fun q hq => h q (by simp [hq])
    simp only [List.map_cons]
    constructor
    · intro hf
      cases hf with
      | cons hd tl =>
        rename_i b l
        obtain ⟨b1, b2⟩ := b
        obtain ⟨h1, h2⟩ := hd
        simp only at h1 h2
        rw [evaluates_token (h p (by simp))] at h2
        rw [ih.mp tl, ← h1, h2]
    · rintro rfl
      exact .cons ⟨rfl, (evaluates_token (h p (by simp))).mpr rfl⟩ (ih.mpr rfl)

theorem get_map {ps : List String} {f : String → Val} {p : String} (h : p ∈ ps) :
    Dict.get? (ps.map fun p => (p, f p)) p = some (f p) := by
  induction ps with
  | nil => cases h
  | cons q ps ih =>
    simp only [List.map_cons, Dict.get?_cons]
    by_cases hq : q = p
    · simp [hq]
    · simp only [hq, if_false]
      exact ih (by simpa [Ne.symm hq] using h)

/-- An operation that printed its text in any state of the cache: the text can be evaluated and every
evaluation makes an operation that is equal to the printed one. -/
theorem round_trip_partial {c : Cls} {kw : List (String × Val)} {o : Op} (hc : PrintsAll c)
    (h : create c kw = .ok o) (hp : ∀ p v, Dict.get? kw p = some v → Printable p v) (k : Cache)
    (shown : List Val → Option (List Val)) :
    ∃ t, (text k o).1 = .ok t ∧ t.cls = c ∧ (∃ o', Makes shown t o') ∧
      ∀ o', Makes shown t o' → SameOp o' o := by
  obtain ⟨h1, h2, i, d, hi, hd, rfl⟩ := create_iff.mp h
  obtain ⟨j, hj, hr⟩ := reprints hc hi
  have hmem : ∀ p, p ∈ (params c).map Prod.fst ↔ p ∈ required c ++ optional c :=
    fun p => (params_perm c).mem_iff
  have hs : c = .SquarePulse → (Dict.get? i "amp").isSome = true := by
    rintro rfl
    obtain ⟨v, hv, _⟩ := hr.there "amp" (by simp [required])
    cases hj
    simp [hv]
  have hcan : ∀ p ∈ (params c).map Prod.fst, CanPrint (val j p) := by
    intro p hpp
    obtain ⟨v, hv, hk⟩ := hr.there p ((hmem p).mp hpp)
    have : Printable p (argOf c kw p) := by
      have hg := arg_given h2 (p := p) (by simpa using (hmem p).mp hpp)
      rcases hg.2 with hg | ⟨_, _, hg⟩
      · exact hp _ _ hg
      · rw [hg]; exact default_printable c p
    simpa [val, hv] using canPrint_kept this hk
  refine ⟨⟨c, ((params c).map Prod.fst).map fun p => (p, token (val j p))⟩, ?_, rfl, ?_⟩
  · rw [text_eq hc hs hj]
    exact signature_ok _ fun p hpp => by
      obtain ⟨v, hv, _⟩ := hr.there p ((hmem p).mp hpp)
      exact ⟨v, hv⟩
  obtain ⟨j', hj', hn, he⟩ := entry_un hc hr.again
  have key : create c (((params c).map Prod.fst).map fun p => (p, un (val j p))) =
      .ok (single c j' d) := by
    refine create_iff.mpr ⟨?_, ?_, j', d, ?_, he.trans hd, rfl⟩
    · intro q hq
      simp only [Dict.keys, List.map_map, List.mem_map, Function.comp] at hq
      obtain ⟨e, he, rfl⟩ := hq
      simpa using (hmem _).mp (List.mem_map.mpr ⟨e, he, rfl⟩)
    · intro q hq
      obtain ⟨e, he, rfl⟩ := List.mem_map.mp ((hmem q).mpr (by simp [hq]))
      simp only [Dict.keys, List.map_map, List.mem_map, Function.comp]
      exact ⟨e, he, rfl⟩
    · rw [← hj']
      apply entry_congr
      intro p hpp
      simp only [argOf, get_map (f := fun p => un (val j p)) ((hmem p).mpr hpp), Option.getD_some]
  constructor
  · exact ⟨_, _, (evaluated hcan).mpr rfl, key⟩
  · rintro o' ⟨kw', hf, ho'⟩
    rw [(evaluated hcan).mp hf] at ho'
    simp only at ho'
    rw [key] at ho'
    cases ho'
    refine ⟨rfl, rfl, rfl, ?_, ?_⟩
    · simp only [single]; split <;> simp [hn]
    · simp only [single]; split <;> simp [hn]

/-- Operations with the same text are equal. -/
theorem same_text_same_operation {c c' : Cls} {kw kw' : List (String × Val)} {o o' : Op} {t : Text}
    (hc : PrintsAll c) (hc' : PrintsAll c') (h : create c kw = .ok o) (h' : create c' kw' = .ok o')
    (hp : ∀ p v, Dict.get? kw p = some v → Printable p v)
    (hp' : ∀ p v, Dict.get? kw' p = some v → Printable p v) {k k' : Cache}
    (ht : (text k o).1 = .ok t) (ht' : (text k' o').1 = .ok t) : SameOp o o' := by
  obtain ⟨t1, e1, _, ⟨x, hx⟩, f1⟩ := round_trip_partial hc h hp k fun _ => none
  obtain ⟨t2, e2, _, _, f2⟩ := round_trip_partial hc' h' hp' k' fun _ => none
  rw [ht] at e1; rw [ht'] at e2
  cases e1; cases e2
  obtain ⟨a1, a2, a3, a4, a5⟩ := f1 x hx
  obtain ⟨b1, b2, b3, b4, b5⟩ := f2 x hx
  exact ⟨a1.symm.trans b1, a2.symm.trans b2, a3.symm.trans b3, a4.symm.trans b4, a5.symm.trans b5⟩

/-- What is printed does not depend on what was printed before, except for one class. -/
theorem text_history {o : Op} (h : o.cls ≠ .SimpleNumericalPulse) (before before' : List Op) :
    (text (printAll [] before) o).1 = (text (printAll [] before') o).1 := by
  have e : ∀ k k' i, (cachedSignature k o.cls i).1 = (cachedSignature k' o.cls i).1 := by
    intro k k' i
    simp [cachedSignature, cachedFor_self h]
  have : ∀ k k', (text k o).1 = (text k' o).1 := by
    intro k k'
    unfold text
    simp only
    split
    · rfl
    · split
      · rfl
      · rfl
      · rfl
      · split
        · exact e _ _ _
        · rfl
      · split
        · exact e _ _ _
        · rfl
      · exact e _ _ _
  exact this _ _

end Verif.Ops
