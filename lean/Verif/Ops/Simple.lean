/-
C83: the texts of simple numerical pulses.
-/
import Verif.Ops.Numeric
import Mathlib.Tactic.NormNum

set_option linter.unusedSimpArgs false
set_option linter.unusedVariables false

namespace Verif.Ops

/-- Only the classes of printed operations get into the cache. -/
theorem text_cache (k : Cache) (o : Op) : (text k o).2 = k ∨
    ((text k o).2 = o.cls :: k ∧ cachedFor k o.cls = o.cls) := by
  have e : ∀ i, (cachedSignature k o.cls i).2 = k ∨
      ((cachedSignature k o.cls i).2 = o.cls :: k ∧ cachedFor k o.cls = o.cls) := by
    intro i
    simp only [cachedSignature]
    split
    · rename_i h; exact .inr ⟨rfl, h.1⟩
    · exact .inl rfl
  unfold text
  simp only
  split
  · exact .inl rfl
  · split
    · exact .inl rfl
    · exact .inl rfl
    · exact .inl rfl
    · split
      · exact e _
      · exact .inl rfl
    · split
      · exact e _
      · exact .inl rfl
    · exact e _

theorem mem_printAll {k : Cache} {l : List Op} {c : Cls} (h : c ∈ printAll k l) :
    c ∈ k ∨ ∃ b ∈ l, b.cls = c := by
  induction l generalizing k with
  | nil => exact .inl h
  | cons b l ih =>
    rcases ih (k := (text k b).2) h with h | ⟨b', hb, he⟩
    · rcases text_cache k b with e | ⟨e, _⟩
      · rw [e] at h; exact .inl h
      · rw [e] at h
        rcases List.mem_cons.mp h with rfl | h
        · exact .inr ⟨b, by simp, rfl⟩
        · exact .inl h
    · exact .inr ⟨b', by simp [hb], he⟩

/-- Once the signature of numerical pulses is there and that of simple ones is not, it stays so. -/
theorem printAll_simple {k : Cache} {l : List Op} (h1 : .NumericalPulse ∈ k)
    (h2 : .SimpleNumericalPulse ∉ k) :
    .NumericalPulse ∈ printAll k l ∧ .SimpleNumericalPulse ∉ printAll k l := by
  induction l generalizing k with
  | nil => exact ⟨h1, h2⟩
  | cons b l ih =>
    show _ ∈ printAll (text k b).2 l ∧ _ ∉ printAll (text k b).2 l
    apply ih
    · rcases text_cache k b with e | ⟨e, _⟩ <;> rw [e] <;> simp [h1]
    · rcases text_cache k b with e | ⟨e, he⟩
      · rw [e]; exact h2
      · rw [e]
        intro hm
        rcases List.mem_cons.mp hm with h | h
        · rw [← h] at he
          simp [cachedFor, h1, h2] at he
        · exact h2 h

/-- A simple numerical pulse is printed with the sample that it added itself, so that its text makes a
pulse that is a nanosecond longer (if no numerical pulse was printed before). -/
theorem simple_grows {kw : List (String × Val)} {o : Op}
    (h : create .SimpleNumericalPulse kw = .ok o)
    (hp : ∀ p v, Dict.get? kw p = some v → Printable p v) {before : List Op}
    (hb : ∀ b ∈ before, b.cls ≠ .NumericalPulse) (shown : List Val → Option (List Val)) :
    ∃ t, (text (printAll [] before) o).1 = .ok t ∧ (∃ o', Makes shown t o') ∧
      ∀ o', Makes shown t o' → o'.duration = o.duration + 1 / 10 ^ 9 := by
  obtain ⟨h1, h2, i, d, hi, hd, rfl⟩ := create_iff.mp h
  obtain ⟨ys, hs, rfl⟩ := simple_ok.mp hi
  have hn : Cls.NumericalPulse ∉ printAll [] before := by
    intro hm
    rcases mem_printAll hm with hm | ⟨b, hm, he⟩
    · cases hm
    · exact hb b hm he
  have hcf : cachedFor (printAll [] before) .SimpleNumericalPulse = .SimpleNumericalPulse := by
    simp [cachedFor, hn]
  have hpa : ∀ p ∈ (params .SimpleNumericalPulse).map Prod.fst,
      Printable p (argOf .SimpleNumericalPulse kw p) := by
    intro p hpp
    have hg := arg_given h2 (p := p) (by simpa using (params_perm _).mem_iff.mp hpp)
    rcases hg.2 with hg | ⟨_, _, hg⟩
    · exact hp _ _ hg
    · rw [hg]; exact default_printable _ p
  obtain ⟨j, hj⟩ : ∃ j : Info, j = [("wf_func", .str "quantify_scheduler.waveforms.interpolated_complex_waveform"),
      ("samples", .list (ys ++ [.num 0])), ("t_samples", .list (nanoseconds (ys.length + 1))),
      ("reference_magnitude", argOf .SimpleNumericalPulse kw "reference_magnitude"),
      ("duration", .num ((ys.length : Rat) / 1000000000)),
      ("interpolation", .str "linear"), ("clock", argOf .SimpleNumericalPulse kw "clock"),
      ("port", argOf .SimpleNumericalPulse kw "port"), ("t0", argOf .SimpleNumericalPulse kw "t0")] := ⟨_, rfl⟩
  have hpr : (params .SimpleNumericalPulse).map Prod.fst =
      ["samples", "port", "clock", "reference_magnitude", "t0"] := rfl
  have hcan : ∀ p ∈ (params .SimpleNumericalPulse).map Prod.fst, CanPrint (val j p) := by
    intro p hpp
    by_cases hps : p = "samples"
    · subst hps
      have hv : val j "samples" = .list (ys ++ [.num 0]) := by simp [val, hj, Dict.get?_cons]
      rw [hv]
      refine .inr ⟨.list _ ?_, by simp⟩
      have := canPrint_kept (c := .NumericalPulse) (hpa _ hpp) (.inr (.inr (.inl ⟨.inl rfl, ys, hs, rfl⟩)))
      rcases this with ⟨s, h | h, _⟩ | ⟨h, _⟩
      · cases h
      · cases h
      · cases h with
        | list _ h =>
          intro v hv
          rcases List.mem_append.mp hv with hv | hv
          · exact h v hv
          · simp at hv; subst hv; exact .num 0
    · have hv : val j p = argOf .SimpleNumericalPulse kw p := by
        rw [hpr] at hpp
        simp only [List.mem_cons, List.not_mem_nil, or_false] at hpp
        rcases hpp with rfl | rfl | rfl | rfl | rfl
        · exact absurd rfl hps
        all_goals simp [val, hj, Dict.get?_cons]
      rw [hv]
      refine canPrint_kept (c := .NumericalPulse) (hpa _ hpp) (.inl ⟨rfl, hps, ?_⟩)
      rintro rfl
      rw [hpr] at hpp
      exact absurd hpp (by decide)
  rw [← hj]
  have ht : (text (printAll [] before) (single .SimpleNumericalPulse j d)).1 =
      .ok ⟨.SimpleNumericalPulse, ((params .SimpleNumericalPulse).map Prod.fst).map fun p =>
        (p, token (val j p))⟩ := by
    have : (text (printAll [] before) (single .SimpleNumericalPulse j d)).1 =
        signature .SimpleNumericalPulse ((params .SimpleNumericalPulse).map Prod.fst) j := by
      simp [text, single, Cls.isAcq, cachedSignature, hcf]
    rw [this]
    apply signature_ok
    rw [hpr, hj]
    simp [Dict.get?_cons]
  refine ⟨_, ht, ?_⟩
  obtain ⟨s, t, e1, e2, rfl⟩ := endOf_ok.mp hd
  simp [Dict.get?_cons] at e1 e2
  have key : ∃ j', create .SimpleNumericalPulse
      (((params .SimpleNumericalPulse).map Prod.fst).map fun p => (p, un (val j p))) =
      .ok (single .SimpleNumericalPulse j' (s + t + 1 / 10 ^ 9)) := by
    refine ⟨_, create_iff.mpr ⟨?_, ?_, _, _, simple_ok.mpr ⟨ys ++ [.num 0], .inl ?_, rfl⟩, ?_, rfl⟩⟩
    · simp [hpr, Dict.keys, required, optional]
    · simp [hpr, Dict.keys, required]
    · simp [argOf, hpr, Dict.get?_cons, val, hj, un]
    · refine endOf_ok.mpr ⟨s, (((ys ++ [Val.num 0]).length : Nat) : Rat) / 1000000000, ?_, ?_, ?_⟩
      · have : argOf .SimpleNumericalPulse (((params .SimpleNumericalPulse).map Prod.fst).map
            fun p => (p, un (val j p))) "t0" = .num s := by
          have e3 : val j "t0" = .num s := by simp [val, hj, Dict.get?_cons, e1]
          simp only [argOf, hpr, List.map_cons, List.map_nil, Dict.get?_cons]
          simp [e3, un]
        rw [this]
        simp [Dict.get?_cons]
      · simp [Dict.get?_cons]
      · rw [← e2]
        simp
        ring
  obtain ⟨j', key⟩ := key
  have hm : Makes shown ⟨.SimpleNumericalPulse, ((params .SimpleNumericalPulse).map Prod.fst).map
      fun p => (p, token (val j p))⟩ (single .SimpleNumericalPulse j' (s + t + 1 / 10 ^ 9)) := ⟨_, (evaluated hcan).mpr rfl, key⟩
  refine ⟨⟨_, hm⟩, ?_⟩
  intro o' ho'
  rw [makes_unique ho' hm]
  rfl

/-- If a numerical pulse was printed before the first simple one, the texts of simple ones cannot be
evaluated. -/
theorem simple_after_numerical {kw kw' : List (String × Val)} {o n : Op}
    (h : create .SimpleNumericalPulse kw = .ok o) (hn : create .NumericalPulse kw' = .ok n)
    {before between : List Op} (hb : ∀ b ∈ before, b.cls ≠ .SimpleNumericalPulse)
    (shown : List Val → Option (List Val)) {t : Text}
    (ht : (text (printAll [] (before ++ n :: between)) o).1 = .ok t) : ∀ o', ¬ Makes shown t o' := by
  obtain ⟨_, _, i, d, hi, hd, rfl⟩ := create_iff.mp h
  obtain ⟨_, _, i', d', hi', hd', rfl⟩ := create_iff.mp hn
  have hs : Cls.SimpleNumericalPulse ∉ printAll [] before := by
    intro hm
    rcases mem_printAll hm with hm | ⟨b, hm, he⟩
    · cases hm
    · exact hb b hm he
  obtain ⟨k, hk⟩ : ∃ k, k = (text (printAll [] before) (single .NumericalPulse i' d')).2 := ⟨_, rfl⟩
  have hk1 : Cls.NumericalPulse ∈ k := by
    rw [hk]
    simp only [text, single, Cls.isAcq, cachedSignature, cachedFor]
    by_cases hc : Cls.NumericalPulse ∈ printAll [] before <;> simp [hc]
  have hk2 : Cls.SimpleNumericalPulse ∉ k := by
    rw [hk]
    rcases text_cache (printAll [] before) (single .NumericalPulse i' d') with e | ⟨e, _⟩ <;> rw [e]
    · exact hs
    · simp [hs, single]
  have e : printAll [] (before ++ single .NumericalPulse i' d' :: between) = printAll k between := by
    simp [printAll, List.foldl_append, hk]
  obtain ⟨h1, h2⟩ := printAll_simple (l := between) hk1 hk2
  rw [e] at ht
  have hcf : cachedFor (printAll k between) .SimpleNumericalPulse = .NumericalPulse := by
    simp [cachedFor, h1, h2]
  have : (text (printAll k between) (single .SimpleNumericalPulse i d)).1 =
      signature .SimpleNumericalPulse ((params .NumericalPulse).map Prod.fst) i := by
    simp [text, single, Cls.isAcq, cachedSignature, hcf]
  rw [this, signature_ok _ (by
    obtain ⟨ys, _, rfl⟩ := simple_ok.mp hi
    simp [params, Dict.get?_cons])] at ht
  cases ht
  rintro o' ⟨kw'', hf, hc⟩
  have hmem : "t_samples" ∈ Dict.keys kw'' := by
    simp only [params, List.map_cons, List.map_nil] at hf
    cases hf with
    | cons _ hf =>
    cases hf with
    | cons hx hf =>
    simp only [Dict.keys, List.map_cons, ← hx.1]
    simp
  rw [wrong_arguments (.inl ⟨_, hmem, by simp [required], by simp [optional]⟩)] at hc
  cases hc

end Verif.Ops
