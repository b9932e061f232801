/-
Loops that may raise.
-/

namespace Verif.FoldM

theorem nil {ε σ β : Type} (f : σ → β → Except ε σ) (s : σ) :
    ([] : List β).foldlM f s = .ok s := rfl

theorem ok_cons {ε σ β : Type} (f : σ → β → Except ε σ) (s s' : σ) (b : β) (l : List β) :
    (b :: l).foldlM f s = .ok s' ↔ ∃ s1, f s b = .ok s1 ∧ l.foldlM f s1 = .ok s' := by
  rw [List.foldlM_cons]
  cases h : f s b with
  | error e => simp [bind, Except.bind]
  | ok s1 => simp [bind, Except.bind]

theorem error_cons {ε σ β : Type} (f : σ → β → Except ε σ) (s : σ) (b : β) (l : List β)
    (e : ε) (h : f s b = .error e) : (b :: l).foldlM f s = .error e := by
  rw [List.foldlM_cons, h]; rfl

theorem next {ε σ β : Type} (f : σ → β → Except ε σ) (s s1 : σ) (b : β) (l : List β)
    (h : f s b = .ok s1) : (b :: l).foldlM f s = l.foldlM f s1 := by
  rw [List.foldlM_cons, h]; rfl

/-- An invariant of the loop. -/
theorem invariant {ε σ β : Type} {f : σ → β → Except ε σ} (P : σ → Prop) : ∀ {l : List β} {s s' : σ},
    (∀ b ∈ l, ∀ a a', P a → f a b = .ok a' → P a') → P s → l.foldlM f s = .ok s' → P s'
  | [], s, s', _, hp, h => by
    simp only [nil, Except.ok.injEq] at h; subst h; exact hp
  | b :: l, s, s', hs, hp, h => by
    obtain ⟨s1, h1, h2⟩ := (ok_cons ..).mp h
    exact invariant P (fun x hx => hs x (List.mem_cons_of_mem _ hx))
      (hs b (List.mem_cons_self ..) s s1 hp h1) h2

/-- A loop whose steps never raise from states with the invariant does not raise. -/
theorem succeeds {ε σ β : Type} {f : σ → β → Except ε σ} (P : σ → Prop) : ∀ {l : List β} {s : σ},
    (∀ b ∈ l, ∀ a, P a → ∃ a', f a b = .ok a' ∧ P a') → P s → ∃ s', l.foldlM f s = .ok s' ∧ P s'
  | [], s, _, hp => ⟨s, rfl, hp⟩
  | b :: l, s, hs, hp => by
    obtain ⟨s1, h1, hp1⟩ := hs b (List.mem_cons_self ..) s hp
    obtain ⟨s', h2, hp2⟩ := succeeds P (fun x hx => hs x (List.mem_cons_of_mem _ hx)) hp1
    exact ⟨s', (ok_cons ..).mpr ⟨s1, h1, h2⟩, hp2⟩

/-- What one step establishes and every step keeps holds at the end. -/
theorem established {ε σ β : Type} {f : σ → β → Except ε σ} (P : σ → Prop) {b : β} : ∀ {l : List β}
    {s s' : σ}, b ∈ l → (∀ a a', f a b = .ok a' → P a') →
    (∀ x ∈ l, ∀ a a', P a → f a x = .ok a' → P a') → l.foldlM f s = .ok s' → P s'
  | x :: l, s, s', hb, he, hs, h => by
    obtain ⟨s1, h1, h2⟩ := (ok_cons ..).mp h
    rcases List.mem_cons.mp hb with rfl | hb
    · exact invariant P (fun x hx => hs x (List.mem_cons_of_mem _ hx)) (he s s1 h1) h2
    · exact established P hb he (fun x hx => hs x (List.mem_cons_of_mem _ hx)) h2

end Verif.FoldM
