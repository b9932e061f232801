/-
Lemmas about nested dictionaries and about loops that distribute settings.
-/
import Verif.Instruments.Spec
import Mathlib.Data.List.Nodup
import Mathlib.Data.List.Forall2

set_option linter.unusedVariables false
set_option linter.unusedSimpArgs false

namespace Verif.Instruments

open Verif.Connect (Path ModType)
open Spec

theorem bind_ok {ε α β : Type} {x : Except ε α} {f : α → Except ε β} {b : β} :
    x.bind f = .ok b ↔ ∃ a, x = .ok a ∧ f a = .ok b := by
  cases x <;> simp [Except.bind]

theorem map_ok {ε α β : Type} {x : Except ε α} {f : α → β} {b : β} :
    x.map f = .ok b ↔ ∃ a, x = .ok a ∧ f a = b := by
  cases x <;> simp [Except.map]

/-! ### Dictionaries -/

section dict

variable {A B V : Type} [DecidableEq A] [DecidableEq B]

/-- `d[a][b]`. -/
def get2 (d : List (A × List (B × V))) (a : A) (b : B) : Option V := (Dict.get? d a).bind fun l => Dict.get? l b

theorem get2_set2 (d : List (A × List (B × V))) (a a' : A) (b b' : B) (v : V) :
    get2 (set2 d a b v) a' b' = if a' = a ∧ b' = b then some v else get2 d a' b' := by
  unfold get2 set2
  rw [Dict.get?_set]
  by_cases ha : a' = a
  · subst ha
    simp only [if_true, Option.bind_some, true_and, Dict.get?_set]
    by_cases hb : b' = b
    · simp [hb]
    · simp only [hb, if_false]
      cases Dict.get? d a' <;> simp [Dict.get?_nil]
  · simp [ha]

/-- Keys do not repeat. -/
def Neat (d : List (A × List (B × V))) : Prop := (Dict.keys d).Nodup ∧ ∀ e ∈ d, (Dict.keys e.2).Nodup

theorem neat_set2 {d : List (A × List (B × V))} (h : Neat d) (a : A) (b : B) (v : V) : Neat (set2 d a b v) := by
  refine ⟨Dict.keys_set_nodup h.1 _ _, fun e he => ?_⟩
  have hk := Dict.get?_of_mem (Dict.keys_set_nodup h.1 _ _) (show (e.1, e.2) ∈ set2 d a b v from he)
  rw [Dict.get?_set] at hk
  split at hk
  · simp only [Option.some.injEq] at hk
    rw [← hk]
    apply Dict.keys_set_nodup
    cases hg : Dict.get? d a with
    | none => simp [Dict.keys]
    | some l => exact h.2 _ (Dict.mem_of_get? hg)
  · exact h.2 _ (Dict.mem_of_get? hk)

theorem neat_nil : Neat ([] : List (A × List (B × V))) := ⟨by simp [Dict.keys], by simp⟩

/-- All of a list are written. -/
def setAll (d : List (A × List (B × V))) (l : List (A × B × V)) : List (A × List (B × V)) :=
  l.foldl (fun d t => set2 d t.1 t.2.1 t.2.2) d

theorem neat_setAll : ∀ (l : List (A × B × V)) {d : List (A × List (B × V))}, Neat d → Neat (setAll d l)
  | [], _, h => h
  | t :: l, _, h => neat_setAll l (neat_set2 h _ _ _)

theorem get2_setAll : ∀ (l : List (A × B × V)) (d : List (A × List (B × V)))
    (hf : ∀ a b v v', (a, b, v) ∈ l → (a, b, v') ∈ l → v = v') (a : A) (b : B) (v : V),
    get2 (setAll d l) a b = some v ↔ (a, b, v) ∈ l ∨ (∀ v', (a, b, v') ∉ l) ∧ get2 d a b = some v
  | [], d, _, a, b, v => by simp [setAll]
  | (a0, b0, v0) :: l, d, hf, a, b, v => by
    have ih := get2_setAll l (set2 d a0 b0 v0)
      (fun a b v v' h h' => hf a b v v' (List.mem_cons_of_mem _ h) (List.mem_cons_of_mem _ h')) a b v
    rw [show setAll d ((a0, b0, v0) :: l) = setAll (set2 d a0 b0 v0) l from rfl, ih, get2_set2]
    by_cases hk : a = a0 ∧ b = b0
    · obtain ⟨rfl, rfl⟩ := hk
      constructor
      · rintro (h | ⟨h1, h2⟩)
        · exact .inl (List.mem_cons_of_mem _ h)
        · simp only [and_self, if_true, Option.some.injEq] at h2
          subst h2
          exact .inl (by simp)
      · rintro (h | ⟨h1, h2⟩)
        · have := hf a b v v0 h (by simp)
          subst this
          by_cases hl : ∃ v', (a, b, v') ∈ l
          · obtain ⟨v', hl⟩ := hl
            have := hf a b v v' h (List.mem_cons_of_mem _ hl)
            subst this
            exact .inl hl
          · exact .inr ⟨fun v' hv => hl ⟨v', hv⟩, by simp⟩
        · exact absurd (List.mem_cons_self ..) (h1 v0)
    · rw [if_neg hk]
      have h0 : ∀ v', (a, b, v') ∈ (a0, b0, v0) :: l ↔ (a, b, v') ∈ l := by
        intro v'
        rw [List.mem_cons]
        constructor
        · rintro (h | h)
          · simp only [Prod.mk.injEq] at h
            exact absurd ⟨h.1, h.2.1⟩ hk
          · exact h
        · exact .inr
      simp only [h0]

/-- The same for plain dictionaries. -/
def setEach (d : List (A × V)) (l : List (A × V)) : List (A × V) := l.foldl (fun d t => Dict.set d t.1 t.2) d

theorem get_setEach : ∀ (l : List (A × V)) (d : List (A × V)) (hf : ∀ a v v', (a, v) ∈ l → (a, v') ∈ l → v = v')
    (a : A) (v : V), Dict.get? (setEach d l) a = some v ↔ (a, v) ∈ l ∨ (∀ v', (a, v') ∉ l) ∧ Dict.get? d a = some v
  | [], d, _, a, v => by simp [setEach]
  | (a0, v0) :: l, d, hf, a, v => by
    have ih := get_setEach l (Dict.set d a0 v0)
      (fun a v v' h h' => hf a v v' (List.mem_cons_of_mem _ h) (List.mem_cons_of_mem _ h')) a v
    rw [show setEach d ((a0, v0) :: l) = setEach (Dict.set d a0 v0) l from rfl, ih, Dict.get?_set]
    by_cases hk : a = a0
    · subst hk
      constructor
      · rintro (h | ⟨h1, h2⟩)
        · exact .inl (List.mem_cons_of_mem _ h)
        · simp only [if_true, Option.some.injEq] at h2
          subst h2
          exact .inl (by simp)
      · rintro (h | ⟨h1, h2⟩)
        · have := hf a v v0 h (by simp)
          subst this
          by_cases hl : ∃ v', (a, v') ∈ l
          · obtain ⟨v', hl⟩ := hl
            have := hf a v v' h (List.mem_cons_of_mem _ hl)
            subst this
            exact .inl hl
          · exact .inr ⟨fun v' hv => hl ⟨v', hv⟩, by simp⟩
        · exact absurd (List.mem_cons_self ..) (h1 v0)
    · rw [if_neg hk]
      have h0 : ∀ v', (a, v') ∈ (a0, v0) :: l ↔ (a, v') ∈ l := by
        intro v'
        rw [List.mem_cons]
        constructor
        · rintro (h | h)
          · simp only [Prod.mk.injEq] at h
            exact absurd h.1 hk
          · exact h
        · exact .inr
      simp only [h0]

theorem unique_of_nodup {d : List (A × V)} (h : (Dict.keys d).Nodup) {a : A} {v v' : V} (h1 : (a, v) ∈ d)
    (h2 : (a, v') ∈ d) : v = v' := by
  have := (Dict.get?_of_mem h h1).symm.trans (Dict.get?_of_mem h h2)
  simpa using this

theorem get_iff {d : List (A × V)} (h : (Dict.keys d).Nodup) {a : A} {v : V} : Dict.get? d a = some v ↔ (a, v) ∈ d :=
  ⟨Dict.mem_of_get?, Dict.get?_of_mem h⟩

end dict

/-! ### Distributing -/

section route

variable {M β : Type}

/-- A loop that gives each element to the entry with its key. -/
def route (key : β → Option Nat) (f : M → β → M) (mods : List (Nat × M)) (e : β) : Except Err (List (Nat × M)) :=
  match key e with
  | none => .error .keyError
  | some i =>
    match Dict.get? mods i with
    | none => .error .keyError
    | some m => .ok (Dict.set mods i (f m e))

theorem keys_set_same {d : List (Nat × M)} {k : Nat} {v : M} (h : k ∈ Dict.keys d) :
    Dict.keys (Dict.set d k v) = Dict.keys d := by
  rw [Dict.keys_set]
  simp [h]

theorem route_ok (key : β → Option Nat) (f : M → β → M) : ∀ (l : List β) (mods mods' : List (Nat × M)),
    l.foldlM (route key f) mods = .ok mods' → Dict.keys mods' = Dict.keys mods ∧
      (∀ e ∈ l, ∃ i ∈ Dict.keys mods, key e = some i) ∧
      ∀ i, Dict.get? mods' i =
        (Dict.get? mods i).map fun m => (l.filter fun e => decide (key e = some i)).foldl f m
  | [], mods, mods', h => by
    simp only [FoldM.nil, Except.ok.injEq] at h
    subst h
    refine ⟨rfl, by simp, fun i => ?_⟩
    simp
  | e :: l, mods, mods', h => by
    obtain ⟨m1, h1, h2⟩ := (FoldM.ok_cons ..).mp h
    obtain ⟨i1, i2, i3⟩ := route_ok key f l m1 mods' h2
    unfold route at h1
    cases hk : key e with
    | none => simp [hk] at h1
    | some i =>
      cases hg : Dict.get? mods i with
      | none => simp [hk, hg] at h1
      | some m =>
        simp only [hk, hg, Except.ok.injEq] at h1
        subst h1
        have hmem : i ∈ Dict.keys mods := (Dict.get?_isSome_iff _ _).mp (by rw [hg]; rfl)
        rw [keys_set_same hmem] at i1 i2
        refine ⟨i1, ?_, fun j => ?_⟩
        · intro x hx
          rcases List.mem_cons.mp hx with rfl | hx
          · exact ⟨i, hmem, hk⟩
          · exact i2 x hx
        · rw [i3 j, Dict.get?_set]
          by_cases hj : j = i
          · subst hj
            simp [hk, hg, List.filter_cons]
          · have : ¬ (i = j) := fun h => hj h.symm
            simp [hj, hk, this, List.filter_cons]

theorem route_succeeds (key : β → Option Nat) (f : M → β → M) : ∀ (l : List β) (mods : List (Nat × M)),
    (∀ e ∈ l, ∃ i ∈ Dict.keys mods, key e = some i) → ∃ mods', l.foldlM (route key f) mods = .ok mods'
  | [], mods, _ => ⟨mods, rfl⟩
  | e :: l, mods, h => by
    obtain ⟨i, hi, hk⟩ := h e (by simp)
    obtain ⟨m, hm⟩ := Option.isSome_iff_exists.mp ((Dict.get?_isSome_iff _ _).mpr hi)
    obtain ⟨mods', h'⟩ := route_succeeds key f l (Dict.set mods i (f m e)) (fun x hx => by
      rw [keys_set_same hi]
      exact h x (List.mem_cons_of_mem _ hx))
    refine ⟨mods', (FoldM.ok_cons ..).mpr ⟨_, ?_, h'⟩⟩
    simp [route, hk, hm]

end route

theorem mapM_ok {α β : Type} (f : α → Except Err β) : ∀ (l : List α) (r : List β),
    l.mapM f = .ok r ↔ List.Forall₂ (fun a b => f a = .ok b) l r
  | [], r => by
    constructor
    · intro h
      have : r = [] := by simpa [pure, Except.pure] using h.symm
      subst this; exact .nil
    · intro h; cases h; rfl
  | a :: l, r => by
    rw [List.mapM_cons]
    constructor
    · intro h
      obtain ⟨b, hb, h⟩ := bind_ok.mp h
      obtain ⟨bs, hbs, h⟩ := bind_ok.mp h
      have : r = b :: bs := by simpa [pure, Except.pure] using h.symm
      subst this
      exact .cons hb ((mapM_ok f l bs).mp hbs)
    · intro h
      cases h with
      | cons hb hbs => exact bind_ok.mpr ⟨_, hb, bind_ok.mpr ⟨_, (mapM_ok f l _).mpr hbs, rfl⟩⟩

theorem forM_ok {α : Type} (f : α → Except Err Unit) : ∀ (l : List α),
    l.forM f = .ok () ↔ ∀ a ∈ l, f a = .ok ()
  | [] => by simp [List.forM, pure, Except.pure]
  | a :: l => by
    rw [show (a :: l).forM f = (f a).bind fun _ => l.forM f from rfl]
    constructor
    · intro h
      obtain ⟨⟨⟩, h1, h2⟩ := bind_ok.mp h
      intro x hx
      rcases List.mem_cons.mp hx with rfl | hx
      · exact h1
      · exact (forM_ok f l).mp h2 x hx
    · intro h
      exact bind_ok.mpr ⟨(), h a (by simp), (forM_ok f l).mpr fun x hx => h x (List.mem_cons_of_mem _ hx)⟩

end Verif.Instruments
