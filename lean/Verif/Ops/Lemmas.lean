/-
Lemmas for C82 and C83: parameters and their documentation, values of arguments, entries.
-/
import Verif.Ops.Spec
import Mathlib.Tactic.Tauto
import Mathlib.Data.List.Perm.Basic
import Mathlib.Data.List.Forall2

set_option linter.unusedSimpArgs false
set_option linter.unusedVariables false

namespace Verif.Ops

theorem bind_ok {α β : Type} {x : Except Err α} {f : α → Except Err β} {b : β} :
    (x >>= f) = .ok b ↔ ∃ a, x = .ok a ∧ f a = .ok b := by
  cases x with
  | error e => simp [Bind.bind, Except.bind]
  | ok a => simp [Bind.bind, Except.bind]

/-! ### Parameters -/

/-- Equality of values that are not nested. -/
def flatEq : Val → Val → Bool
  | .none, .none => true
  | .num a, .num b => a == b
  | .str a, .str b => a == b
  | .enum a, .enum b => a == b
  | _, _ => false

theorem flatEq_eq {v w : Val} (h : flatEq v w = true) : v = w := by
  cases v <;> cases w <;> simp_all [flatEq]

/-- The check of `params_doc`. -/
def docCheck (c : Cls) (e : String × Option Val) : Bool :=
  match e.2 with
  | none => (required c).contains e.1 && !(optional c).contains e.1
  | some v => flatEq v (defaultOf c e.1) && (optional c).contains e.1 && !(required c).contains e.1

theorem params_check (c : Cls) : (params c).all (docCheck c) = true := by
  cases c <;> decide +kernel

theorem params_doc (c : Cls) : ∀ e ∈ params c,
    (e.2 = none ∧ e.1 ∈ required c ∧ e.1 ∉ optional c) ∨
    (e.2 = some (defaultOf c e.1) ∧ e.1 ∈ optional c ∧ e.1 ∉ required c) := by
  rintro ⟨p, d⟩ he
  have := List.all_eq_true.mp (params_check c) _ he
  unfold docCheck at this
  cases d with
  | none => left; simpa using this
  | some v =>
    right
    simp only [Bool.and_eq_true, List.contains_iff_mem, Bool.not_eq_true'] at this
    refine ⟨by rw [flatEq_eq this.1.1], this.1.2, by simpa using this.2⟩

theorem params_perm (c : Cls) : ((params c).map Prod.fst).Perm (required c ++ optional c) := by
  cases c <;> decide +kernel

theorem doc_nodup (c : Cls) : (required c ++ optional c).Nodup := by
  cases c <;> decide +kernel

theorem params_nodup (c : Cls) : (Dict.keys (params c)).Nodup :=
  (params_perm c).nodup_iff.mpr (doc_nodup c)

theorem mem_params (c : Cls) (p : String) :
    p ∈ (params c).map Prod.fst ↔ p ∈ required c ∨ p ∈ optional c := by
  rw [(params_perm c).mem_iff]; simp

theorem optional_default {c : Cls} {p : String} (h : p ∈ optional c) :
    Dict.get? (params c) p = some (some (defaultOf c p)) := by
  obtain ⟨e, he, rfl⟩ := List.mem_map.mp ((mem_params c p).mpr (.inr h))
  rcases params_doc c e he with ⟨_, _, h3⟩ | ⟨h1, _, _⟩
  · exact absurd h h3
  · rw [← h1]; exact Dict.get?_of_mem (params_nodup c) he

/-- The value that binding gives a parameter. -/
def argOf (c : Cls) (kw : List (String × Val)) (p : String) : Val :=
  (Dict.get? kw p).getD (((Dict.get? (params c) p).bind id).getD .none)

theorem bind_iff (c : Cls) (kw : List (String × Val)) (a : String → Val) :
    bind c kw = .ok a ↔ (∀ k ∈ Dict.keys kw, k ∈ required c ∨ k ∈ optional c) ∧
      (∀ p ∈ required c, p ∈ Dict.keys kw) ∧ a = argOf c kw := by
  have h1 : (kw.all (fun e => (params c).any (fun p => p.1 == e.1)) = true) ↔
      (∀ k ∈ Dict.keys kw, k ∈ required c ∨ k ∈ optional c) := by
    simp only [List.all_eq_true, List.any_eq_true, beq_iff_eq, Dict.keys, List.mem_map,
      ← mem_params]
    constructor
    · rintro h k ⟨e, he, rfl⟩
      exact h e he
    · intro h e he
      exact h e.1 ⟨e, he, rfl⟩
  have h2 : ((params c).all (fun p => p.2.isSome || (Dict.get? kw p.1).isSome) = true) ↔
      (∀ p ∈ required c, p ∈ Dict.keys kw) := by
    simp only [List.all_eq_true, Bool.or_eq_true, Dict.get?_isSome_iff]
    constructor
    · intro h p hp
      obtain ⟨e, he, rfl⟩ := List.mem_map.mp ((mem_params c p).mpr (.inl hp))
      rcases params_doc c e he with ⟨g1, _, _⟩ | ⟨_, _, g3⟩
      · exact (h e he).resolve_left (by simp [g1])
      · exact absurd hp g3
    · intro h e he
      rcases params_doc c e he with ⟨_, g2, _⟩ | ⟨g1, _, _⟩
      · exact .inr (h _ g2)
      · exact .inl (by simp [g1])
  unfold bind
  by_cases a1 : kw.all (fun e => (params c).any (fun p => p.1 == e.1)) = true
  · rw [if_pos a1]
    by_cases a2 : (params c).all (fun p => p.2.isSome || (Dict.get? kw p.1).isSome) = true
    · rw [if_pos a2]
      simp only [Except.ok.injEq]
      exact ⟨fun h => ⟨h1.mp a1, h2.mp a2, h ▸ rfl⟩, fun h => h.2.2 ▸ rfl⟩
    · rw [if_neg a2]
      exact ⟨nofun, fun h => absurd (h2.mpr h.2.1) a2⟩
  · rw [if_neg a1]
    exact ⟨nofun, fun h => absurd (h1.mpr h.1) a1⟩

theorem given_arg {c : Cls} {kw : List (String × Val)} {p : String} {v : Val} (h : Given c kw p v) :
    argOf c kw p = v := by
  rcases h with ⟨_, h | ⟨h1, h2, rfl⟩⟩
  · simp [argOf, h]
  · simp [argOf, h1, optional_default h2]

theorem arg_given {c : Cls} {kw : List (String × Val)} (h : ∀ p ∈ required c, p ∈ Dict.keys kw)
    {p : String} (hp : p ∈ required c ∨ p ∈ optional c) : Given c kw p (argOf c kw p) := by
  refine ⟨hp, ?_⟩
  cases hk : Dict.get? kw p with
  | some v => left; simp [argOf, hk]
  | none =>
    right
    have : p ∈ optional c := by
      rcases hp with hp | hp
      · have := (Dict.get?_isSome_iff kw p).mpr (h p hp)
        simp [hk] at this
      · exact hp
    exact ⟨rfl, this, by simp [argOf, hk, optional_default this]⟩

theorem args_eq {c : Cls} {kw : List (String × Val)} (h : ∀ p ∈ required c, p ∈ Dict.keys kw)
    {g : String → Val} (hg : Args c kw g) {p : String} (hp : p ∈ required c ∨ p ∈ optional c) :
    g p = argOf c kw p := hg p _ (arg_given h hp)

/-! ### Values -/

theorem asNum_ok {v : Val} {q : Rat} : asNum v = .ok q ↔ v = .num q := by
  cases v <;> simp [asNum]

theorem asList_ok {v : Val} {l : List Val} : asList v = .ok l ↔ Sequence v l := by
  cases v <;> simp [asList, Sequence]

theorem eqText_iff {s : String} {v : Val} : eqText s v = true ↔ IsText s v := by
  cases v <;> simp [eqText, IsText]

theorem neZero_iff {v : Val} : neZero v = false ↔ Zero v := by
  cases v <;> simp [neZero, Zero]

theorem isNone_iff {v : Val} : isNone v = true ↔ v = .none := by
  cases v <;> simp [isNone]

theorem asEnum_iff {l : List String} {v w : Val} : asEnum l v = .ok w ↔
    (∃ s, (v = .str s ∨ v = .enum s) ∧ s ∈ l ∧ w = .enum s) ∨
    ((∀ s, v ≠ .str s ∧ v ≠ .enum s) ∧ w = v) := by
  have key : ∀ s : String, (if l.contains s then (Except.ok (Val.enum s) : Except Err Val)
      else .error .valueError) = .ok w ↔ s ∈ l ∧ w = .enum s := by
    intro s
    by_cases h : s ∈ l
    · simp [h, eq_comm]
    · simp [h]
  cases v <;> simp only [asEnum, key] <;> simp [eq_comm]

theorem asEnum_ok {l : List String} {v w : Val} (h : asEnum l v = .ok w) : OneOf l v ∧ Same w v := by
  rcases asEnum_iff.mp h with ⟨s, hv, hs, rfl⟩ | ⟨hv, rfl⟩
  · rcases hv with rfl | rfl
    · exact ⟨by intro t ht; simp at ht; exact ht ▸ hs, by simp [Same, norm]⟩
    · exact ⟨by intro t ht; simp at ht; exact ht ▸ hs, rfl⟩
  · refine ⟨?_, rfl⟩
    intro t ht
    rcases ht with ht | ht
    · exact absurd ht (hv t).1
    · exact absurd ht (hv t).2

theorem asEnum_of {l : List String} {v : Val} (h : OneOf l v) : ∃ w, asEnum l v = .ok w := by
  cases v
  case str s => exact ⟨.enum s, asEnum_iff.mpr (.inl ⟨s, .inl rfl, h s (.inl rfl), rfl⟩)⟩
  case enum s => exact ⟨.enum s, asEnum_iff.mpr (.inl ⟨s, .inr rfl, h s (.inr rfl), rfl⟩)⟩
  all_goals exact ⟨_, rfl⟩

theorem asEnum_text {l : List String} {v w : Val} (h : asEnum l v = .ok w) (s : String) :
    IsText s w ↔ IsText s v := by
  rcases asEnum_iff.mp h with ⟨t, hv, hs, rfl⟩ | ⟨hv, rfl⟩
  · rcases hv with rfl | rfl <;> simp [IsText]
  · rfl

theorem Same.refl (v : Val) : Same v v := rfl

end Verif.Ops
