/-
C44: clocks.
-/
import Verif.Circuit.ClockSpec
import Verif.Circuit.Props

set_option linter.unusedSimpArgs false
set_option linter.unusedVariables false

namespace Verif.Circuit

open Verif

variable {P U C : Type}

/-! ### Definitions of frequencies -/

/-- Adding definitions one by one. -/
def addAll : List (String × Freq) → List (String × Freq) → Except Err (List (String × Freq))
  | [], all => .ok all
  | (c, f) :: l, all =>
    match Dict.get? all c with
    | none => addAll l (Dict.set all c f)
    | some f' => if freqNe f f' then .error .valueError else addAll l (Dict.set all c f)

theorem addFreqs_eq (rs : List (String × Option Freq)) : ∀ all, addFreqs rs all = addAll (withFreq rs) all := by
  induction rs with
  | nil => intro all; rfl
  | cons e rs ih =>
    intro all
    obtain ⟨c, f⟩ := e
    cases f with
    | none => simp only [addFreqs]; rw [ih]; rfl
    | some f =>
      have : withFreq ((c, some f) :: rs) = (c, f) :: withFreq rs := rfl
      rw [this]
      simp only [addFreqs, addAll, ih]
      cases Dict.get? all c <;> rfl

theorem addAll_append (l m : List (String × Freq)) : ∀ all, addAll (l ++ m) all = (do
    let all ← addAll l all
    addAll m all) := by
  induction l with
  | nil => intro all; rfl
  | cons e l ih =>
    intro all
    obtain ⟨c, f⟩ := e
    simp only [List.cons_append, addAll]
    cases h : Dict.get? all c with
    | none => simp only [ih]
    | some f' =>
      simp only
      by_cases hne : freqNe f f' = true
      · simp [hne, bind, Except.bind]
      · simp only [hne, ih]; rfl

mutual
theorem extract_eq : ∀ (op : Op P U C) all, extract op all = addAll (defs op) all
  | .sched d items, all => by
    simp only [extract, defs]
    rw [addAll_append, extractItems_eq items all]
    congr 1; funext all; exact addFreqs_eq _ _
  | .ctrl _ body, all => by simp only [extract, defs]; exact extract_eq body all
  | .leaf _ _ _, all => rfl
  | .asm _ _, all => rfl
  | .comp _ _, all => rfl
theorem extractItems_eq : ∀ (items : List (Op P U C × Tc U)) all, extractItems items all = addAll (defsItems items) all
  | [], all => rfl
  | (op, tc) :: items, all => by
    simp only [extractItems, defsItems]
    rw [addAll_append, extract_eq op all]
    congr 1; funext all; exact extractItems_eq items all
end

theorem freqNe_false {f f' : Freq} : freqNe f f' = false ↔ ∃ r : Rat, f = some r ∧ f' = some r := by
  cases f with
  | none => simp [freqNe]
  | some x =>
    cases f' with
    | none => simp [freqNe]
    | some y =>
      simp only [freqNe, decide_eq_false_iff_not, ne_eq, not_not, Option.some.injEq]
      constructor
      · rintro rfl; exact ⟨x, rfl, rfl⟩
      · rintro ⟨r, rfl, rfl⟩; rfl

/-- Adding definitions succeeds exactly if they are consistent with each other and with those before. -/
theorem addAll_ok (l : List (String × Freq)) : ∀ all,
    (∃ r, addAll l all = .ok r) ↔ Consistent l ∧
      ∀ c f f', (c, f) ∈ l → Dict.get? all c = some f' → ∃ r : Rat, f = some r ∧ f' = some r := by
  induction l with
  | nil => intro all; simp [addAll, Consistent]
  | cons e l ih =>
    intro all
    obtain ⟨c, f⟩ := e
    have hcons : Consistent ((c, f) :: l) ↔ (∀ y ∈ l, c = y.1 → ∃ r : Rat, f = some r ∧ y.2 = some r) ∧ Consistent l := by
      unfold Consistent; rw [List.pairwise_cons]
    have step : (∃ r, addAll l (Dict.set all c f) = .ok r) ↔ Consistent l ∧
        (∀ y ∈ l, c = y.1 → ∃ r : Rat, f = some r ∧ y.2 = some r) ∧
        (∀ c' g g', (c', g) ∈ l → c' ≠ c → Dict.get? all c' = some g' → ∃ r : Rat, g = some r ∧ g' = some r) := by
      rw [ih]
      constructor
      · rintro ⟨h1, h2⟩
        refine ⟨h1, ?_, ?_⟩
        · rintro ⟨c', g⟩ hy rfl
          obtain ⟨r, hr1, hr2⟩ := h2 _ g f hy (by rw [Dict.get?_set]; simp)
          exact ⟨r, hr2, hr1⟩
        · intro c' g g' hm hne hg
          exact h2 c' g g' hm (by rw [Dict.get?_set, if_neg hne]; exact hg)
      · rintro ⟨h1, h2, h3⟩
        refine ⟨h1, ?_⟩
        intro c' g g' hm hg
        rw [Dict.get?_set] at hg
        by_cases hc : c' = c
        · subst hc
          simp only [if_true, Option.some.injEq] at hg
          subst hg
          obtain ⟨r, hr1, hr2⟩ := h2 _ hm rfl
          exact ⟨r, hr2, hr1⟩
        · rw [if_neg hc] at hg
          exact h3 c' g g' hm hc hg
    cases h : Dict.get? all c with
    | none =>
      simp only [addAll, h]
      rw [step, hcons]
      constructor
      · rintro ⟨h1, h2, h3⟩
        refine ⟨⟨h2, h1⟩, ?_⟩
        intro c' g g' hm hg
        rcases List.mem_cons.mp hm with hm | hm
        · cases hm; rw [h] at hg; cases hg
        · exact h3 c' g g' hm (by rintro rfl; rw [h] at hg; cases hg) hg
      · rintro ⟨⟨h2, h1⟩, h3⟩
        exact ⟨h1, h2, fun c' g g' hm _ hg => h3 c' g g' (by simp [hm]) hg⟩
    | some f' =>
      simp only [addAll, h]
      by_cases hne : freqNe f f' = true
      · simp only [hne, if_true]
        constructor
        · rintro ⟨r, hr⟩; cases hr
        · rintro ⟨-, h3⟩
          have := freqNe_false.mpr (h3 c f f' (by simp) h)
          rw [hne] at this; cases this
      · have hff := freqNe_false.mp (Bool.not_eq_true _ ▸ hne)
        rw [if_neg hne, step, hcons]
        constructor
        · rintro ⟨h1, h2, h3⟩
          refine ⟨⟨h2, h1⟩, ?_⟩
          intro c' g g' hm hg
          rcases List.mem_cons.mp hm with hm | hm2
          · cases hm; rw [h] at hg; cases hg; exact hff
          · by_cases hc : c' = c
            · subst hc
              rw [h] at hg; cases hg
              obtain ⟨r, hr1, hr2⟩ := h2 (c', g) hm2 rfl
              obtain ⟨r', hr1', hr2'⟩ := hff
              rw [hr1] at hr1'
              cases hr1'
              exact ⟨r, hr2, hr2'⟩
            · exact h3 c' g g' hm2 hc hg
        · rintro ⟨⟨h2, h1⟩, h3⟩
          exact ⟨h1, h2, fun c' g g' hm _ hg => h3 c' g g' (by simp [hm]) hg⟩

theorem addAll_get (l : List (String × Freq)) : ∀ all r, addAll l all = .ok r →
    ∀ c, Dict.get? r c = (Dict.get? all c).or (Dict.get? l c) := by
  induction l with
  | nil => intro all r h c; cases h; simp [Dict.get?_nil]
  | cons e l ih =>
    intro all r h c
    obtain ⟨k, f⟩ := e
    rw [Dict.get?_cons]
    cases hk : Dict.get? all k with
    | none =>
      simp only [addAll, hk] at h
      rw [ih _ _ h, Dict.get?_set]
      by_cases hc : c = k
      · subst hc; simp [hk]
      · simp [hc, Ne.symm hc]
    | some f' =>
      simp only [addAll, hk] at h
      by_cases hne : freqNe f f' = true
      · rw [if_pos hne] at h; cases h
      · obtain ⟨r', hr1, hr2⟩ := freqNe_false.mp (Bool.not_eq_true _ ▸ hne)
        rw [if_neg hne] at h
        rw [ih _ _ h, Dict.get?_set]
        by_cases hc : c = k
        · subst hc; simp [hk, hr1, hr2]
        · simp [hc, Ne.symm hc]

theorem addDevice_get (cs : List (String × Freq)) : ∀ all c,
    Dict.get? (addDevice cs all) c = (Dict.get? all c).or (Dict.get? cs c) := by
  induction cs with
  | nil => intro all c; simp [addDevice, Dict.get?_nil]
  | cons e cs ih =>
    intro all c
    obtain ⟨k, f⟩ := e
    simp only [addDevice]
    rw [ih, Dict.get?_cons]
    by_cases hs : (Dict.get? all k).isSome
    · rw [if_pos hs]
      by_cases hc : k = c
      · subst hc
        obtain ⟨v, hv⟩ := Option.isSome_iff_exists.mp hs
        simp [hv]
      · simp [hc]
    · rw [if_neg hs, Dict.get?_set]
      have hs : Dict.get? all k = none := by simpa using hs
      by_cases hc : k = c
      · subst hc; simp [hs]
      · simp [hc, Ne.symm hc]

/-! ### Assigning clocks -/

theorem extended_refl (F : String → Option Freq) (res : List (String × Option Freq)) :
    Extended F (fun _ => False) res res := ⟨[], by simp, by simp [Dict.keys], by simp, by simp⟩

theorem keys_append {K V : Type} (a b : List (K × V)) : Dict.keys (a ++ b) = Dict.keys a ++ Dict.keys b := by
  simp [Dict.keys]

theorem extended_trans {F : String → Option Freq} {u v : String → Prop} {a b c : List (String × Option Freq)}
    (h : Extended F u a b) (h' : Extended F v b c) : Extended F (fun x => u x ∨ v x) a c := by
  obtain ⟨x, rfl, hn, hx, hu⟩ := h
  obtain ⟨y, rfl, hn', hy, hv⟩ := h'
  refine ⟨x ++ y, by simp, ?_, ?_, ?_⟩
  · rw [keys_append, List.nodup_append]
    refine ⟨hn, hn', ?_⟩
    rintro k hk k' hk' rfl
    obtain ⟨e, he, hek⟩ := List.mem_map.mp hk'
    have := (hy e.1 e.2 he).1
    rw [hek, keys_append, List.mem_append] at this
    exact this (Or.inr hk)
  · intro k w hk
    rcases List.mem_append.mp hk with hk | hk
    · obtain ⟨a1, a2, a3⟩ := hx k w hk
      exact ⟨a1, Or.inl a2, a3⟩
    · obtain ⟨a1, a2, a3⟩ := hy k w hk
      rw [keys_append, List.mem_append, not_or] at a1
      exact ⟨a1.1, Or.inr a2, a3⟩
  · rintro k (hk | hk)
    · have := hu k hk
      rw [keys_append, List.mem_append] at this ⊢
      exact Or.inl (by rw [keys_append, List.mem_append]; exact this)
    · have := hv k hk
      simpa using this

theorem extended_congr {F : String → Option Freq} {u v : String → Prop} {a b : List (String × Option Freq)}
    (h : Extended F u a b) (huv : ∀ c, u c ↔ v c) : Extended F v a b := by
  have : u = v := funext fun c => propext (huv c)
  rw [← this]; exact h

/-- What is needed for the clocks of an operation. -/
def Avail (F : String → Option Freq) (used : String → Prop) (res : List (String × Option Freq)) : Prop :=
  ∀ c, used c → c ∈ Dict.keys res ∨ ∃ f : Rat, F c = some (some f)

theorem oneClock_ok (all : List (String × Freq)) (c : String) (st st' : List (String × Option Freq) × List String)
    (hinv : ∀ k ∈ st.2, k ∈ Dict.keys st.1) (h : oneClock all c st = .ok st') :
    Extended (Dict.get? all) (fun x => x = c) st.1 st'.1 ∧ (∀ k ∈ st'.2, k ∈ Dict.keys st'.1) := by
  unfold oneClock at h
  by_cases h1 : c ∈ st.2
  · rw [if_pos h1] at h
    cases h
    refine ⟨⟨[], by simp, by simp [Dict.keys], by simp, ?_⟩, hinv⟩
    rintro x rfl; exact hinv _ h1
  · rw [if_neg h1] at h
    by_cases h2 : (Dict.get? st.1 c).isSome
    · rw [if_pos h2] at h
      cases h
      rw [Dict.get?_isSome_iff] at h2
      refine ⟨⟨[], by simp, by simp [Dict.keys], by simp, ?_⟩, ?_⟩
      · rintro x rfl; exact h2
      · intro k hk
        rcases List.mem_append.mp hk with hk | hk
        · exact hinv k hk
        · simp only [List.mem_singleton] at hk; subst hk; exact h2
    · rw [if_neg h2] at h
      rw [Dict.get?_isSome_iff] at h2
      cases hf : Dict.get? all c with
      | none => simp [hf] at h
      | some f =>
        cases f with
        | none => simp [hf] at h
        | some f =>
          simp only [hf] at h
          cases h
          have hset : Dict.set st.1 c (some (some f)) = st.1 ++ [(c, some (some f))] := by
            unfold Dict.set
            rw [if_neg (fun x => h2 ((Dict.any_iff _ _).mp x))]
          simp only [hset]
          refine ⟨⟨[(c, some (some f))], rfl, by simp [Dict.keys], ?_, ?_⟩, ?_⟩
          · intro k v hk
            simp only [List.mem_singleton, Prod.mk.injEq] at hk
            obtain ⟨rfl, rfl⟩ := hk
            exact ⟨h2, rfl, f, hf, rfl⟩
          · rintro x rfl; simp [keys_append, Dict.keys]
          · intro k hk
            rw [keys_append, List.mem_append]
            rcases List.mem_append.mp hk with hk | hk
            · exact Or.inl (hinv k hk)
            · right; simpa [Dict.keys] using hk

theorem oneClock_total (all : List (String × Freq)) (c : String) (st : List (String × Option Freq) × List String)
    (h : c ∈ Dict.keys st.1 ∨ ∃ f : Rat, Dict.get? all c = some (some f)) : ∃ st', oneClock all c st = .ok st' := by
  unfold oneClock
  by_cases h1 : c ∈ st.2
  · rw [if_pos h1]; exact ⟨_, rfl⟩
  · rw [if_neg h1]
    by_cases h2 : (Dict.get? st.1 c).isSome
    · rw [if_pos h2]; exact ⟨_, rfl⟩
    · rw [if_neg h2]
      rw [Dict.get?_isSome_iff] at h2
      obtain ⟨f, hf⟩ := h.resolve_left h2
      simp [hf]

theorem clockLoop_ok (all : List (String × Freq)) (cs : List String) :
    ∀ (st st' : List (String × Option Freq) × List String), (∀ k ∈ st.2, k ∈ Dict.keys st.1) →
    clockLoop all cs st = .ok st' →
    Extended (Dict.get? all) (fun x => x ∈ cs) st.1 st'.1 ∧ (∀ k ∈ st'.2, k ∈ Dict.keys st'.1) := by
  induction cs with
  | nil =>
    intro st st' hinv h
    cases h
    exact ⟨extended_congr (extended_refl _ _) (by simp), hinv⟩
  | cons c cs ih =>
    intro st st' hinv h
    obtain ⟨s1, h1, h⟩ := bind_ok.mp h
    obtain ⟨e1, i1⟩ := oneClock_ok all c st s1 hinv h1
    obtain ⟨e2, i2⟩ := ih s1 st' i1 h
    exact ⟨extended_congr (extended_trans e1 e2) (by simp), i2⟩

theorem avail_mono {F : String → Option Freq} {u : String → Prop} {a b : List (String × Option Freq)}
    (h : Avail F u a) {v : String → Prop} (he : Extended F v a b) : Avail F u b := by
  intro c hc
  obtain ⟨x, rfl, -⟩ := he
  rcases h c hc with h | h
  · left; rw [keys_append]; exact List.mem_append_left _ h
  · exact Or.inr h

theorem clockLoop_total (all : List (String × Freq)) (cs : List String) :
    ∀ (st : List (String × Option Freq) × List String), (∀ k ∈ st.2, k ∈ Dict.keys st.1) →
    Avail (Dict.get? all) (fun x => x ∈ cs) st.1 → ∃ st', clockLoop all cs st = .ok st' := by
  induction cs with
  | nil => intro st _ _; exact ⟨st, rfl⟩
  | cons c cs ih =>
    intro st hinv h
    obtain ⟨s1, h1⟩ := oneClock_total all c st (h c (by simp))
    obtain ⟨e1, i1⟩ := oneClock_ok all c st s1 hinv h1
    obtain ⟨s2, h2⟩ := ih s1 i1 (avail_mono (fun x hx => h x (by simp [hx])) e1)
    exact ⟨s2, bind_ok.mpr ⟨s1, h1, h2⟩⟩

theorem extended_avail {F : String → Option Freq} {u : String → Prop} {a b : List (String × Option Freq)}
    (h : Extended F u a b) : Avail F u a := by
  obtain ⟨x, rfl, -, hx, hu⟩ := h
  intro c hc
  have := hu c hc
  rw [keys_append, List.mem_append] at this
  rcases this with h | h
  · exact Or.inl h
  · obtain ⟨e, he, rfl⟩ := List.mem_map.mp h
    obtain ⟨-, -, f, hf, -⟩ := hx e.1 e.2 he
    exact Or.inr ⟨f, hf⟩

theorem uses_leaf (clock : P → String) (g : Option Gate) (p a : List P) (c : String) :
    Uses clock (.leaf g p a : Op P U C) c ↔ c ∈ ((p ++ a).map clock).dedup := by
  rw [List.mem_dedup, List.mem_map]
  constructor
  · intro h
    cases h with
    | pulse h => exact ⟨_, by simp [h], rfl⟩
    | acq h => exact ⟨_, by simp [h], rfl⟩
  · rintro ⟨x, hx, rfl⟩
    rcases List.mem_append.mp hx with h | h
    · exact .pulse h
    · exact .acq h

theorem usesIn_cons (clock : P → String) (op : Op P U C) (tc : Tc U) (items : List (Op P U C × Tc U)) (c : String) :
    UsesIn clock ((op, tc) :: items) c ↔ Uses clock op c ∨ UsesIn clock items c := by
  simp [UsesIn]

mutual
theorem setClock_sound (clock : P → String) (all : List (String × Freq)) :
    ∀ (op : Op P U C) (st : List (String × Option Freq) × List String) (op' : Op P U C) (st' : List (String × Option Freq) × List String),
    (∀ k ∈ st.2, k ∈ Dict.keys st.1) → setClock clock all op st = .ok (op', st') →
    WithClocks clock (Dict.get? all) op op' ∧ Extended (Dict.get? all) (Uses clock op) st.1 st'.1 ∧
      (∀ k ∈ st'.2, k ∈ Dict.keys st'.1)
  | .sched d items, st, op', st', hinv, h => by
    simp only [setClock] at h
    obtain ⟨⟨items', s1⟩, h1, h⟩ := bind_ok.mp h
    have h := Except.ok.inj h
    simp only [Prod.mk.injEq] at h
    obtain ⟨rfl, rfl⟩ := h
    obtain ⟨a1, a2, a3, a4, a5⟩ := setClocks_sound clock all items (d.resources, []) items' s1 (by simp) h1
    refine ⟨.sched a1 a2 a3 a4, extended_congr (extended_refl _ _) ?_, hinv⟩
    intro c
    constructor
    · exact False.elim
    · intro h; cases h
  | .ctrl k body, st, op', st', hinv, h => by
    simp only [setClock] at h
    obtain ⟨⟨b, s1⟩, h1, h⟩ := bind_ok.mp h
    have h := Except.ok.inj h
    simp only [Prod.mk.injEq] at h
    obtain ⟨rfl, rfl⟩ := h
    obtain ⟨a1, a2, a3⟩ := setClock_sound clock all body st b s1 hinv h1
    refine ⟨.ctrl a1, extended_congr a2 ?_, a3⟩
    intro c
    constructor
    · exact .ctrl
    · intro h; cases h; assumption
  | .comp k body, st, op', st', hinv, h => by
    simp only [setClock] at h
    obtain ⟨⟨b, s1⟩, h1, h⟩ := bind_ok.mp h
    have h := Except.ok.inj h
    simp only [Prod.mk.injEq] at h
    obtain ⟨rfl, rfl⟩ := h
    obtain ⟨a1, a2, a3⟩ := setClock_sound clock all body st b s1 hinv h1
    refine ⟨.comp a1, extended_congr a2 ?_, a3⟩
    intro c
    constructor
    · exact .comp
    · intro h; cases h; assumption
  | .asm clk k, st, op', st', hinv, h => by
    simp only [setClock] at h
    obtain ⟨s1, h1, h⟩ := bind_ok.mp h
    have h := Except.ok.inj h
    simp only [Prod.mk.injEq] at h
    obtain ⟨rfl, rfl⟩ := h
    obtain ⟨a1, a2⟩ := clockLoop_ok all [clk] st s1 hinv h1
    refine ⟨.asm, extended_congr a1 ?_, a2⟩
    intro c
    constructor
    · intro h; simp only [List.mem_singleton] at h; subst h; exact .asm
    · intro h; cases h; simp
  | .leaf g p a, st, op', st', hinv, h => by
    simp only [setClock] at h
    by_cases hpa : (p.isEmpty && a.isEmpty) = true
    · rw [if_pos hpa] at h; cases h
    · rw [if_neg hpa] at h
      obtain ⟨s1, h1, h⟩ := bind_ok.mp h
      have h := Except.ok.inj h
      simp only [Prod.mk.injEq] at h
      obtain ⟨rfl, rfl⟩ := h
      obtain ⟨a1, a2⟩ := clockLoop_ok all _ st s1 hinv h1
      exact ⟨.leaf (by simpa using hpa), extended_congr a1 (fun c => (uses_leaf clock g p a c).symm), a2⟩
theorem setClocks_sound (clock : P → String) (all : List (String × Freq)) :
    ∀ (items : List (Op P U C × Tc U)) (st : List (String × Option Freq) × List String) (items' : List (Op P U C × Tc U))
      (st' : List (String × Option Freq) × List String),
    (∀ k ∈ st.2, k ∈ Dict.keys st.1) → setClocks clock all items st = .ok (items', st') →
    items'.length = items.length ∧
    (∀ (i : Nat) (h : i < items.length) (h' : i < items'.length), items'[i].2 = items[i].2) ∧
    (∀ (i : Nat) (h : i < items.length) (h' : i < items'.length),
      WithClocks clock (Dict.get? all) items[i].1 items'[i].1) ∧
    Extended (Dict.get? all) (UsesIn clock items) st.1 st'.1 ∧ (∀ k ∈ st'.2, k ∈ Dict.keys st'.1)
  | [], st, items', st', hinv, h => by
    have h := Except.ok.inj h
    simp only [Prod.mk.injEq] at h
    obtain ⟨rfl, rfl⟩ := h
    exact ⟨rfl, by simp, by simp, extended_congr (extended_refl _ _) (by simp [UsesIn]), hinv⟩
  | (op, tc) :: items, st, items', st', hinv, h => by
    simp only [setClocks] at h
    obtain ⟨⟨o, s1⟩, h1, h⟩ := bind_ok.mp h
    obtain ⟨⟨is, s2⟩, h2, h⟩ := bind_ok.mp h
    have h := Except.ok.inj h
    simp only [Prod.mk.injEq] at h
    obtain ⟨rfl, rfl⟩ := h
    obtain ⟨a1, a2, a3⟩ := setClock_sound clock all op st o s1 hinv h1
    obtain ⟨b1, b2, b3, b4, b5⟩ := setClocks_sound clock all items s1 is s2 a3 h2
    refine ⟨by simp [b1], ?_, ?_, extended_congr (extended_trans a2 b4) (fun c => (usesIn_cons clock op tc items c).symm), b5⟩
    · intro i hi hi'
      cases i with
      | zero => rfl
      | succ i => simpa using b2 i (by simpa using hi) (by simpa using hi')
    · intro i hi hi'
      cases i with
      | zero => exact a1
      | succ i => simpa using b3 i (by simpa using hi) (by simpa using hi')
end

theorem setClock_total (clock : P → String) (all : List (String × Freq)) {op out : Op P U C}
    (h : WithClocks clock (Dict.get? all) op out) : ∀ (st : List (String × Option Freq) × List String),
    (∀ k ∈ st.2, k ∈ Dict.keys st.1) → Avail (Dict.get? all) (Uses clock op) st.1 →
    ∃ op' st', setClock clock all op st = .ok (op', st') := by
  induction h with
  | @leaf g p a hpa =>
    intro st hinv hav
    obtain ⟨s1, h1⟩ := clockLoop_total all ((p ++ a).map clock).dedup st hinv
      (fun c hc => hav c ((uses_leaf clock g p a c).mpr hc))
    refine ⟨.leaf g p a, s1, ?_⟩
    simp only [setClock]
    rw [if_neg (by simpa using hpa)]
    exact bind_ok.mpr ⟨s1, h1, rfl⟩
  | @asm c k =>
    intro st hinv hav
    obtain ⟨s1, h1⟩ := clockLoop_total all [c] st hinv (fun x hx => hav x (by
      simp only [List.mem_singleton] at hx; subst hx; exact .asm))
    exact ⟨.asm c k, s1, bind_ok.mpr ⟨s1, h1, rfl⟩⟩
  | @ctrl k body body' _ ih =>
    intro st hinv hav
    obtain ⟨b, s1, h1⟩ := ih st hinv (fun c hc => hav c (.ctrl hc))
    exact ⟨.ctrl k b, s1, bind_ok.mpr ⟨(b, s1), h1, rfl⟩⟩
  | @comp k body body' _ ih =>
    intro st hinv hav
    obtain ⟨b, s1, h1⟩ := ih st hinv (fun c hc => hav c (.comp hc))
    exact ⟨.comp k b, s1, bind_ok.mpr ⟨(b, s1), h1, rfl⟩⟩
  | @sched d items items' res hl htc hi hext ih =>
    intro st hinv hav
    have : ∀ (l : List (Op P U C × Tc U)), (∀ x ∈ l, x ∈ items) →
        ∀ s : List (String × Option Freq) × List String, (∀ k ∈ s.2, k ∈ Dict.keys s.1) →
        Avail (Dict.get? all) (UsesIn clock l) s.1 → ∃ r s', setClocks clock all l s = .ok (r, s') := by
      intro l
      induction l with
      | nil => intro _ s _ _; exact ⟨[], s, rfl⟩
      | cons x xs ih2 =>
        intro hsub s hs hav2
        obtain ⟨i, hi', hx⟩ := List.getElem_of_mem (hsub x (by simp))
        obtain ⟨o, s1, h1⟩ := ih i hi' (by omega) s hs (by
          rw [hx]
          exact fun c hc => hav2 c ⟨x, by simp, hc⟩)
        rw [hx] at h1
        obtain ⟨-, e1, i1⟩ := setClock_sound clock all x.1 s o s1 hs h1
        obtain ⟨r, s2, h2⟩ := ih2 (fun y hy => hsub y (by simp [hy])) s1 i1
          (avail_mono (fun c hc => hav2 c (by obtain ⟨y, hy, hu⟩ := hc; exact ⟨y, by simp [hy], hu⟩)) e1)
        refine ⟨(o, x.2) :: r, s2, ?_⟩
        obtain ⟨x1, x2⟩ := x
        simp only [setClocks]
        exact bind_ok.mpr ⟨(o, s1), h1, bind_ok.mpr ⟨(r, s2), h2, rfl⟩⟩
    obtain ⟨r, s', h'⟩ := this items (fun x hx => hx) (d.resources, []) (by simp) (extended_avail hext)
    exact ⟨.sched { d with resources := s'.1 } r, st, by
      simp only [setClock]
      exact bind_ok.mpr ⟨(r, s'), h', rfl⟩⟩

theorem withClocks_sched {clock : P → String} {F : String → Option Freq} {op out : Op P U C}
    (h : WithClocks clock F op out) (hs : IsSched op) : ∀ c, ¬ Uses clock op c := by
  intro c hc
  cases hc <;> exact hs

/-! ### C44 -/

/-- C44: after the pass every clock is in the resources of the schedule that uses it; nothing else has changed. The
frequency is that of the schedule, if any of its parts defines it, else that of the device. -/
theorem clocks_assigned (clock : P → String) (cfg : Cfg P U C) (s out : Op P U C)
    (h : setPulseAndAcquisitionClock clock cfg s = .ok out) :
    Consistent (defs s) ∧ WithClocks clock (known cfg s) s out := by
  unfold setPulseAndAcquisitionClock at h
  obtain ⟨all, h1, h⟩ := bind_ok.mp h
  obtain ⟨⟨s', st⟩, h2, h⟩ := bind_ok.mp h
  have h := Except.ok.inj h
  subst h
  rw [extract_eq] at h1
  refine ⟨((addAll_ok (defs s) []).mp ⟨all, h1⟩).1, ?_⟩
  have hF : Dict.get? (addDevice cfg.clocks all) = known cfg s := by
    funext c
    rw [addDevice_get, addAll_get _ _ _ h1]
    simp [known, Dict.get?_nil]
  rw [← hF]
  exact (setClock_sound clock _ s ([], []) s' st (by simp) h2).1

/-- C44: the pass succeeds exactly if the definitions of frequencies agree, every operation is at device level, and every
clock used is in the schedule that uses it or has a known frequency. -/
theorem clocks_assigned_iff (clock : P → String) (cfg : Cfg P U C) (s : Op P U C) (hs : IsSched s) :
    (∃ out, setPulseAndAcquisitionClock clock cfg s = .ok out) ↔
      Consistent (defs s) ∧ ∃ out, WithClocks clock (known cfg s) s out := by
  constructor
  · rintro ⟨out, h⟩
    obtain ⟨h1, h2⟩ := clocks_assigned clock cfg s out h
    exact ⟨h1, out, h2⟩
  · rintro ⟨h1, out, h2⟩
    obtain ⟨all, hall⟩ := (addAll_ok (defs s) []).mpr ⟨h1, by simp [Dict.get?_nil]⟩
    have hF : Dict.get? (addDevice cfg.clocks all) = known cfg s := by
      funext c
      rw [addDevice_get, addAll_get _ _ _ hall]
      simp [known, Dict.get?_nil]
    rw [← hF] at h2
    obtain ⟨o, st, ho⟩ := setClock_total clock _ h2 ([], []) (by simp)
      (fun c hc => absurd hc (withClocks_sched h2 hs c))
    exact ⟨o, by
      unfold setPulseAndAcquisitionClock
      rw [extract_eq]
      exact bind_ok.mpr ⟨all, hall, bind_ok.mpr ⟨(o, st), ho, rfl⟩⟩⟩

/-- The errors are those that are documented. -/
theorem clock_errors (clock : P → String) (cfg : Cfg P U C) (s : Op P U C) (e : Err)
    (h : setPulseAndAcquisitionClock clock cfg s = .error e) : e = .valueError ∨ e = .runtimeError := by
  have hbind : ∀ {α β : Type} {x : Except Err α} {f : α → Except Err β} {e : Err}, (x >>= f) = .error e →
      x = .error e ∨ ∃ a, x = .ok a ∧ f a = .error e := by
    intro α β x f e h
    cases x with
    | error e' => left; cases h; rfl
    | ok a => right; exact ⟨a, rfl, h⟩
  have hall : ∀ (l all : List (String × Freq)) e, addAll l all = .error e → e = .valueError := by
    intro l
    induction l with
    | nil => intro all e h; cases h
    | cons x l ih =>
      intro all e h
      obtain ⟨c, f⟩ := x
      simp only [addAll] at h
      cases hk : Dict.get? all c with
      | none => simp only [hk] at h; exact ih _ _ h
      | some f' =>
        simp only [hk] at h
        by_cases hne : freqNe f f' = true
        · rw [if_pos hne] at h; cases h; rfl
        · rw [if_neg hne] at h; exact ih _ _ h
  have hone : ∀ all c st e, oneClock all c st = .error e → e = .valueError := by
    intro all c st e h
    unfold oneClock at h
    by_cases h1 : c ∈ st.2
    · rw [if_pos h1] at h; cases h
    · rw [if_neg h1] at h
      by_cases h2 : (Dict.get? st.1 c).isSome
      · rw [if_pos h2] at h; cases h
      · rw [if_neg h2] at h
        cases hf : Dict.get? all c with
        | none => simp only [hf] at h; cases h; rfl
        | some f => cases f with
          | none => simp only [hf] at h; cases h; rfl
          | some f => simp only [hf] at h; cases h
  have hloop : ∀ all cs st e, clockLoop all cs st = .error e → e = .valueError := by
    intro all cs
    induction cs with
    | nil => intro st e h; cases h
    | cons c cs ih =>
      intro st e h
      rcases hbind h with h | ⟨a, -, h⟩
      · exact hone _ _ _ _ h
      · exact ih _ _ h
  have hset : ∀ (all : List (String × Freq)) (op : Op P U C) st e, setClock clock all op st = .error e →
      e = .valueError ∨ e = .runtimeError := by
    intro all op
    induction op using Op.rec (motive_2 := fun items => ∀ st e, setClocks clock all items st = .error e →
        e = .valueError ∨ e = .runtimeError)
        (motive_3 := fun i => ∀ st e, setClock clock all i.1 st = .error e → e = .valueError ∨ e = .runtimeError) with
    | leaf g p a =>
      intro st e h
      simp only [setClock] at h
      by_cases hpa : (p.isEmpty && a.isEmpty) = true
      · rw [if_pos hpa] at h; cases h; right; rfl
      · rw [if_neg hpa] at h
        rcases hbind h with h | ⟨a, -, h⟩
        · exact Or.inl (hloop _ _ _ _ h)
        · cases h
    | asm c k =>
      intro st e h
      rcases hbind h with h | ⟨a, -, h⟩
      · exact Or.inl (hloop _ _ _ _ h)
      · cases h
    | sched d items ih =>
      intro st e h
      simp only [setClock] at h
      rcases hbind h with h | ⟨a, -, h⟩
      · exact ih _ _ h
      · cases h
    | ctrl c body ih =>
      intro st e h
      simp only [setClock] at h
      rcases hbind h with h | ⟨a, -, h⟩
      · exact ih _ _ h
      · cases h
    | comp c body ih =>
      intro st e h
      simp only [setClock] at h
      rcases hbind h with h | ⟨a, -, h⟩
      · exact ih _ _ h
      · cases h
    | nil => rename_i st e h; cases h
    | cons x xs ih1 ih2 =>
      rename_i st e h
      obtain ⟨x1, x2⟩ := x
      simp only [setClocks] at h
      rcases hbind h with h | ⟨a, -, h⟩
      · exact ih1 _ _ h
      · rcases hbind h with h | ⟨b, -, h⟩
        · exact ih2 _ _ h
        · cases h
    | mk x1 x2 ih => rename_i st e h; exact ih _ _ h
  unfold setPulseAndAcquisitionClock at h
  rcases hbind h with h | ⟨a, -, h⟩
  · rw [extract_eq] at h; exact Or.inl (hall _ _ _ h)
  · rcases hbind h with h | ⟨b, -, h⟩
    · exact hset _ _ _ _ h
    · cases h

theorem mem_defsItems (items : List (Op P U C × Tc U)) (e : String × Freq) :
    e ∈ defsItems items ↔ ∃ i ∈ items, e ∈ defs i.1 := by
  induction items with
  | nil => simp [defsItems]
  | cons i items ih => simp [defsItems, ih]

theorem mem_withFreq (l : List (String × Option Freq)) (c : String) (f : Freq) :
    (c, f) ∈ withFreq l ↔ (c, some f) ∈ l := by
  unfold withFreq
  rw [List.mem_filterMap]
  constructor
  · rintro ⟨⟨c', v⟩, h, h2⟩
    cases v with
    | none => cases h2
    | some v => cases h2; exact h
  · intro h; exact ⟨_, h, rfl⟩

theorem withClocks_defs {clock : P → String} {F : String → Option Freq} {op out : Op P U C}
    (h : WithClocks clock F op out) : ∀ c f, (c, f) ∈ defs out → (c, f) ∈ defs op ∨ F c = some f := by
  induction h with
  | leaf _ => intro c f h; exact Or.inl h
  | asm => intro c f h; exact Or.inl h
  | ctrl _ ih => intro c f h; simp only [defs] at h ⊢; exact ih c f h
  | comp _ _ => intro c f h; simp [defs] at h
  | @sched d items items' res hl htc hi hext ih =>
    intro c f h
    simp only [defs, List.mem_append, mem_defsItems, mem_withFreq] at h ⊢
    rcases h with ⟨i, hi', hc⟩ | h
    · obtain ⟨k, hk, rfl⟩ := List.getElem_of_mem hi'
      rcases ih k (by omega) hk c f hc with h | h
      · exact Or.inl (Or.inl ⟨items[k]'(by omega), List.getElem_mem _, h⟩)
      · exact Or.inr h
    · obtain ⟨x, rfl, -, hx, -⟩ := hext
      rcases List.mem_append.mp h with h | h
      · exact Or.inl (Or.inr h)
      · obtain ⟨-, -, r, hr, he⟩ := hx c _ h
        right; rw [hr]; cases he; rfl

theorem consistent_get {l : List (String × Freq)} (h : Consistent l) : ∀ c f, (c, f) ∈ l → Dict.get? l c = some f := by
  induction l with
  | nil => intro c f h; cases h
  | cons e l ih =>
    intro c f hm
    unfold Consistent at h
    rw [List.pairwise_cons] at h
    rw [Dict.get?_cons]
    rcases List.mem_cons.mp hm with rfl | hm2
    · simp
    · by_cases he : e.1 = c
      · rw [if_pos he]
        obtain ⟨r, h1, h2⟩ := h.1 _ hm2 he
        rw [h1, ← h2]
      · rw [if_neg he]; exact ih h.2 c f hm2

/-- C44: after the pass a clock has one frequency: every schedule in it (outside compensations) that has a frequency for
the clock has the known one. -/
theorem one_frequency (clock : P → String) (cfg : Cfg P U C) (s out : Op P U C)
    (h : setPulseAndAcquisitionClock clock cfg s = .ok out) :
    ∀ c f, (c, f) ∈ defs out → known cfg s c = some f := by
  obtain ⟨h1, h2⟩ := clocks_assigned clock cfg s out h
  intro c f hm
  rcases withClocks_defs h2 c f hm with h | h
  · unfold known; rw [consistent_get h1 c f h]; rfl
  · exact h

/-- C44: the schedule's own frequency wins over the device's, wherever in the schedule it is defined. -/
theorem schedule_wins (clock : P → String) (cfg : Cfg P U C) (s out : Op P U C) (c : String) (f f' : Freq)
    (h : setPulseAndAcquisitionClock clock cfg s = .ok out) (hf : (c, f) ∈ defs s) (ho : (c, f') ∈ defs out) : f' = f := by
  have h1 := one_frequency clock cfg s out h c f' ho
  have h2 := consistent_get (clocks_assigned clock cfg s out h).1 c f hf
  unfold known at h1
  rw [h2] at h1
  exact (Option.some.inj h1).symm

/-- C44: a clock that has no known frequency, in a schedule that does not have it, is an error. -/
theorem unknown_clock_error (clock : P → String) (cfg : Cfg P U C) (d : SData) (items : List (Op P U C × Tc U)) (c : String)
    (hu : UsesIn clock items c) (hr : c ∉ Dict.keys d.resources)
    (hk : known cfg (.sched d items) c = none ∨ known cfg (.sched d items) c = some none) (out : Op P U C) :
    setPulseAndAcquisitionClock clock cfg (.sched d items) ≠ .ok out := by
  intro h
  obtain ⟨-, h2⟩ := clocks_assigned clock cfg _ out h
  cases h2 with
  | sched _ _ _ hext =>
    rcases extended_avail hext c hu with h | ⟨f, hf⟩
    · exact hr h
    · rcases hk with hk | hk <;> rw [hk] at hf <;> cases hf

theorem setClock_device (clock : P → String) (all : List (String × Freq)) {op : Op P U C} (h : DeviceLevel op) :
    ∀ st, setClock clock all op st ≠ .error .runtimeError := by
  have hone : ∀ c st, oneClock all c st ≠ .error .runtimeError := by
    intro c st h
    unfold oneClock at h
    by_cases h1 : c ∈ st.2
    · rw [if_pos h1] at h; cases h
    · rw [if_neg h1] at h
      by_cases h2 : (Dict.get? st.1 c).isSome
      · rw [if_pos h2] at h; cases h
      · rw [if_neg h2] at h
        cases hf : Dict.get? all c with
        | none => simp only [hf] at h; cases h
        | some f => cases f with
          | none => simp only [hf] at h; cases h
          | some f => simp only [hf] at h; cases h
  have hbind : ∀ {α β : Type} {x : Except Err α} {f : α → Except Err β}, (x >>= f) = .error .runtimeError →
      x = .error .runtimeError ∨ ∃ a, x = .ok a ∧ f a = .error .runtimeError := by
    intro α β x f h
    cases x with
    | error e' => left; cases h; rfl
    | ok a => right; exact ⟨a, rfl, h⟩
  have hloop : ∀ cs st, clockLoop all cs st ≠ .error .runtimeError := by
    intro cs
    induction cs with
    | nil => intro st h; cases h
    | cons c cs ih =>
      intro st h
      rcases hbind h with h | ⟨a, -, h⟩
      · exact hone _ _ h
      · exact ih _ h
  induction h with
  | leaf hpa =>
    intro st h
    simp only [setClock] at h
    rw [if_neg (by simpa using hpa)] at h
    rcases hbind h with h | ⟨a, -, h⟩
    · exact hloop _ _ h
    · cases h
  | asm =>
    intro st h
    rcases hbind h with h | ⟨a, -, h⟩
    · exact hloop _ _ h
    · cases h
  | @sched d items hi ih =>
    intro st h
    have : ∀ (l : List (Op P U C × Tc U)), (∀ x ∈ l, x ∈ items) → ∀ st, setClocks clock all l st ≠ .error .runtimeError := by
      intro l
      induction l with
      | nil => intro _ st h; cases h
      | cons x xs ih2 =>
        intro hsub st h
        obtain ⟨x1, x2⟩ := x
        simp only [setClocks] at h
        rcases hbind h with h | ⟨a, -, h⟩
        · exact ih (x1, x2) (hsub _ (by simp)) st h
        · rcases hbind h with h | ⟨b, -, h⟩
          · exact ih2 (fun y hy => hsub y (by simp [hy])) _ h
          · cases h
    simp only [setClock] at h
    rcases hbind h with h | ⟨a, -, h⟩
    · exact this items (fun x hx => hx) _ h
    · cases h
  | ctrl _ ih =>
    intro st h
    simp only [setClock] at h
    rcases hbind h with h | ⟨a, -, h⟩
    · exact ih _ h
    · cases h
  | comp _ ih =>
    intro st h
    simp only [setClock] at h
    rcases hbind h with h | ⟨a, -, h⟩
    · exact ih _ h
    · cases h

/-- C44: after circuit-to-device compilation (with a configuration whose factories make pulses), the pass either succeeds
or complains about a frequency. -/
theorem clocks_after_compile (clock : P → String) (cfg : Cfg P U C) (port : PortOf) (hc : Productive cfg)
    (ht : TargetedCfg cfg) (n : Nat) (s dev : Op P U C) (hs : Targeted s) (h : compile cfg port n [] s = .ok dev) :
    (∃ out, setPulseAndAcquisitionClock clock cfg dev = .ok out) ∨
    setPulseAndAcquisitionClock clock cfg dev = .error .valueError := by
  have hd := compiled_device_level cfg port hc ht n s dev hs h
  cases hr : setPulseAndAcquisitionClock clock cfg dev with
  | ok out => exact Or.inl ⟨out, rfl⟩
  | error e =>
    right
    rcases clock_errors clock cfg dev e hr with rfl | rfl
    · rfl
    · exfalso
      unfold setPulseAndAcquisitionClock at hr
      cases h1 : extract dev [] with
      | error e =>
        rw [h1] at hr
        rw [extract_eq] at h1
        have hall : ∀ (l all : List (String × Freq)), addAll l all ≠ .error .runtimeError := by
          intro l
          induction l with
          | nil => intro all h; cases h
          | cons x l ih =>
            intro all h
            obtain ⟨c, f⟩ := x
            simp only [addAll] at h
            cases hk : Dict.get? all c with
            | none => simp only [hk] at h; exact ih _ h
            | some f' =>
              simp only [hk] at h
              by_cases hne : freqNe f f' = true
              · rw [if_pos hne] at h; cases h
              · rw [if_neg hne] at h; exact ih _ h
        cases hr
        exact hall _ _ h1
      | ok all =>
        rw [h1] at hr
        cases h2 : setClock clock (addDevice cfg.clocks all) dev ([], []) with
        | error e =>
          simp only [bind, Except.bind, h2] at hr
          cases hr
          exact setClock_device clock _ hd _ h2
        | ok r => simp only [bind, Except.bind, h2] at hr; cases hr

end Verif.Circuit
