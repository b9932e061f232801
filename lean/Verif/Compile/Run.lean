/-
C73: programs only touch what they know, and cannot tell objects from their copies.
-/
import Verif.Compile.Copy

set_option linter.unusedSimpArgs false
set_option linter.unusedVariables false

namespace Verif.Compile

open Spec

variable {A : Type}

theorem get?_mem {o : Obj A} {k : String} {v : Val A} (h : Dict.get? o k = some v) : ∃ k', (k', v) ∈ o := by
  unfold Dict.get? at h
  cases hf : o.find? (fun e => e.1 == k) with
  | none => simp [hf] at h
  | some e =>
    simp only [hf, Option.map_some, Option.some.injEq] at h
    subst h
    exact ⟨e.1, List.mem_of_find?_eq_some hf⟩

theorem mem_set {o : Obj A} {k : String} {v : Val A} {e : String × Val A} (h : e ∈ Dict.set o k v) :
    e ∈ o ∨ e.2 = v := by
  unfold Dict.set at h
  split at h
  · obtain ⟨f, hf, hfe⟩ := List.mem_map.mp h
    split at hfe
    · right; rw [← hfe]
    · left; rw [← hfe]; exact hf
  · rcases List.mem_append.mp h with h | h
    · exact .inl h
    · right
      simp only [List.mem_singleton] at h
      rw [h]

theorem target_some {h : Heap A} {known : List (Val A)} {i : Nat} {a : Nat} {o : Obj A}
    (ht : target h known i = some (a, o)) : known[i]? = some (.ref a) ∧ h[a]? = some o := by
  unfold target at ht
  split at ht
  · rename_i b hb
    cases ho : h[b]? with
    | none => simp [ho] at ht
    | some p =>
      simp only [ho, Option.map_some, Option.some.injEq, Prod.mk.injEq] at ht
      obtain ⟨rfl, rfl⟩ := ht
      exact ⟨hb, ho⟩
  · cases ht

/-! ### Frame -/

/-- A set of objects that is closed: what they refer to is in it, and so are those that are made from now on. -/
structure Closed (S : Nat → Prop) (h : Heap A) (known : List (Val A)) : Prop where
  fields : ∀ a o, S a → h[a]? = some o → ∀ k b, (k, Val.ref b) ∈ o → S b
  fresh : ∀ a, h.length ≤ a → S a
  known : ∀ a, Val.ref a ∈ known → S a

theorem Closed.set {S : Nat → Prop} {h : Heap A} {known : List (Val A)} (hc : Closed S h known) {a : Nat}
    (ha : S a) {o : Obj A} (ho : ∀ k b, (k, Val.ref b) ∈ o → S b) : Closed S (h.set a o) known := by
  refine ⟨?_, ?_, hc.known⟩
  · intro x p hx hp k b hb
    by_cases hxa : x = a
    · subst hxa
      have hlt : x < h.length := by simpa using lt_of_get hp
      rw [List.getElem?_set_self (by simpa using hlt)] at hp
      cases hp
      exact ho k b hb
    · rw [List.getElem?_set_ne (Ne.symm hxa)] at hp
      exact hc.fields x p hx hp k b hb
  · intro x hx
    exact hc.fresh x (by simpa using hx)

theorem Closed.more {S : Nat → Prop} {h : Heap A} {known : List (Val A)} (hc : Closed S h known) {v : Val A}
    (hv : ∀ a, v = .ref a → S a) : Closed S h (known ++ [v]) := by
  refine ⟨hc.fields, hc.fresh, ?_⟩
  intro a ha
  rcases List.mem_append.mp ha with ha | ha
  · exact hc.known a ha
  · exact hv a (List.mem_singleton.mp ha).symm

/-- What is outside a closed set stays as it is. -/
theorem run_frame {S : Nat → Prop} (p : Prog A) : ∀ (h : Heap A) (known : List (Val A)), Closed S h known →
    (∀ a, ¬ S a → (run p h known).1[a]? = h[a]?) ∧ h.length ≤ (run p h known).1.length ∧
    ∀ known', (∀ a, Val.ref a ∈ known' → S a) → Closed S (run p h known).1
      (known' ++ (match (run p h known).2 with | .ok v => [v] | .error _ => [])) := by
  have done : ∀ (h : Heap A) (known : List (Val A)), Closed S h known → ∀ known' : List (Val A),
      (∀ a, Val.ref a ∈ known' → S a) → Closed S h known' := fun h known hc known' hk => ⟨hc.fields, hc.fresh, hk⟩
  have err : ∀ (h : Heap A) (known : List (Val A)) (e : Err), Closed S h known →
      (∀ a, ¬ S a → (h, (.error e : Except Err (Val A))).1[a]? = h[a]?) ∧
      h.length ≤ (h, (.error e : Except Err (Val A))).1.length ∧
      ∀ known', (∀ a, Val.ref a ∈ known' → S a) → Closed S (h, (.error e : Except Err (Val A))).1
        (known' ++ (match (h, (.error e : Except Err (Val A))).2 with | .ok v => [v] | .error _ => [])) := by
    intro h known e hc
    refine ⟨fun _ _ => rfl, Nat.le_refl _, fun k' hk' => ?_⟩
    simpa using done h known hc k' hk'
  induction p with
  | ret i =>
    intro h known hc
    rw [run]
    cases hi : known[i]? with
    | none => exact err h known _ hc
    | some v =>
      refine ⟨fun _ _ => rfl, Nat.le_refl _, fun k' hk' => ?_⟩
      simp only
      apply (done h known hc k' hk').more
      rintro a rfl
      exact hc.known a (List.mem_of_getElem? hi)
  | raise n => intro h known hc; exact err h known _ hc
  | read i k next ih =>
    intro h known hc
    rw [run]
    cases ht : target h known i with
    | none => exact err h known _ hc
    | some ao =>
      obtain ⟨a, o⟩ := ao
      obtain ⟨h1, h2⟩ := target_some ht
      simp only
      cases hg : Dict.get? o k with
      | none => exact ih _ h known hc
      | some v =>
        apply ih
        apply hc.more
        rintro b rfl
        obtain ⟨k', hk'⟩ := get?_mem hg
        exact hc.fields a o (hc.known a (List.mem_of_getElem? h1)) h2 k' b hk'
  | keys i next ih =>
    intro h known hc
    rw [run]
    cases ht : target h known i with
    | none => exact err h known _ hc
    | some ao => exact ih _ h known hc
  | same i j next ih => intro h known hc; rw [run]; exact ih _ h known hc
  | write i k j next ih =>
    intro h known hc
    rw [run]
    cases ht : target h known i with
    | none => exact err h known _ hc
    | some ao =>
      obtain ⟨a, o⟩ := ao
      obtain ⟨h1, h2⟩ := target_some ht
      have hSa := hc.known a (List.mem_of_getElem? h1)
      cases hj : known[j]? with
      | none => exact err h known _ hc
      | some v =>
        simp only
        obtain ⟨r1, r2, r3⟩ := ih (h.set a (Dict.set o k v)) known (hc.set hSa (by
          intro k' b hb
          rcases mem_set hb with hb | hb
          · exact hc.fields a o hSa h2 k' b hb
          · simp only at hb
            exact hc.known b (hb ▸ List.mem_of_getElem? hj)))
        refine ⟨?_, by simpa using r2, r3⟩
        intro x hx
        rw [r1 x hx, List.getElem?_set_ne (by rintro rfl; exact hx hSa)]
  | delete i k next ih =>
    intro h known hc
    rw [run]
    cases ht : target h known i with
    | none => exact err h known _ hc
    | some ao =>
      obtain ⟨a, o⟩ := ao
      obtain ⟨h1, h2⟩ := target_some ht
      have hSa := hc.known a (List.mem_of_getElem? h1)
      simp only
      obtain ⟨r1, r2, r3⟩ := ih (h.set a (o.filter (fun e => e.1 != k))) known (hc.set hSa (by
        intro k' b hb
        exact hc.fields a o hSa h2 k' b (List.mem_of_mem_filter hb)))
      refine ⟨?_, by simpa using r2, r3⟩
      intro x hx
      rw [r1 x hx, List.getElem?_set_ne (by rintro rfl; exact hx hSa)]
  | const a next ih =>
    intro h known hc
    rw [run]
    exact ih h _ (hc.more (by intro b hb; cases hb))
  | new next ih =>
    intro h known hc
    rw [run]
    have hc1 : Closed S (h ++ [[]]) (known ++ [.ref h.length]) := by
      refine ⟨?_, ?_, ?_⟩
      · intro a o ha ho k b hb
        by_cases hlt : a < h.length
        · rw [List.getElem?_append_left hlt] at ho
          exact hc.fields a o ha ho k b hb
        · by_cases he : a = h.length
          · subst he
            simp at ho
            subst ho
            cases hb
          · rw [List.getElem?_eq_none (by simp; omega)] at ho
            cases ho
      · intro a ha
        simp only [List.length_append, List.length_cons, List.length_nil] at ha
        exact hc.fresh a (by omega)
      · intro a ha
        rcases List.mem_append.mp ha with ha | ha
        · exact hc.known a ha
        · simp only [List.mem_singleton, Val.ref.injEq] at ha
          subst ha
          exact hc.fresh _ (Nat.le_refl _)
    obtain ⟨r1, r2, r3⟩ := ih (h ++ [[]]) _ hc1
    refine ⟨?_, ?_, r3⟩
    · intro x hx
      have hlt : x < h.length := by
        by_contra hcon
        exact hx (hc.fresh x (by omega))
      rw [r1 x hx, List.getElem?_append_left hlt]
    · simp only [List.length_append, List.length_cons, List.length_nil] at r2
      omega

/-! ### Programs do not see addresses -/

theorem sameObj_keys {R : Nat → Nat → Prop} {o p : Obj A} (h : SameObj R o p) : o.map Prod.fst = p.map Prod.fst := by
  induction h with
  | nil => rfl
  | cons he _ ih => simp [he.1, ih]

theorem sameObj_get? {R : Nat → Nat → Prop} {o p : Obj A} (h : SameObj R o p) (k : String) :
    (Dict.get? o k = none ∧ Dict.get? p k = none) ∨
      ∃ v w, Dict.get? o k = some v ∧ Dict.get? p k = some w ∧ SameVal R v w := by
  induction h with
  | nil => exact .inl ⟨rfl, rfl⟩
  | @cons e f o p he _ ih =>
    rw [Dict.get?_cons, Dict.get?_cons, ← he.1]
    by_cases hk : e.1 = k
    · simp only [hk, if_true]
      exact .inr ⟨_, _, rfl, rfl, he.2⟩
    · simp only [hk, if_false]
      exact ih

theorem sameObj_filter {R : Nat → Nat → Prop} {o p : Obj A} (h : SameObj R o p) (k : String) :
    SameObj R (o.filter (fun e => e.1 != k)) (p.filter (fun e => e.1 != k)) := by
  induction h with
  | nil => exact .nil
  | @cons e f o p he _ ih =>
    rw [List.filter_cons, List.filter_cons, ← he.1]
    split
    · exact .cons he ih
    · exact ih

theorem sameObj_set {R : Nat → Nat → Prop} {o p : Obj A} (h : SameObj R o p) (k : String) {v w : Val A}
    (hv : SameVal R v w) : SameObj R (Dict.set o k v) (Dict.set p k w) := by
  have hany : o.any (fun e => e.1 == k) = p.any (fun e => e.1 == k) := by
    have := sameObj_keys h
    have e1 : o.any (fun e => e.1 == k) = (o.map Prod.fst).any (· == k) := by rw [List.any_map]; rfl
    have e2 : p.any (fun e => e.1 == k) = (p.map Prod.fst).any (· == k) := by rw [List.any_map]; rfl
    rw [e1, e2, this]
  unfold Dict.set
  rw [hany]
  split
  · rename_i hp
    clear hany hp
    induction h with
    | nil => exact .nil
    | @cons e f o p he _ ih =>
      rw [List.map_cons, List.map_cons]
      refine .cons ?_ ih
      rw [← he.1]
      split
      · exact ⟨rfl, hv⟩
      · exact he
  · exact List.rel_append h (.cons ⟨rfl, hv⟩ .nil)

/-- Corresponding states. -/
structure Sim (R : Nat → Nat → Prop) (h₁ h₂ : Heap A) (k₁ k₂ : List (Val A)) : Prop where
  inj : OneToOne R
  heap : SameHeap R h₁ h₂
  known : List.Forall₂ (SameVal R) k₁ k₂

theorem Sim.bound {R : Nat → Nat → Prop} {h₁ h₂ : Heap A} {k₁ k₂ : List (Val A)} (hs : Sim R h₁ h₂ k₁ k₂) {a b : Nat}
    (h : R a b) : a < h₁.length ∧ b < h₂.length := by
  obtain ⟨o, p, e1, e2, _⟩ := hs.heap a b h
  exact ⟨lt_of_get e1, lt_of_get e2⟩

theorem Sim.set {R : Nat → Nat → Prop} {h₁ h₂ : Heap A} {k₁ k₂ : List (Val A)} (hs : Sim R h₁ h₂ k₁ k₂) {a b : Nat}
    (hab : R a b) {o p : Obj A} (ho : SameObj R o p) : Sim R (h₁.set a o) (h₂.set b p) k₁ k₂ := by
  refine ⟨hs.inj, ?_, hs.known⟩
  intro x y hxy
  obtain ⟨ha, hb⟩ := hs.bound hab
  by_cases hxa : x = a
  · subst hxa
    have := hs.inj.1 x y b hxy hab
    subst this
    exact ⟨o, p, by simp [ha], by simp [hb], ho⟩
  · have hyb : y ≠ b := by
      rintro rfl
      exact hxa (hs.inj.2 x a y hxy hab)
    obtain ⟨o', p', e1, e2, e3⟩ := hs.heap x y hxy
    exact ⟨o', p', by rw [List.getElem?_set_ne (Ne.symm hxa)]; exact e1,
      by rw [List.getElem?_set_ne (Ne.symm hyb)]; exact e2, e3⟩

theorem Sim.more {R : Nat → Nat → Prop} {h₁ h₂ : Heap A} {k₁ k₂ : List (Val A)} (hs : Sim R h₁ h₂ k₁ k₂) {v w : Val A}
    (hv : SameVal R v w) : Sim R h₁ h₂ (k₁ ++ [v]) (k₂ ++ [w]) :=
  ⟨hs.inj, hs.heap, List.rel_append hs.known (.cons hv .nil)⟩

theorem forall₂_get {R : Val A → Val A → Prop} {l m : List (Val A)} (h : List.Forall₂ R l m) (i : Nat) :
    (l[i]? = none ∧ m[i]? = none) ∨ ∃ v w, l[i]? = some v ∧ m[i]? = some w ∧ R v w := by
  induction h generalizing i with
  | nil => exact .inl ⟨rfl, rfl⟩
  | cons hv _ ih =>
    cases i with
    | zero => exact .inr ⟨_, _, rfl, rfl, hv⟩
    | succ i => simpa using ih i

theorem Sim.target {R : Nat → Nat → Prop} {h₁ h₂ : Heap A} {k₁ k₂ : List (Val A)} (hs : Sim R h₁ h₂ k₁ k₂) (i : Nat) :
    (Compile.target h₁ k₁ i = none ∧ Compile.target h₂ k₂ i = none) ∨ ∃ a o b p, R a b ∧ SameObj R o p ∧
      Compile.target h₁ k₁ i = some (a, o) ∧ Compile.target h₂ k₂ i = some (b, p) := by
  unfold Compile.target
  rcases forall₂_get hs.known i with ⟨e1, e2⟩ | ⟨v, w, e1, e2, hv⟩
  · left; simp [e1, e2]
  · cases v with
    | atom a =>
      cases w with
      | atom b => left; simp [e1, e2]
      | ref b => exact absurd hv (by simp [SameVal])
    | ref a =>
      cases w with
      | atom b => exact absurd hv (by simp [SameVal])
      | ref b =>
        right
        obtain ⟨o, p, f1, f2, f3⟩ := hs.heap a b hv
        exact ⟨a, o, b, p, hv, f3, by simp [e1, f1], by simp [e2, f2]⟩

theorem Sim.same {R : Nat → Nat → Prop} {h₁ h₂ : Heap A} {k₁ k₂ : List (Val A)} (hs : Sim R h₁ h₂ k₁ k₂) (i j : Nat) :
    isSame k₁ i j = isSame k₂ i j := by
  unfold isSame
  rcases forall₂_get hs.known i with ⟨e1, e2⟩ | ⟨v, w, e1, e2, hv⟩
  · rw [e1, e2]
  · rcases forall₂_get hs.known j with ⟨f1, f2⟩ | ⟨v', w', f1, f2, hv'⟩
    · rw [e1, e2, f1, f2]
      cases v <;> cases w <;> rfl
    · rw [e1, e2, f1, f2]
      cases v <;> cases w <;> cases v' <;> cases w' <;> simp only [SameVal] at hv hv' <;> try rfl
      rename_i a b a' b'
      simp only
      by_cases h : a = a'
      · subst h
        have := hs.inj.1 a b b' hv hv'
        simp [this]
      · have : b ≠ b' := by
          rintro rfl
          exact h (hs.inj.2 a a' b hv hv')
        simp [h, this]

/-- Corresponding outcomes. -/
def SimOut (R : Nat → Nat → Prop) (r₁ r₂ : Heap A × Except Err (Val A)) : Prop :=
  SameHeap R r₁.1 r₂.1 ∧
    match r₁.2, r₂.2 with
    | .ok v, .ok w => SameVal R v w
    | .error e, .error e' => e = e'
    | _, _ => False

theorem run_sim (p : Prog A) : ∀ (R : Nat → Nat → Prop) (h₁ h₂ : Heap A) (k₁ k₂ : List (Val A)), Sim R h₁ h₂ k₁ k₂ →
    ∃ R', OneToOne R' ∧ (∀ a b, R a b → R' a b) ∧ SimOut R' (run p h₁ k₁) (run p h₂ k₂) := by
  have err : ∀ (R : Nat → Nat → Prop) (h₁ h₂ : Heap A) (k₁ k₂ : List (Val A)) (e : Err), Sim R h₁ h₂ k₁ k₂ →
      ∃ R', OneToOne R' ∧ (∀ a b, R a b → R' a b) ∧ SimOut R' (h₁, (.error e : Except Err (Val A))) (h₂, .error e) :=
    fun R h₁ h₂ k₁ k₂ e hs => ⟨R, hs.inj, fun _ _ h => h, hs.heap, rfl⟩
  induction p with
  | ret i =>
    intro R h₁ h₂ k₁ k₂ hs
    rw [run, run]
    rcases forall₂_get hs.known i with ⟨e1, e2⟩ | ⟨v, w, e1, e2, hv⟩
    · rw [e1, e2]; exact err R h₁ h₂ k₁ k₂ _ hs
    · rw [e1, e2]; exact ⟨R, hs.inj, fun _ _ h => h, hs.heap, hv⟩
  | raise n => intro R h₁ h₂ k₁ k₂ hs; exact err R h₁ h₂ k₁ k₂ _ hs
  | read i k next ih =>
    intro R h₁ h₂ k₁ k₂ hs
    rw [run, run]
    rcases hs.target i with ⟨e1, e2⟩ | ⟨a, o, b, p, hab, hop, e1, e2⟩
    · rw [e1, e2]; exact err R h₁ h₂ k₁ k₂ _ hs
    · rw [e1, e2]
      simp only
      rcases sameObj_get? hop k with ⟨g1, g2⟩ | ⟨v, w, g1, g2, hv⟩
      · rw [g1, g2]; exact ih _ R h₁ h₂ k₁ k₂ hs
      · rw [g1, g2]
        have hview : v.view = w.view := by
          cases v <;> cases w <;> simp only [SameVal] at hv <;> simp [Val.view, hv]
        simp only [hview]
        exact ih _ R h₁ h₂ _ _ (hs.more hv)
  | keys i next ih =>
    intro R h₁ h₂ k₁ k₂ hs
    rw [run, run]
    rcases hs.target i with ⟨e1, e2⟩ | ⟨a, o, b, p, hab, hop, e1, e2⟩
    · rw [e1, e2]; exact err R h₁ h₂ k₁ k₂ _ hs
    · rw [e1, e2]
      simp only [sameObj_keys hop]
      exact ih _ R h₁ h₂ k₁ k₂ hs
  | same i j next ih =>
    intro R h₁ h₂ k₁ k₂ hs
    rw [run, run, hs.same i j]
    exact ih _ R h₁ h₂ k₁ k₂ hs
  | write i k j next ih =>
    intro R h₁ h₂ k₁ k₂ hs
    rw [run, run]
    rcases hs.target i with ⟨e1, e2⟩ | ⟨a, o, b, p, hab, hop, e1, e2⟩
    · rw [e1, e2]; exact err R h₁ h₂ k₁ k₂ _ hs
    · rw [e1, e2]
      rcases forall₂_get hs.known j with ⟨f1, f2⟩ | ⟨v, w, f1, f2, hv⟩
      · rw [f1, f2]; exact err R h₁ h₂ k₁ k₂ _ hs
      · rw [f1, f2]
        exact ih R _ _ k₁ k₂ (hs.set hab (sameObj_set hop k hv))
  | delete i k next ih =>
    intro R h₁ h₂ k₁ k₂ hs
    rw [run, run]
    rcases hs.target i with ⟨e1, e2⟩ | ⟨a, o, b, p, hab, hop, e1, e2⟩
    · rw [e1, e2]; exact err R h₁ h₂ k₁ k₂ _ hs
    · rw [e1, e2]
      exact ih R _ _ k₁ k₂ (hs.set hab (sameObj_filter hop k))
  | const a next ih =>
    intro R h₁ h₂ k₁ k₂ hs
    rw [run, run]
    exact ih R h₁ h₂ _ _ (hs.more rfl)
  | new next ih =>
    intro R h₁ h₂ k₁ k₂ hs
    rw [run, run]
    have hs1 : Sim (fun a b => R a b ∨ (a = h₁.length ∧ b = h₂.length)) (h₁ ++ [[]]) (h₂ ++ [[]])
        (k₁ ++ [.ref h₁.length]) (k₂ ++ [.ref h₂.length]) := by
      refine ⟨⟨?_, ?_⟩, ?_, ?_⟩
      · rintro a b b' (h | ⟨rfl, rfl⟩) (h' | ⟨h1, h2⟩)
        · exact hs.inj.1 a b b' h h'
        · have := (hs.bound h).1; omega
        · have := (hs.bound h').1; omega
        · exact h2.symm
      · rintro a a' b (h | ⟨rfl, rfl⟩) (h' | ⟨h1, h2⟩)
        · exact hs.inj.2 a a' b h h'
        · have := (hs.bound h).2; omega
        · have := (hs.bound h').2; omega
        · exact h1.symm
      · rintro a b (h | ⟨rfl, rfl⟩)
        · obtain ⟨o, p, e1, e2, e3⟩ := hs.heap a b h
          exact ⟨o, p, prefix_get (List.prefix_append _ _) e1, prefix_get (List.prefix_append _ _) e2,
            sameObj_mono (fun _ _ h => .inl h) e3⟩
        · exact ⟨[], [], by simp, by simp, .nil⟩
      · refine List.rel_append (List.Forall₂.imp (fun _ _ h => sameVal_mono (fun _ _ h => .inl h) h) hs.known)
          (.cons (.inr ⟨rfl, rfl⟩) .nil)
    obtain ⟨R', i1, i2, i3⟩ := ih _ _ _ _ _ hs1
    exact ⟨R', i1, fun a b h => i2 a b (.inl h), i3⟩

end Verif.Compile
