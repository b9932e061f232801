/-
Lemmas for C70: the content of a schedule on a port-clock, executed.
-/
import Verif.EndToEnd.Run

set_option linter.unusedSimpArgs false
set_option linter.unusedVariables false

namespace Verif.EndToEnd

open Verif.Flatten (Info ns onGrid Forest Elem Op Items Label PC plainInfos content itemContent leaves Quiet
  ItemsQuiet startAt entries itemEntries)
open Spec

variable {D : Type}

/-- On the grid, the end of a body is its duration after its start. -/
theorem ns_add {off dur : Rat} (h1 : (onGrid off).isOk = true) (h2 : (onGrid (off + dur)).isOk = true) :
    ns (off + dur) - ns off = ns dur := by
  have a := abs_le.mp (Flatten.ns_close h1)
  have b := abs_le.mp (Flatten.ns_close h2)
  symm
  unfold ns
  apply Numeric.pyRound_unique
  unfold ns at a b
  rw [abs_lt]
  push_cast
  constructor <;> linarith [a.1, a.2, b.1, b.2]

theorem plain_quiet (idx : Label × Nat → Option (List Int)) (pc : PC) (p : Flatten.Plain D) (off : Rat)
    (label : Label) (h : Quiet pc (.plain p)) : plainInfos idx pc p (ns off) label = [] := by
  have := Flatten.quiet_nil idx pc (.plain p) off label h
  simpa [Flatten.infosOf, entries, Flatten.entryInfos] using this

mutual
theorem quiet_content (idx : Label × Nat → Option (List Int)) (pc : PC) : ∀ (op : Op D) (off : Rat)
    (label : Label) (k : Forest (Info D)), Quiet pc op → content idx pc op off label k = k
  | .plain p, off, label, k, h => by
    rw [content, plain_quiet idx pc p off label h]; rfl
  | .sched items, off, label, k, h => by rw [content]; exact quiet_itemContent idx pc items off label k h
  | .ctl c dur body, off, label, k, h => by
    rw [content, if_neg h.2]; exact quiet_content idx pc body off _ k h.1
theorem quiet_itemContent (idx : Label × Nat → Option (List Int)) (pc : PC) : ∀ (items : Items D) (off : Rat)
    (label : Label) (k : Forest (Info D)), ItemsQuiet pc items → itemContent idx pc items off label k = k
  | .nil, _, _, _, _ => rfl
  | .cons name abs op rest, off, label, k, h => by
    rw [itemContent, quiet_content idx pc op _ _ _ h.1, quiet_itemContent idx pc rest _ _ _ h.2]
end

mutual
theorem quiet_unrolled (reps : D → Option Nat) (cond : D → Q1.TrigCond) (env : Q1.Env)
    (idx : Label × Nat → Option (List Int)) (pc : PC) : ∀ (op : Op D) (off : Rat)
    (label : Label) (δ : Int), Quiet pc op → unrolled reps cond env idx pc op off label δ = []
  | .plain p, off, label, δ, h => by
    rw [unrolled, plain_quiet idx pc p off label h]; rfl
  | .sched items, off, label, δ, h => by
    rw [unrolled]; exact quiet_unrolledItems reps cond env idx pc items off label δ h
  | .ctl c dur body, off, label, δ, h => by
    rw [unrolled]
    split
    · rw [List.flatMap_eq_nil_iff]
      exact fun i _ => quiet_unrolled reps cond env idx pc body off _ _ h.1
    · split
      · exact quiet_unrolled reps cond env idx pc body off _ _ h.1
      · rfl
theorem quiet_unrolledItems (reps : D → Option Nat) (cond : D → Q1.TrigCond) (env : Q1.Env)
    (idx : Label × Nat → Option (List Int)) (pc : PC) : ∀ (items : Items D) (off : Rat)
    (label : Label) (δ : Int), ItemsQuiet pc items → unrolledItems reps cond env idx pc items off label δ = []
  | .nil, _, _, _, _ => rfl
  | .cons name abs op rest, off, label, δ, h => by
    rw [unrolledItems, quiet_unrolled reps cond env idx pc op _ _ _ h.1,
      quiet_unrolledItems reps cond env idx pc rest _ _ _ h.2]
    rfl
end

theorem unrollF_leaves (F : Factory D) (env : Q1.Env) (δ : Int) (f : Forest (Info D)) : ∀ l : List (Info D),
    unrollF F env (leaves l f) δ = l.map (fun i => (i, δ)) ++ unrollF F env f δ
  | [] => rfl
  | a :: l => by simp [leaves, unrollF, unrollF_leaves F env δ f l]

mutual
/-- The content of a schedule, executed, is the schedule executed. -/
theorem unroll_content (F : Factory D) (env : Q1.Env) (idx : Label × Nat → Option (List Int)) (pc : PC) :
    ∀ (op : Op D) (off : Rat) (label : Label) (k : Forest (Info D)) (δ : Int), Supported F.reps pc op →
    (∀ e ∈ entries op off label, (onGrid e.time).isOk = true) →
    unrollF F env (content idx pc op off label k) δ =
      unrolled F.reps F.cond env idx pc op off label δ ++ unrollF F env k δ
  | .plain p, off, label, k, δ, h, hg => by rw [content, unrolled, unrollF_leaves]
  | .sched items, off, label, k, δ, h, hg => by
    rw [content, unrolled]
    rw [Supported] at h
    rw [entries] at hg
    exact unroll_itemContent F env idx pc items off label k δ h hg
  | .ctl c dur body, off, label, k, δ, h, hg => by
    rw [Supported] at h
    obtain ⟨h0, hb, hu, _⟩ := h
    have hg1 : (onGrid off).isOk = true :=
      hg ⟨off, .start c body.used.dedup body.allValid, label ++ [none]⟩ (by
        rw [entries]; exact List.mem_cons_self)
    have hg2 : (onGrid (off + dur)).isOk = true :=
      hg ⟨off + dur, .stop body.used.dedup body.allValid, label ++ [none]⟩ (by
        rw [entries]
        exact List.mem_cons_of_mem _ (List.mem_append_right _ List.mem_cons_self))
    have hgb : ∀ e ∈ entries body off (label ++ [none]), (onGrid e.time).isOk = true := fun e he =>
      hg e (by rw [entries]; exact List.mem_cons_of_mem _ (List.mem_append_left _ he))
    by_cases hpc : pc ∈ body.used
    · rw [content, if_pos hpc, unrollF]
      congr 1
      have ih := fun δ => unroll_content F env idx pc body off (label ++ [none]) .nil δ hb hgb
      rw [unrolled]
      simp only [Factory.strategy, h0, Flatten.ns_startAt_zero]
      cases hr : F.reps c.data with
      | some n =>
        simp only [unrollNode, ns_add hg1 hg2, ih]
        simp [unrollF]
      | none =>
        simp only [unrollNode, ih]
        simp [unrollF]
    · have hq := hu.resolve_left hpc
      rw [quiet_content idx pc (.ctl c dur body) off label k ⟨hq, hpc⟩,
        quiet_unrolled F.reps F.cond env idx pc (.ctl c dur body) off label δ ⟨hq, hpc⟩]
      rfl
theorem unroll_itemContent (F : Factory D) (env : Q1.Env) (idx : Label × Nat → Option (List Int)) (pc : PC) :
    ∀ (items : Items D) (off : Rat) (label : Label) (k : Forest (Info D)) (δ : Int),
    SupportedItems F.reps pc items → (∀ e ∈ itemEntries items off label, (onGrid e.time).isOk = true) →
    unrollF F env (itemContent idx pc items off label k) δ =
      unrolledItems F.reps F.cond env idx pc items off label δ ++ unrollF F env k δ
  | .nil, off, label, k, δ, h, hg => by rw [itemContent, unrolledItems]; rfl
  | .cons name abs op rest, off, label, k, δ, h, hg => by
    rw [itemContent, unrolledItems, unroll_content F env idx pc op _ _ _ δ h.1 (fun e he =>
      hg e (by rw [itemEntries]; exact List.mem_append_left _ he)),
      unroll_itemContent F env idx pc rest off label k δ h.2 (fun e he =>
      hg e (by rw [itemEntries]; exact List.mem_append_right _ he)), List.append_assoc]
end

/-! ### Brackets -/

theorem acqInfos_data (idx : Label × Nat → Option (List Int)) (pc : PC) (name : String) (n : Int)
    (label : Label) : ∀ (qs : List (Flatten.Piece D)) (j : Nat) (i : Info D),
    i ∈ Flatten.acqInfos idx pc name n label j qs → ∃ d x, i.data = .acq d x
  | [], _, i, h => by simp [Flatten.acqInfos] at h
  | q :: qs, j, i, h => by
    rw [Flatten.acqInfos, List.mem_append] at h
    rcases h with h | h
    · split at h
      · simp only [List.mem_singleton] at h; subst h; exact ⟨_, _, rfl⟩
      · simp at h
    · exact acqInfos_data idx pc name n label qs _ i h

theorem plainInfos_leaf (F : Factory D) (idx : Label × Nat → Option (List Int)) (pc : PC) (p : Flatten.Plain D)
    (n : Int) (label : Label) : ∀ i ∈ plainInfos idx pc p n label, ∃ l, F.strategy i = .leaf l := by
  intro i hi
  unfold plainInfos at hi
  split at hi
  · simp at hi
  · rcases List.mem_append.mp hi with hi | hi
    · rcases List.mem_append.mp hi with hi | hi
      · split at hi
        · simp only [List.mem_singleton] at hi; subst hi; exact ⟨_, rfl⟩
        · simp at hi
      · obtain ⟨q, _, rfl⟩ := List.mem_map.mp hi
        exact ⟨_, rfl⟩
    · obtain ⟨d, x, h⟩ := acqInfos_data idx pc _ _ _ _ _ i hi
      exact ⟨F.leafAt i, by unfold Factory.strategy; rw [h]⟩

theorem typed_leaves {F : Factory D} {f : Forest (Info D)} (hf : Typed F f) : ∀ l : List (Info D),
    (∀ i ∈ l, ∃ x, F.strategy i = .leaf x) → Typed F (leaves l f)
  | [], _ => hf
  | a :: l, h => ⟨h a List.mem_cons_self, typed_leaves hf l (fun i hi => h i (List.mem_cons_of_mem _ hi))⟩

theorem elems_leaves {f : Forest (Info D)} : ∀ l : List (Info D),
    (∀ x ∈ f.elems, x.bracketed = false) → ∀ x ∈ (leaves l f).elems, x.bracketed = false
  | [], h => h
  | a :: l, h => by
    intro x hx
    simp only [leaves, Forest.elems, List.mem_cons] at hx
    rcases hx with rfl | hx
    · rfl
    · exact elems_leaves l h x hx

mutual
theorem noControl_elems (idx : Label × Nat → Option (List Int)) (pc : PC) : ∀ (op : Op D) (off : Rat)
    (label : Label) (k : Forest (Info D)), NoControl pc op → (∀ x ∈ k.elems, x.bracketed = false) →
    ∀ x ∈ (content idx pc op off label k).elems, x.bracketed = false
  | .plain p, off, label, k, h, hk => by rw [content]; exact elems_leaves _ hk
  | .sched items, off, label, k, h, hk => by
    rw [content]; exact noControl_itemElems idx pc items off label k h hk
  | .ctl c dur body, off, label, k, h, hk => by
    rw [quiet_content idx pc (.ctl c dur body) off label k h]; exact hk
theorem noControl_itemElems (idx : Label × Nat → Option (List Int)) (pc : PC) : ∀ (items : Items D) (off : Rat)
    (label : Label) (k : Forest (Info D)), NoControlItems pc items → (∀ x ∈ k.elems, x.bracketed = false) →
    ∀ x ∈ (itemContent idx pc items off label k).elems, x.bracketed = false
  | .nil, off, label, k, h, hk => hk
  | .cons name abs op rest, off, label, k, h, hk => by
    rw [itemContent]
    exact noControl_elems idx pc op _ _ _ h.1 (noControl_itemElems idx pc rest _ _ _ h.2 hk)
end

mutual
theorem typed_content (F : Factory D) (idx : Label × Nat → Option (List Int)) (pc : PC) : ∀ (op : Op D)
    (off : Rat) (label : Label) (k : Forest (Info D)), Supported F.reps pc op → Typed F k →
    Typed F (content idx pc op off label k)
  | .plain p, off, label, k, h, hk => by
    rw [content]; exact typed_leaves hk _ (plainInfos_leaf F idx pc p _ label)
  | .sched items, off, label, k, h, hk => by
    rw [content]; exact typed_itemContent F idx pc items off label k h hk
  | .ctl c dur body, off, label, k, h, hk => by
    obtain ⟨h0, hb, hu, hc⟩ := h
    by_cases hpc : pc ∈ body.used
    · rw [content, if_pos hpc]
      refine ⟨?_, ⟨_, rfl⟩, typed_content F idx pc body off _ .nil hb trivial, hk⟩
      cases hr : F.reps c.data with
      | some n => exact .inl ⟨ns (startAt (ns off) c.t0), n, by simp only [Factory.strategy, hr]⟩
      | none =>
        refine .inr ⟨⟨ns (startAt (ns off) c.t0), F.cond c.data, by simp only [Factory.strategy, hr]⟩, ?_⟩
        exact noControl_elems idx pc body off _ .nil (hc hr) (by simp [Forest.elems])
    · rw [quiet_content idx pc (.ctl c dur body) off label k ⟨hu.resolve_left hpc, hpc⟩]
      exact hk
theorem typed_itemContent (F : Factory D) (idx : Label × Nat → Option (List Int)) (pc : PC) :
    ∀ (items : Items D) (off : Rat) (label : Label) (k : Forest (Info D)), SupportedItems F.reps pc items →
    Typed F k → Typed F (itemContent idx pc items off label k)
  | .nil, off, label, k, h, hk => hk
  | .cons name abs op rest, off, label, k, h, hk => by
    rw [itemContent]
    exact typed_content F idx pc op _ _ _ h.1 (typed_itemContent F idx pc rest _ _ _ h.2 hk)
end

/-! ### Brackets in order of time -/

/-- An element with the right brackets. -/
def TypedE (F : Factory D) : Elem (Info D) → Prop
  | .one a => ∃ l, F.strategy a = .leaf l
  | .many b g e => ((∃ t n, F.strategy b = .loop t n) ∨
      ((∃ t c, F.strategy b = .cond t c) ∧ ∀ x ∈ g.elems, x.bracketed = false)) ∧
      (∃ t, F.strategy e = .ret t) ∧ Typed F g

theorem typed_iff (F : Factory D) : ∀ f : Forest (Info D), Typed F f ↔ ∀ x ∈ f.elems, TypedE F x
  | .nil => by simp [Typed, Forest.elems]
  | .leaf a f => by simp [Typed, Forest.elems, TypedE, typed_iff F f]
  | .node b g e f => by
    have h : TypedE F (.many b g e) ↔ ((∃ t n, F.strategy b = .loop t n) ∨
      ((∃ t c, F.strategy b = .cond t c) ∧ ∀ x ∈ g.elems, x.bracketed = false)) ∧
      (∃ t, F.strategy e = .ret t) ∧ Typed F g := Iff.rfl
    rw [Typed, Forest.elems, List.forall_mem_cons, h, typed_iff F f]
    simp only [and_assoc]

theorem inner_bracketed {K : Type} [LinearOrder K] (key : Info D → K) (x : Elem (Info D)) :
    (x.inner key).bracketed = x.bracketed := by cases x <;> rfl

theorem typed_order (F : Factory D) {K : Type} [LinearOrder K] (key : Info D → K) :
    ∀ f : Forest (Info D), Typed F f → Typed F (f.order key) := by
  have main : ∀ f : Forest (Info D), (∀ x ∈ f.elems, TypedE F (x.inner key)) → Typed F (f.order key) := by
    intro f h
    rw [typed_iff]
    intro x hx
    obtain ⟨y, hy, rfl⟩ := List.mem_map.mp ((Flatten.order_elems key f).mem_iff.mp hx)
    exact h y hy
  have elems : ∀ f : Forest (Info D), Typed F f → ∀ x ∈ f.elems, TypedE F (x.inner key) := by
    intro f
    induction f with
    | nil => intro _ x hx; simp [Forest.elems] at hx
    | leaf a f ih =>
      intro h x hx
      simp only [Forest.elems, List.mem_cons] at hx
      rcases hx with rfl | hx
      · exact h.1
      · exact ih h.2 x hx
    | node b g e f ihg ihf =>
      intro h x hx
      simp only [Forest.elems, List.mem_cons] at hx
      rcases hx with rfl | hx
      · refine ⟨?_, h.2.1, main g (ihg h.2.2.1)⟩
        rcases h.1 with h1 | ⟨h1, h2⟩
        · exact .inl h1
        · refine .inr ⟨h1, ?_⟩
          intro x hx
          obtain ⟨y, hy, rfl⟩ := List.mem_map.mp ((Flatten.order_elems key g).mem_iff.mp hx)
          rw [inner_bracketed]
          exact h2 y hy
      · exact ihf h.2.2.2 x hx
  exact fun f h => main f (elems f h)

end Verif.EndToEnd
