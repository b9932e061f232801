/-
C73: compiling a schedule leaves it as it was, gives the same as compiling it in place, and runs the passes in their
order, whatever the compiler did before.
-/
import Verif.Compile.Run
import Mathlib.Data.List.Chain
import Mathlib.Order.Nat
import Mathlib.Data.Nat.Find
import Mathlib.Tactic.Choose

set_option linter.unusedSimpArgs false
set_option linter.unusedVariables false

namespace Verif.Compile

open Spec

variable {A : Type}

/-! ### Frame -/

/-- What is outside `S` is as before, `S` is still closed, the result is in `S`. -/
structure Framed (S : Nat → Prop) (h : Heap A) (r : Heap A × Except Err (Val A)) : Prop where
  same : ∀ a, ¬ S a → r.1[a]? = h[a]?
  fields : ∀ a o, S a → r.1[a]? = some o → ∀ k b, (k, Val.ref b) ∈ o → S b
  fresh : ∀ a, r.1.length ≤ a → S a
  result : ∀ a, r.2 = .ok (.ref a) → S a

theorem Framed.closed {S : Nat → Prop} {h : Heap A} {r : Heap A × Except Err (Val A)} (hf : Framed S h r)
    {known : List (Val A)} (hk : ∀ a, Val.ref a ∈ known → S a) : Closed S r.1 known := ⟨hf.fields, hf.fresh, hk⟩

theorem Framed.trans {S : Nat → Prop} {h : Heap A} {r r' : Heap A × Except Err (Val A)} (hf : Framed S h r)
    (hf' : Framed S r.1 r') : Framed S h r' :=
  ⟨fun a ha => (hf'.same a ha).trans (hf.same a ha), hf'.fields, hf'.fresh, hf'.result⟩

theorem run_framed {S : Nat → Prop} (p : Prog A) {h : Heap A} {known : List (Val A)} (hc : Closed S h known) :
    Framed S h (run p h known) := by
  obtain ⟨h1, _, h3⟩ := run_frame p h known hc
  have := h3 [] (by simp)
  refine ⟨h1, this.fields, this.fresh, ?_⟩
  intro a ha
  apply this.known
  rw [ha]
  simp

theorem Framed.error {S : Nat → Prop} {h h' : Heap A} {v : Except Err (Val A)} (hf : Framed S h (h', v)) (e : Err) :
    Framed S h (h', .error e) := ⟨hf.same, hf.fields, hf.fresh, by simp⟩

theorem Closed.framed {S : Nat → Prop} {h : Heap A} {known : List (Val A)} (hc : Closed S h known) {v : Val A}
    (hv : ∀ a, v = .ref a → S a) : Framed S h (h, .ok v) :=
  ⟨fun _ _ => rfl, hc.fields, hc.fresh, by simpa using hv⟩

theorem runAll_framed {S : Nat → Prop} {c : Val A} (hS : ∀ a, c = .ref a → S a) : ∀ (ns : List (Node A)) (h : Heap A)
    (s : Val A), Closed S h [s, c] → Framed S h (runAll ns h s c)
  | [], h, s, hc => hc.framed (by rintro a rfl; exact hc.known a List.mem_cons_self)
  | n :: ns, h, s, hc => by
    have hf := run_framed n.func hc
    rw [runAll]
    rcases hr : run n.func h [s, c] with ⟨h', e | s'⟩
    · rw [hr] at hf; exact hf
    · rw [hr] at hf
      refine hf.trans (runAll_framed hS ns h' s' (hf.closed ?_))
      intro a ha
      simp only [List.mem_cons, List.not_mem_nil, or_false] at ha
      rcases ha with ha | ha
      · exact hf.result a (by rw [ha])
      · exact hS a ha.symm

theorem inner_framed {S : Nat → Prop} (sp : PathFinder A) (ic : A → Bool) (cc : A) (c : Compiler A) {h : Heap A}
    {s : Val A} {cfg : Config A} (hc : Closed S h [s, cfg.obj]) : Framed S h (inner sp ic cc c h s cfg).2 := by
  have hS : ∀ a, cfg.obj = .ref a → S a := fun a ha => hc.known a (by simp [ha])
  have hf := run_framed reset (known := [s]) (⟨hc.fields, hc.fresh, fun a ha => hc.known a (by simp at ha; simp [ha])⟩ :
    Closed S h [s])
  unfold inner
  rcases hr : run reset h [s] with ⟨h1, e | s1⟩
  · rw [hr] at hf; exact hf
  · rw [hr] at hf
    simp only
    cases hp : pathOf sp (construct c cfg.passes) with
    | error e => exact hf.error e
    | ok p =>
      simp only
      have hk : ∀ a, Val.ref a ∈ [s1, cfg.obj] → S a := by
        intro a ha
        simp only [List.mem_cons, List.not_mem_nil, or_false] at ha
        rcases ha with ha | ha
        · exact hf.result a (by rw [ha])
        · exact hS a ha.symm
      have hf2 := hf.trans (runAll_framed hS p h1 s1 (hf.closed hk))
      rcases hr2 : runAll p h1 s1 cfg.obj with ⟨h2, e | s2⟩
      · rw [hr2] at hf2; exact hf2
      · rw [hr2] at hf2
        refine hf2.trans (run_framed _ (hf2.closed ?_))
        intro a ha
        simp only [List.mem_cons, List.not_mem_nil, or_false] at ha
        exact hf2.result a (by rw [ha])

/-- The objects that are made from now on, and those of the configuration. -/
def scope (h : Heap A) (c : Val A) (a : Nat) : Prop := h.length ≤ a ∨ Reach h c a

theorem sameObj_ref {R : Nat → Nat → Prop} {o p : Obj A} (h : SameObj R o p) {k : String} {b : Nat}
    (hb : (k, Val.ref b) ∈ p) : ∃ a, (k, Val.ref a) ∈ o ∧ R a b := by
  induction h with
  | nil => cases hb
  | @cons e f o p he _ ih =>
    rcases List.mem_cons.mp hb with rfl | hb
    · obtain ⟨ek, ev⟩ := e
      cases ev with
      | atom a => exact absurd he.2 (by simp [SameVal])
      | ref a =>
        have hk : ek = k := he.1
        exact ⟨a, by rw [hk]; exact List.mem_cons_self, he.2⟩
    · obtain ⟨a, h1, h2⟩ := ih hb
      exact ⟨a, List.mem_cons_of_mem _ h1, h2⟩

theorem copy_closed {h : Heap A} {s s' c : Val A} {n : Nat} {st : Copying A} (hs : Complete h s) (hc : Complete h c)
    (hcopy : copyVal n (h, []) s = .ok (s', st)) : Closed (scope h c) st.1 [s', c] := by
  obtain ⟨hpre, _, hsv, hmemo, hall⟩ := copy_ok hs hcopy
  refine ⟨?_, ?_, ?_⟩
  · intro a o ha ho k b hb
    rcases ha with ha | ha
    · obtain ⟨x, hx⟩ := hall a ha (lt_of_get ho)
      obtain ⟨_, _, o1, p1, e1, e2, e3⟩ := hmemo x a hx
      rw [ho] at e2
      cases e2
      obtain ⟨y, _, hy⟩ := sameObj_ref e3 hb
      exact .inl (hmemo y b hy).2.1
    · have hlt := hc a ha
      have hx := List.getElem?_eq_getElem hlt
      have := prefix_get hpre hx
      rw [ho] at this
      cases this
      exact .inr (ha.step hx hb)
  · intro a ha
    exact .inl (Nat.le_trans hpre.length_le ha)
  · intro a ha
    simp only [List.mem_cons, List.not_mem_nil, or_false] at ha
    rcases ha with rfl | rfl
    · cases s with
      | atom x => exact absurd hsv (by simp [SameVal])
      | ref x => exact .inl (hmemo x a hsv).2.1
    · exact .inr (.here a)

theorem framed_reach {S : Nat → Prop} {h : Heap A} {r : Heap A × Except Err (Val A)} (hf : Framed S h r) {v : Val A}
    (hv : r.2 = .ok v) {a : Nat} (ha : Reach r.1 v a) : S a := by
  induction ha with
  | here a => exact hf.result a hv
  | step _ ho hb ih => exact hf.fields _ _ (ih hv) ho _ _ hb

/-- **C73, original schedule.** If the original schedule is to be kept, compiling changes no object that existed before
and is not part of the configuration: neither the schedule nor anything else; also if compiling fails, whatever the
passes do.  And the compiled schedule has no object in common with what was there before, but for the
configuration. -/
theorem kept (sp : PathFinder A) (ic : A → Bool) (cc : A) (depth : Nat) (c : Compiler A) (h : Heap A) (s : Val A)
    (cfg : Config A) (hkeep : cfg.keep = true) (hs : Complete h s) (hcfg : Complete h cfg.obj) :
    (∀ a, a < h.length → ¬ Reach h cfg.obj a → (compile sp ic cc depth c h s cfg).2.1[a]? = h[a]?) ∧
    ∀ v, (compile sp ic cc depth c h s cfg).2.2 = .ok v → ∀ a, Reach (compile sp ic cc depth c h s cfg).2.1 v a →
      h.length ≤ a ∨ Reach h cfg.obj a := by
  unfold compile
  rw [if_pos hkeep]
  cases hcopy : copyVal depth (h, []) s with
  | error e => exact ⟨fun _ _ _ => rfl, by simp⟩
  | ok r =>
    obtain ⟨s', h', M⟩ := r
    simp only
    have hcl := copy_closed hs hcfg hcopy
    have hpre := (copy_ok hs hcopy).1
    have hf := inner_framed sp ic cc c (cfg := cfg) hcl
    constructor
    · intro a hlt hna
      rw [hf.same a (by
        rintro (h1 | h1)
        · omega
        · exact hna h1)]
      have hx := List.getElem?_eq_getElem hlt
      rw [prefix_get hpre hx, hx]
    · intro v hv a ha
      exact framed_reach hf hv ha

/-- **C73, original schedule.** The schedule itself, if it has no object in common with the configuration. -/
theorem untouched (sp : PathFinder A) (ic : A → Bool) (cc : A) (depth : Nat) (c : Compiler A) (h : Heap A) (s : Val A)
    (cfg : Config A) (hkeep : cfg.keep = true) (hs : Complete h s) (hcfg : Complete h cfg.obj)
    (hd : Disjoint h s cfg.obj) :
    Untouched h (compile sp ic cc depth c h s cfg).2.1 s ∧
    ∀ v, (compile sp ic cc depth c h s cfg).2.2 = .ok v → ∀ a, Reach (compile sp ic cc depth c h s cfg).2.1 v a →
      ¬ Reach h s a := by
  obtain ⟨h1, h2⟩ := kept sp ic cc depth c h s cfg hkeep hs hcfg
  refine ⟨fun a ha => h1 a (hs a ha) (hd a ha), ?_⟩
  intro v hv a ha hsa
  rcases h2 v hv a ha with h3 | h3
  · have := hs a hsa; omega
  · exact hd a hsa h3

theorem untouched_reach {h h' : Heap A} {v : Val A} (hu : Untouched h h' v) {a : Nat} :
    Reach h v a ↔ Reach h' v a := by
  constructor
  · intro ha
    induction ha with
    | here a => exact .here a
    | step h1 ho hb ih => exact (ih hu).step (by rw [hu _ h1]; exact ho) hb
  · intro ha
    induction ha with
    | here a => exact .here a
    | step h1 ho hb ih => exact (ih hu).step (by rw [← hu _ (ih hu)]; exact ho) hb

/-- **C73, histories.** A schedule is what it was after any number of compilations that keep originals, of itself or of
other schedules, with which it may have operations in common. -/
theorem history_untouched {sp : PathFinder A} {ic : A → Bool} {cc : A} {v : Val A} {h h' : Heap A}
    (hh : History sp ic cc v h h') (hv : Complete h v) : Untouched h h' v := by
  induction hh with
  | nil h => exact fun _ _ => rfl
  | call h h' depth c s cfg hk hs hc hd _ ih =>
    have h1 : Untouched h (compile sp ic cc depth c h s cfg).2.1 v := fun a ha =>
      (kept sp ic cc depth c h s cfg hk hs hc).1 a (hv a ha) (hd a ha)
    have h2 : Complete (compile sp ic cc depth c h s cfg).2.1 v := by
      intro a ha
      have hra := (untouched_reach h1).mpr ha
      have hx := List.getElem?_eq_getElem (hv a hra)
      exact lt_of_get (by rw [h1 a hra]; exact hx)
    intro a ha
    rw [ih h2 a ((untouched_reach h1).mp ha), h1 a ha]

/-! ### With and without copy -/

theorem sameOut_of {R : Nat → Nat → Prop} {r₁ r₂ : Heap A × Except Err (Val A)} (hR : OneToOne R)
    (h : SimOut R r₁ r₂) : SameOutcome r₁ r₂ := by
  obtain ⟨h1, r1⟩ := r₁
  obtain ⟨h2, r2⟩ := r₂
  obtain ⟨hh, hr⟩ := h
  cases r1 <;> cases r2 <;> simp only [SameOutcome] at hr ⊢
  · exact hr
  · exact ⟨R, hR, hh, hr⟩

theorem runAll_sim {c₁ c₂ : Val A} : ∀ (ns : List (Node A)) (R : Nat → Nat → Prop) (h₁ h₂ : Heap A) (s₁ s₂ : Val A),
    Sim R h₁ h₂ [s₁, c₁] [s₂, c₂] →
    ∃ R', OneToOne R' ∧ (∀ a b, R a b → R' a b) ∧ SimOut R' (runAll ns h₁ s₁ c₁) (runAll ns h₂ s₂ c₂)
  | [], R, h₁, h₂, s₁, s₂, hs => by
    refine ⟨R, hs.inj, fun _ _ h => h, hs.heap, ?_⟩
    cases hs.known with
    | cons hv _ => exact hv
  | n :: ns, R, h₁, h₂, s₁, s₂, hs => by
    obtain ⟨R1, i1, m1, o1⟩ := run_sim n.func R h₁ h₂ _ _ hs
    have hc : SameVal R c₁ c₂ := by
      cases hs.known with
      | cons _ hk =>
        cases hk with
        | cons hc _ => exact hc
    rw [runAll, runAll]
    rcases e1 : run n.func h₁ [s₁, c₁] with ⟨g1, r1⟩
    rcases e2 : run n.func h₂ [s₂, c₂] with ⟨g2, r2⟩
    rw [e1, e2] at o1
    obtain ⟨oh, or⟩ := o1
    cases r1 <;> cases r2 <;> simp only at or
    · exact ⟨R1, i1, m1, oh, or⟩
    · obtain ⟨R2, i2, m2, o2⟩ := runAll_sim ns R1 g1 g2 _ _ ⟨i1, oh, .cons or (.cons (sameVal_mono m1 hc) .nil)⟩
      exact ⟨R2, i2, fun a b h => m2 a b (m1 a b h), o2⟩

theorem inner_sim (sp : PathFinder A) (ic : A → Bool) (cc : A) (c : Compiler A) {R : Nat → Nat → Prop} {h₁ h₂ : Heap A}
    {s₁ s₂ : Val A} {cfg₁ cfg₂ : Config A} (hpass : cfg₁.passes = cfg₂.passes)
    (hs : Sim R h₁ h₂ [s₁, cfg₁.obj] [s₂, cfg₂.obj]) :
    SameOutcome (inner sp ic cc c h₁ s₁ cfg₁).2 (inner sp ic cc c h₂ s₂ cfg₂).2 := by
  have hk := hs.known
  have hs1 : SameVal R s₁ s₂ := by
    cases hk with
    | cons h _ => exact h
  have hs2 : SameVal R cfg₁.obj cfg₂.obj := by
    cases hk with
    | cons _ h =>
      cases h with
      | cons h _ => exact h
  obtain ⟨R1, i1, m1, o1⟩ := run_sim reset R h₁ h₂ [s₁] [s₂] ⟨hs.inj, hs.heap, .cons hs1 .nil⟩
  unfold inner
  rw [← hpass]
  rcases e1 : run reset h₁ [s₁] with ⟨g1, r1⟩
  rcases e2 : run reset h₂ [s₂] with ⟨g2, r2⟩
  rw [e1, e2] at o1
  obtain ⟨oh, or⟩ := o1
  cases r1 <;> cases r2 <;> simp only at or ⊢
  · exact or
  · cases hp : pathOf sp (construct c cfg₁.passes) with
    | error e => simp only [SameOutcome]
    | ok p =>
      simp only
      obtain ⟨R2, i2, m2, o2⟩ := runAll_sim p R1 g1 g2 _ _ ⟨i1, oh, .cons or (.cons (sameVal_mono m1 hs2) .nil)⟩
      rcases f1 : runAll p g1 _ cfg₁.obj with ⟨k1, q1⟩
      rcases f2 : runAll p g2 _ cfg₂.obj with ⟨k2, q2⟩
      rw [f1, f2] at o2
      obtain ⟨oh2, or2⟩ := o2
      cases q1 <;> cases q2 <;> simp only at or2 ⊢
      · exact or2
      · obtain ⟨R3, i3, m3, o3⟩ := run_sim (mark ic cc) R2 k1 k2 [_] [_] ⟨i2, oh2, .cons or2 .nil⟩
        exact sameOut_of i3 o3

theorem sameObj_refl {R : Nat → Nat → Prop} : ∀ {o : Obj A}, (∀ k b, (k, Val.ref b) ∈ o → R b b) → SameObj R o o
  | [], _ => .nil
  | (k, .atom a) :: o, h => .cons ⟨rfl, rfl⟩ (sameObj_refl (fun k' b hb => h k' b (List.mem_cons_of_mem _ hb)))
  | (k, .ref a) :: o, h =>
    .cons ⟨rfl, h k a List.mem_cons_self⟩ (sameObj_refl (fun k' b hb => h k' b (List.mem_cons_of_mem _ hb)))

/-- **C73, same result.** Keeping the original schedule does not change the result: it is the same as when compiling in
place, but for the identity of objects, or it fails in the same way, whatever the passes do. -/
theorem same_result (sp : PathFinder A) (ic : A → Bool) (cc : A) (depth : Nat) (c : Compiler A) (h : Heap A) (s : Val A)
    (cfg : Config A) (hs : Complete h s) (hcfg : Complete h cfg.obj) (hd : Disjoint h s cfg.obj)
    (hdepth : h.length < depth) :
    SameOutcome (compile sp ic cc depth c h s { cfg with keep := false }).2
      (compile sp ic cc depth c h s { cfg with keep := true }).2 := by
  unfold compile
  rw [if_neg (by simp), if_pos rfl]
  obtain ⟨⟨s', h', M⟩, hcopy⟩ := copy_succeeds hs hdepth
  rw [hcopy]
  simp only
  obtain ⟨hpre, hinj, hsv, hmemo, hall⟩ := copy_ok hs hcopy
  refine inner_sim sp ic cc c (R := fun a b => (a, b) ∈ M ∨ (Reach h cfg.obj a ∧ a = b)) rfl ⟨⟨?_, ?_⟩, ?_, ?_⟩
  · rintro a b b' (h1 | ⟨h1, rfl⟩) (h2 | ⟨h2, rfl⟩)
    · exact hinj.1 a b b' h1 h2
    · exact absurd h2 (hd _ (hmemo _ _ h1).1)
    · exact absurd h1 (hd _ (hmemo _ _ h2).1)
    · rfl
  · rintro a a' b (h1 | ⟨h1, rfl⟩) (h2 | ⟨h2, rfl⟩)
    · exact hinj.2 a a' b h1 h2
    · have := hcfg _ h2
      have := (hmemo _ _ h1).2.1
      omega
    · have := hcfg _ h1
      have := (hmemo _ _ h2).2.1
      omega
    · rfl
  · rintro a b (h1 | ⟨h1, rfl⟩)
    · obtain ⟨_, _, o, p, e1, e2, e3⟩ := hmemo a b h1
      exact ⟨o, p, e1, e2, sameObj_mono (fun _ _ h => .inl h) e3⟩
    · have hx := List.getElem?_eq_getElem (hcfg a h1)
      exact ⟨_, _, hx, prefix_get hpre hx, sameObj_refl (fun k b hb => .inr ⟨h1.step hx hb, rfl⟩)⟩
  · refine .cons (sameVal_mono (fun _ _ h => .inl h) hsv) (.cons ?_ .nil)
    generalize cfg.obj = o
    cases o with
    | atom a => rfl
    | ref a => exact .inr ⟨.here a, rfl⟩

/-! ### Passes in order -/

/-- The nodes for the passes, numbered from `k`. -/
def nodesFrom (k : Nat) : List (Pass A) → List (Node A)
  | [] => []
  | p :: ps => ⟨k, p.1, p.2⟩ :: nodesFrom (k + 1) ps

theorem addNodes_some : ∀ (ps : List (Pass A)) (c : Compiler A) (m : Node A),
    addNodes c (some m) ps = (⟨c.made + ps.length, c.input, c.output,
      c.edges ++ (m :: nodesFrom c.made ps).zip (nodesFrom c.made ps)⟩,
      (m :: nodesFrom c.made ps).getLast?)
  | [], c, m => by simp [addNodes, nodesFrom]
  | p :: ps, c, m => by
    rw [addNodes, addNodes_some ps]
    simp only [nodesFrom, List.length_cons, List.zip_cons_cons, List.append_assoc, List.cons_append, List.nil_append,
      List.getLast?_cons_cons, Prod.mk.injEq, Compiler.mk.injEq, and_true, true_and]
    omega

theorem construct_cons (c : Compiler A) (p : Pass A) (ps : List (Pass A)) :
    (construct c (p :: ps)).input = some ⟨c.made, p.1, p.2⟩ ∧
    (construct c (p :: ps)).output = (nodesFrom c.made (p :: ps)).getLast? ∧
    (construct c (p :: ps)).edges = (nodesFrom c.made (p :: ps)).zip (nodesFrom (c.made + 1) ps) := by
  unfold construct
  rw [addNodes, addNodes_some]
  simp [nodesFrom]

theorem nodesFrom_id : ∀ (ps : List (Pass A)) (k i : Nat) (n : Node A), (nodesFrom k ps)[i]? = some n → n.id = k + i
  | [], k, i, n, h => by simp [nodesFrom] at h
  | p :: ps, k, 0, n, h => by
    simp only [nodesFrom, List.getElem?_cons_zero, Option.some.injEq] at h
    subst h; simp
  | p :: ps, k, i + 1, n, h => by
    simp only [nodesFrom, List.getElem?_cons_succ] at h
    have := nodesFrom_id ps (k + 1) i n h
    omega

theorem nodesFrom_length (ps : List (Pass A)) (k : Nat) : (nodesFrom k ps).length = ps.length := by
  induction ps generalizing k with
  | nil => rfl
  | cons p ps ih => simp [nodesFrom, ih]

/-- In a line of nodes, a path from the first to the last one is the line. -/
theorem line_path {L : List (Node A)} {k : Nat} (hid : ∀ i n, L[i]? = some n → n.id = k + i) {n m : Node A}
    (hn : L.head? = some n) (hm : L.getLast? = some m) {p : List (Node A)}
    (hp : IsPath (L.zip L.tail) n m p) : p = L := by
  obtain ⟨h1, h2, h3⟩ := hp
  have succ : ∀ x y, (x, y) ∈ L.zip L.tail → ∃ i, L[i]? = some x ∧ L[i + 1]? = some y := by
    intro x y hxy
    obtain ⟨i, hi⟩ := List.mem_iff_getElem?.mp hxy
    rw [List.getElem?_zip_eq_some] at hi
    exact ⟨i, hi.1, by rw [← List.getElem?_tail]; exact hi.2⟩
  have nth : ∀ (i : Nat) x, p[i]? = some x → L[i]? = some x := by
    intro i
    induction i with
    | zero =>
      intro x hx
      rw [← List.head?_eq_getElem?] at hx ⊢
      rw [h1] at hx
      rw [hn]; exact hx
    | succ i ih =>
      intro x hx
      have hlt := lt_of_get hx
      have hi : p[i]? = some p[i] := List.getElem?_eq_getElem (by omega)
      have hchain := List.isChain_iff_getElem.mp h3 i hlt
      obtain ⟨j, hj1, hj2⟩ := succ _ _ hchain
      have e1 := hid _ _ (ih _ hi)
      have e2 := hid _ _ hj1
      have : i = j := by omega
      subst this
      rw [List.getElem?_eq_getElem hlt] at hx
      rw [hj2, hx]
  have hne : p ≠ [] := by
    rintro rfl; simp at h1
  have hLne : L ≠ [] := by
    rintro rfl; simp at hn
  have hlen : p.length = L.length := by
    have hpl : p[p.length - 1]? = some m := by rw [← List.getLast?_eq_getElem?]; exact h2
    have hLl : L[L.length - 1]? = some m := by rw [← List.getLast?_eq_getElem?]; exact hm
    have e1 := hid _ _ (nth _ _ hpl)
    have e2 := hid _ _ hLl
    have := List.length_pos_of_ne_nil hne
    have := List.length_pos_of_ne_nil hLne
    omega
  apply List.ext_getElem? 
  intro i
  by_cases hi : i < p.length
  · have := List.getElem?_eq_getElem hi
    rw [this, nth i _ this]
  · rw [List.getElem?_eq_none (by omega), List.getElem?_eq_none (by omega)]

theorem line_isPath {L : List (Node A)} {n m : Node A} (hn : L.head? = some n) (hm : L.getLast? = some m) :
    IsPath (L.zip L.tail) n m L := by
  refine ⟨hn, hm, ?_⟩
  rw [List.isChain_iff_getElem]
  intro i hi
  rw [List.mem_iff_getElem?]
  refine ⟨i, ?_⟩
  rw [List.getElem?_zip_eq_some]
  exact ⟨List.getElem?_eq_getElem (by omega), by
    rw [List.getElem?_tail]; exact List.getElem?_eq_getElem (by omega)⟩

/-- The path that is executed consists of the passes in their order. -/
theorem pathOf_construct {sp : PathFinder A} (hsp : Finds sp) (c : Compiler A) {ps : List (Pass A)} (hne : ps ≠ []) :
    pathOf sp (construct c ps) = .ok (nodesFrom c.made ps) := by
  obtain ⟨p, ps, rfl⟩ := List.exists_cons_of_ne_nil hne
  obtain ⟨h1, h2, h3⟩ := construct_cons c p ps
  have hm : (nodesFrom c.made (p :: ps)).getLast? = some ((nodesFrom c.made (p :: ps)).getLast (by simp [nodesFrom])) :=
    List.getLast?_eq_some_getLast _
  unfold pathOf
  rw [h1, h2, hm]
  simp only
  set m := (nodesFrom c.made (p :: ps)).getLast (by simp [nodesFrom]) with hmdef
  have hn : (nodesFrom c.made (p :: ps)).head? = some ⟨c.made, p.1, p.2⟩ := rfl
  split
  · rename_i hid
    have hlast : (nodesFrom c.made (p :: ps))[(nodesFrom c.made (p :: ps)).length - 1]? = some m := by
      rw [← List.getLast?_eq_getElem?]; exact hm
    have := nodesFrom_id _ _ _ _ hlast
    rw [nodesFrom_length] at this
    simp only [List.length_cons] at this hid
    have hl : ps.length = 0 := by omega
    have : ps = [] := List.length_eq_zero_iff.mp hl
    subst this
    rfl
  · have hpath := line_isPath hn hm
    have htail : (nodesFrom c.made (p :: ps)).tail = nodesFrom (c.made + 1) ps := rfl
    rw [htail] at hpath
    have hf := hsp (construct c (p :: ps)).edges ⟨c.made, p.1, p.2⟩ m
    rw [h3] at hf ⊢
    cases hq : sp ((nodesFrom c.made (p :: ps)).zip (nodesFrom (c.made + 1) ps)) ⟨c.made, p.1, p.2⟩ m with
    | none =>
      rw [hq] at hf
      exact absurd hpath (hf _)
    | some q =>
      rw [hq] at hf
      simp only
      congr 1
      exact line_path (k := c.made) (nodesFrom_id _ _) hn hm (by rw [htail]; exact hf.1)

theorem runAll_inOrder (c : Val A) : ∀ (ps : List (Pass A)) (k : Nat) (h : Heap A) (s : Val A),
    InOrder c ps h s (runAll (nodesFrom k ps) h s c).1 (runAll (nodesFrom k ps) h s c).2
  | [], k, h, s => .done h s
  | p :: ps, k, h, s => by
    rw [nodesFrom, runAll]
    rcases hr : run p.2 h [s, c] with ⟨h', e | s'⟩
    · exact .failed _ _ _ _ _ _ hr
    · exact .next _ _ _ _ _ _ _ _ hr (runAll_inOrder c ps (k + 1) h' s')

theorem runAll_nodes (c : Val A) : ∀ (ps : List (Pass A)) (k k' : Nat) (h : Heap A) (s : Val A),
    runAll (nodesFrom k ps) h s c = runAll (nodesFrom k' ps) h s c
  | [], k, k', h, s => rfl
  | p :: ps, k, k', h, s => by
    rw [nodesFrom, nodesFrom, runAll, runAll]
    rcases hr : run p.2 h [s, c] with ⟨h', e | s'⟩
    · rfl
    · exact runAll_nodes c ps _ _ h' s'

/-- **C73, passes.** Each pass is executed once, in the order of the configuration, the passes for the device before
those for the hardware; each gets what the one before returned, and a pass that fails is the last one. -/
theorem in_order {sp : PathFinder A} (hsp : Finds sp) (ic : A → Bool) (cc : A) (depth : Nat) (c : Compiler A)
    (h : Heap A) (s : Val A) (cfg : Config A) (hkeep : cfg.keep = false)
    (hne : cfg.device.getD [] ++ cfg.hardware.getD [] ≠ []) {h1 : Heap A} {s1 : Val A}
    (hreset : run reset h [s] = (h1, .ok s1)) :
    ∃ h2 r, InOrder cfg.obj (cfg.device.getD [] ++ cfg.hardware.getD []) h1 s1 h2 r ∧
      (∀ e, r = .error e → (compile sp ic cc depth c h s cfg).2 = (h2, .error e)) ∧
      ∀ s2, r = .ok s2 → (compile sp ic cc depth c h s cfg).2 = run (mark ic cc) h2 [s2] := by
  refine ⟨_, _, runAll_inOrder cfg.obj (cfg.device.getD [] ++ cfg.hardware.getD []) c.made h1 s1, ?_, ?_⟩
  all_goals
    intro x hx
    unfold compile
    rw [if_neg (by simp [hkeep])]
    unfold inner
    rw [hreset]
    simp only
    rw [pathOf_construct hsp c (ps := cfg.passes) hne]
    simp only
    unfold Config.passes
    rcases hr : runAll (nodesFrom c.made (cfg.device.getD [] ++ cfg.hardware.getD [])) h1 s1 cfg.obj with ⟨h2, r⟩
    rw [hr] at hx
    simp only at hx
    subst hx
    rfl

/-- **C73, history.** What was compiled before with the same compiler object makes no difference. -/
theorem history_free {sp : PathFinder A} (hsp : Finds sp) (ic : A → Bool) (cc : A) (depth : Nat) (c₁ c₂ : Compiler A)
    (h : Heap A) (s : Val A) (cfg : Config A) (hne : cfg.device.getD [] ++ cfg.hardware.getD [] ≠ []) :
    (compile sp ic cc depth c₁ h s cfg).2 = (compile sp ic cc depth c₂ h s cfg).2 := by
  have key : ∀ (h : Heap A) (s : Val A), (inner sp ic cc c₁ h s cfg).2 = (inner sp ic cc c₂ h s cfg).2 := by
    intro h s
    unfold inner
    rcases run reset h [s] with ⟨h1, e | s1⟩
    · rfl
    · simp only
      rw [pathOf_construct hsp c₁ (ps := cfg.passes) hne, pathOf_construct hsp c₂ (ps := cfg.passes) hne]
      simp only
      rw [runAll_nodes cfg.obj cfg.passes c₁.made c₂.made]
      rcases runAll (nodesFrom c₂.made cfg.passes) h1 s1 cfg.obj with ⟨h2, e | s2⟩ <;> rfl
  unfold compile
  split
  · cases copyVal depth (h, []) s with
    | error e => rfl
    | ok r => exact key _ _
  · exact key h s

/-- A configuration without passes is refused, though not with an exception that says so. -/
theorem empty_refused (sp : PathFinder A) (ic : A → Bool) (cc : A) (depth : Nat) (c : Compiler A) (h : Heap A)
    (s : Val A) (cfg : Config A) (he : cfg.device.getD [] ++ cfg.hardware.getD [] = []) :
    ∃ e, (compile sp ic cc depth c h s cfg).2.2 = .error e := by
  have key : ∀ (h : Heap A) (s : Val A), ∃ e, (inner sp ic cc c h s cfg).2.2 = .error e := by
    intro h s
    unfold inner
    rcases run reset h [s] with ⟨h1, e | s1⟩
    · exact ⟨e, rfl⟩
    · have : ∃ e, pathOf sp (construct c cfg.passes) = .error e := by
        unfold Config.passes
        rw [he]
        unfold construct pathOf
        simp only [addNodes]
        cases c.input <;> exact ⟨_, rfl⟩
      obtain ⟨e, hp⟩ := this
      exact ⟨e, by simp only [hp]⟩
  unfold compile
  split
  · cases copyVal depth (h, []) s with
    | error e => exact ⟨e, rfl⟩
    | ok r => exact key _ _
  · exact key h s

/-- There are functions that find shortest paths. -/
theorem exists_finder : ∃ sp : PathFinder A, Finds sp := by
  classical
  have : ∀ (edges : List (Node A × Node A)) (n m : Node A), ∃ r : Option (List (Node A)),
      match r with
      | some p => IsPath edges n m p ∧ ∀ q, IsPath edges n m q → p.length ≤ q.length
      | none => ∀ q, ¬ IsPath edges n m q := by
    intro edges n m
    by_cases h : ∃ k p, IsPath edges n m p ∧ p.length = k
    · obtain ⟨p, h1, h2⟩ := Nat.find_spec h
      refine ⟨some p, h1, fun q hq => ?_⟩
      rw [h2]
      exact Nat.find_min' h ⟨q, hq, rfl⟩
    · exact ⟨none, fun q hq => h ⟨_, q, hq, rfl⟩⟩
  choose sp hsp using this
  exact ⟨sp, hsp⟩

end Verif.Compile
