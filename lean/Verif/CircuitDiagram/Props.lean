/-
C76: what a circuit diagram shows.
-/
import Verif.CircuitDiagram.Draw
import Mathlib.Data.List.Induction
import Mathlib.Tactic.Ring
import Mathlib.Tactic.NormNum

set_option linter.unusedSimpArgs false
set_option linter.unusedVariables false

namespace Verif.CircuitDiagram

/-! ### Congruence -/

theorem gateDue_congr {E E' : String → Nat → Prop} {g : Gate} (h : ∀ e ∈ g.elems, ∀ l, E e l ↔ E' e l) {x : Rat} {y : Glyph}
    (hd : GateDue E g x y) : GateDue E' g x y := by
  cases hd with
  | box h1 he hf => exact .box h1 he ((h _ he _).1 hf)
  | reset h1 he hf => exact .reset h1 he ((h _ he _).1 hf)
  | meter h1 he hf => exact .meter h1 he ((h _ he _).1 hf)
  | acq h1 he hf => exact .acq h1 he ((h _ he _).1 hf)
  | acqText h1 he hf hm => exact .acqText h1 he ((h _ he _).1 hf) (fun e' he' l' hl' => hm e' he' l' ((h _ he' _).2 hl'))
  | baseband h1 he hf => exact .baseband h1 he ((h _ he _).1 hf)
  | modulated h1 he hf => exact .modulated h1 he ((h _ he _).1 hf)
  | pulseText h1 he hf => exact .pulseText h1 he ((h _ he _).1 hf)
  | link h1 he hf hf' => exact .link h1 he ((h _ (by simp [he]) _).1 hf) ((h _ (by simp [he]) _).1 hf')
  | plus h1 he hf => exact .plus h1 he ((h _ (by simp [he]) _).1 hf)

theorem due_congr {E E' P P' : String → Nat → Prop} {o : Op} {res : List (String × Rat)}
    (hE : ∀ g, o.gate = some g → ∀ e ∈ g.elems, ∀ l, E e l ↔ E' e l) (hP : ∀ p l, P p l ↔ P' p l) {x : Rat} {y : Glyph} :
    Due E P res o x y ↔ Due E' P' res o x y := by
  constructor
  · intro hd
    cases hd with
    | gate hg hd => exact .gate hg (gateDue_congr (hE _ hg) hd)
    | baseband h1 h2 h3 h4 h5 h6 => exact .baseband h1 h2 h3 h4 h5 ((hP _ _).1 h6)
    | modulated h1 h2 h3 h4 h5 h6 h7 => exact .modulated h1 h2 h3 h4 h5 h6 ((hP _ _).1 h7)
    | name h1 h2 h3 h4 => exact .name h1 h2 h3 ((hP _ _).1 h4)
    | acq h1 h2 h3 h4 => exact .acq h1 h2 h3 ((hP _ _).1 h4)
  · intro hd
    cases hd with
    | gate hg hd => exact .gate hg (gateDue_congr (fun e he l => (hE _ hg e he l).symm) hd)
    | baseband h1 h2 h3 h4 h5 h6 => exact .baseband h1 h2 h3 h4 h5 ((hP _ _).2 h6)
    | modulated h1 h2 h3 h4 h5 h6 h7 => exact .modulated h1 h2 h3 h4 h5 h6 ((hP _ _).2 h7)
    | name h1 h2 h3 h4 => exact .name h1 h2 h3 ((hP _ _).2 h4)
    | acq h1 h2 h3 h4 => exact .acq h1 h2 h3 ((hP _ _).2 h4)

/-- What is assumed of a schedule: bodies of control flow are operations or schedules, no device element is called "other";
the resources are a dict. -/
structure Fine (order : List String) (res : List (String × Rat)) (s : Node) : Prop where
  simple : Simple s
  order : IsOrder order s
  other : ¬ IsElement s "other"
  clocks : (res.map Prod.fst).Nodup
  pure : Pure s

variable {order : List String} {res : List (String × Rat)} {s : Node}

theorem leaf_elem (hs : Fine order res s) {x : Rat × Op} (hx : x ∈ leaves 0 s) {g : Gate} (hg : x.2.gate = some g) {e : String}
    (he : e ∈ g.elems) (l : Nat) : Finds (maps order s).elems e l ↔ ElemLine s e l :=
  elem_line hs.simple hs.order hs.other ⟨x, hx, g, hg, he⟩ l

theorem port_finds (hs : Fine order res s) (p : String) (l : Nat) :
    Finds (maps order s).ports p l ↔ DrawnLine order s p l := port_line hs.simple hs.order hs.other p l

theorem elemLine_exists (hs : Fine order res s) {e : String} (he : IsElement s e) : ∃ l, ElemLine s e l := by
  have hr := (rank_before hs.simple e _).2 rfl
  by_cases hf : ∃ p, Foreign s p
  · exact ⟨_, he, _, hr, Or.inl ⟨hf, rfl⟩⟩
  · exact ⟨_, he, _, hr, Or.inr ⟨hf, rfl⟩⟩

theorem drawnLine_exists (hs : Fine order res s) {p : String} (hp : IsPort s p) : ∃ l, DrawnLine order s p l := by
  by_cases ho : Owned s p
  · obtain ⟨e, h1, h2⟩ := ho
    have hr := (rank_before hs.simple e _).2 rfl
    by_cases hf : ∃ a q b, order = a ++ p :: b ∧ q ∈ a ∧ Foreign s q
    · exact ⟨_, hp, Or.inr ⟨e, _, h1, h2, hr, Or.inl ⟨hf, rfl⟩⟩⟩
    · exact ⟨_, hp, Or.inr ⟨e, _, h1, h2, hr, Or.inr ⟨hf, rfl⟩⟩⟩
  · exact ⟨0, hp, Or.inl ⟨ho, rfl⟩⟩

theorem known (hs : Fine order res s) {x : Rat × Op} (hx : x ∈ leaves 0 s) : Known (maps order s) x.2 := by
  refine ⟨?_, ?_, ?_⟩
  · intro g hg e he
    obtain ⟨l, hl⟩ := elemLine_exists hs ⟨x, hx, g, hg, he⟩
    exact ⟨l, (leaf_elem hs hx hg he l).2 hl⟩
  · intro p hp q hq
    have hgn : x.2.gate = none := by
      by_contra hc
      rw [(hs.pure x hx hc).1] at hp; simp at hp
    obtain ⟨l, hl⟩ := drawnLine_exists hs (p := q) ⟨x, hx, hgn, Or.inl ⟨p, hp, hq⟩⟩
    exact ⟨l, (port_finds hs q l).2 hl⟩
  · intro a ha
    have hgn : x.2.gate = none := by
      by_contra hc
      rw [(hs.pure x hx hc).2] at ha; simp at ha
    obtain ⟨l, hl⟩ := drawnLine_exists hs (p := a.port) ⟨x, hx, hgn, Or.inr ⟨a, ha, rfl⟩⟩
    exact ⟨l, (port_finds hs _ l).2 hl⟩

mutual
theorem flows_prefix : ∀ (n : Node) (pre : List (Rat × Op)) (t : Rat) (u : Use), u ∈ flows pre t n →
    ∃ c, pre ++ leaves t n = u.before ++ u.inside ++ c
  | .op o, pre, t, u, h => by rw [flows] at h; simp at h
  | .loop r b, pre, t, u, h => by
    rw [flows, List.mem_cons] at h
    rw [leaves]
    rcases h with rfl | h
    · exact ⟨[], by simp⟩
    · exact flows_prefix b pre t u h
  | .cond l buf b, pre, t, u, h => by
    rw [flows, List.mem_cons] at h
    rw [leaves]
    rcases h with rfl | h
    · exact ⟨[], by simp⟩
    · exact flows_prefix b pre t u h
  | .sched r its, pre, t, u, h => by
    rw [flows] at h; rw [leaves]; exact flowsItems_prefix its pre t u h
theorem flowsItems_prefix : ∀ (its : Items) (pre : List (Rat × Op)) (t : Rat) (u : Use), u ∈ flowsItems pre t its →
    ∃ c, pre ++ leavesItems t its = u.before ++ u.inside ++ c
  | .nil, pre, t, u, h => by rw [flowsItems] at h; simp at h
  | .cons v n rest, pre, t, u, h => by
    rw [flowsItems, List.mem_append] at h
    rw [leavesItems]
    rcases h with h | h
    · obtain ⟨c, hc⟩ := flows_prefix n pre (t + v) u h
      exact ⟨c ++ leavesItems t rest, by rw [← List.append_assoc, hc]; simp⟩
    · obtain ⟨c, hc⟩ := flowsItems_prefix rest (pre ++ leaves (t + v) n) t u h
      exact ⟨c, by rw [← List.append_assoc, hc]⟩
end

/-- The body of control flow. -/
def bodyOf : Node → Option Node
  | .loop _ b => some b
  | .cond _ _ b => some b
  | _ => none

mutual
theorem flows_body : ∀ (n : Node) (pre : List (Rat × Op)) (t : Rat) (u : Use), Simple n → u ∈ flows pre t n →
    ∃ b, bodyOf u.flow = some b ∧ bodyOps b = u.inside.map Prod.snd
  | .op o, pre, t, u, hs, h => by rw [flows] at h; simp at h
  | .loop r b, pre, t, u, hs, h => by
    rw [Simple] at hs
    rw [flows, List.mem_cons] at h
    rcases h with rfl | h
    · exact ⟨b, rfl, bodyOps_eq b t hs.1 hs.2⟩
    · exact flows_body b pre t u hs.2 h
  | .cond l buf b, pre, t, u, hs, h => by
    rw [Simple] at hs
    rw [flows, List.mem_cons] at h
    rcases h with rfl | h
    · exact ⟨b, rfl, bodyOps_eq b t hs.1 hs.2⟩
    · exact flows_body b pre t u hs.2 h
  | .sched r its, pre, t, u, hs, h => by
    rw [Simple] at hs
    rw [flows] at h; exact flowsItems_body its pre t u hs h
theorem flowsItems_body : ∀ (its : Items) (pre : List (Rat × Op)) (t : Rat) (u : Use), SimpleItems its →
    u ∈ flowsItems pre t its → ∃ b, bodyOf u.flow = some b ∧ bodyOps b = u.inside.map Prod.snd
  | .nil, pre, t, u, hs, h => by rw [flowsItems] at h; simp at h
  | .cons v n rest, pre, t, u, hs, h => by
    rw [SimpleItems] at hs
    rw [flowsItems, List.mem_append] at h
    rcases h with h | h
    · exact flows_body n pre (t + v) u hs.1 h
    · exact flowsItems_body rest _ t u hs.2 h
end

theorem use_leaves {u : Use} (hu : u ∈ flows [] 0 s) {x : Rat × Op} (hx : x ∈ u.before ++ u.inside) : x ∈ leaves 0 s := by
  obtain ⟨c, hc⟩ := flows_prefix s [] 0 u hu
  rw [List.nil_append] at hc
  rw [hc]; exact List.mem_append_left _ hx

theorem involved_iff (hs : Fine order res s) {u : Use} (hu : u ∈ flows [] 0 s) (l : Nat) :
    (∃ o ∈ u.inside.map Prod.snd, On (maps order s) o l) ↔
      Involved (ElemLine s) (DrawnLine order s) u.inside l := by
  have hx : ∀ x ∈ u.inside, x ∈ leaves 0 s := fun x hx => use_leaves hu (List.mem_append_right _ hx)
  rw [Involved]
  constructor
  · rintro ⟨o, ho, h⟩
    obtain ⟨x, hxm, rfl⟩ := List.mem_map.1 ho
    refine ⟨x, hxm, ?_⟩
    rcases h with ⟨g, e, hg, he, hf⟩ | ⟨p, port, hp, hq, hf⟩ | ⟨a, ha, hf⟩
    · exact Or.inl ⟨g, e, hg, he, (leaf_elem hs (hx x hxm) hg he l).1 hf⟩
    · exact Or.inr (Or.inl ⟨p, port, hp, hq, (port_finds hs _ _).1 hf⟩)
    · exact Or.inr (Or.inr ⟨a, ha, (port_finds hs _ _).1 hf⟩)
  · rintro ⟨x, hxm, h⟩
    refine ⟨x.2, List.mem_map.2 ⟨x, hxm, rfl⟩, ?_⟩
    rcases h with ⟨g, e, hg, he, hf⟩ | ⟨p, port, hp, hq, hf⟩ | ⟨a, ha, hf⟩
    · exact Or.inl ⟨g, e, hg, he, (leaf_elem hs (hx x hxm) hg he l).2 hf⟩
    · exact Or.inr (Or.inl ⟨p, port, hp, hq, (port_finds hs _ _).2 hf⟩)
    · exact Or.inr (Or.inr ⟨a, ha, (port_finds hs _ _).2 hf⟩)

theorem lines_lt (hs : Fine order res s) {n : Nat} (hn : LineCount s n) {u : Use} {l : Nat}
    (h : Involved (ElemLine s) (DrawnLine order s) u.inside l) : l < n := by
  have hel : ∀ e, ElemLine s e l → l < n := by
    rintro e ⟨he, k, hk, hh⟩
    obtain ⟨h1, h2⟩ := elem_line_lt hs.simple hs.order hs.other hk he hn
    rcases hh with ⟨hf, rfl⟩ | ⟨hf, rfl⟩
    · exact h2 hf
    · exact h1
  have hpo : ∀ p, DrawnLine order s p l → l < n := by
    rintro p ⟨hp, ⟨ho, rfl⟩ | ⟨e, k, he, hie, hk, hh⟩⟩
    · obtain ⟨l', hn', hl', hh⟩ := hn
      rcases hh with ⟨hf, rfl⟩ | ⟨hf, rfl⟩
      · omega
      · exact absurd ⟨p, hp, ho⟩ hf
    · obtain ⟨h1, h2⟩ := elem_line_lt hs.simple hs.order hs.other hk hie hn
      rcases hh with ⟨⟨a, q, b, -, -, hq⟩, rfl⟩ | ⟨hf, rfl⟩
      · exact h2 ⟨q, hq⟩
      · exact h1
  obtain ⟨x, -, ⟨g, e, -, -, h⟩ | ⟨p, port, -, -, h⟩ | ⟨a, -, h⟩⟩ := h
  · exact hel e h
  · exact hpo port h
  · exact hpo _ h

theorem nodup_full {L : List Nat} {n : Nat} (hn : L.Nodup) (hlt : ∀ l ∈ L, l < n) : L.length = n ↔ ∀ l < n, l ∈ L := by
  constructor
  · intro hlen l hl
    by_contra hc
    have hsub : (l :: L) ⊆ List.range n := by
      intro x hx
      rcases List.mem_cons.1 hx with rfl | hx
      · exact List.mem_range.2 hl
      · exact List.mem_range.2 (hlt x hx)
    have := (List.subperm_of_subset (List.nodup_cons.2 ⟨hc, hn⟩) hsub).length_le
    simp only [List.length_cons, List.length_range] at this
    omega
  · intro h
    have h1 := (List.subperm_of_subset hn (fun x hx => List.mem_range.2 (hlt x hx))).length_le
    have h2 := (List.subperm_of_subset List.nodup_range (fun x hx => h x (List.mem_range.1 hx))).length_le
    simp only [List.length_range] at h1 h2
    omega

/-- The lines of a body. -/
theorem indices_spec (hs : Fine order res s) {u : Use} (hu : u ∈ flows [] 0 s) {b : Node} (hb : bodyOf u.flow = some b)
    {ls : List Nat} (h : indices (maps order s) b = .ok ls) :
    (∀ l, l ∈ ls ↔ Involved (ElemLine s) (DrawnLine order s) u.inside l) ∧
    (ls.length = (maps order s).elems.length ↔
      ∀ l < (maps order s).elems.length, Involved (ElemLine s) (DrawnLine order s) u.inside l) := by
  obtain ⟨b', hb', hops⟩ := flows_body s [] 0 u hs.simple hu
  rw [hb] at hb'; simp only [Option.some.injEq] at hb'; subst hb'
  rw [indices, hops] at h
  cases hl : linesOf (maps order s) (u.inside.map Prod.snd) with
  | error e => rw [hl] at h; simp at h
  | ok L =>
    rw [hl] at h
    simp only [Except.ok.injEq] at h
    subst h
    have hmem : ∀ l, l ∈ L.dedup ↔ Involved (ElemLine s) (DrawnLine order s) u.inside l := by
      intro l; rw [List.mem_dedup, linesOf_mem hl, involved_iff hs hu]
    refine ⟨hmem, ?_⟩
    rw [nodup_full (List.nodup_dedup L) (fun l hl' =>
      lines_lt hs (length_map_elems hs.simple hs.order hs.other) ((hmem l).1 hl'))]
    simp only [hmem]

/-! ### Feedback -/

theorem feedback_iff {m : Maps} {o : Op} (hk : Known m o) (hpure : o.gate ≠ none → o.pulses = [] ∧ o.acqs = [])
    (l : String) (line : Nat) : feedback m o = .ok (some (l, line)) ↔
      Measured.HasLabel (Finds m.elems) (Finds m.ports) l o line := by
  rw [Measured.HasLabel]
  cases hg : o.gate with
  | some g =>
    obtain ⟨-, ha⟩ := hpure (by simp [hg])
    simp only [feedback, ha, gateFeedback, hg, List.nil_eq, reduceCtorEq, false_and, exists_false, false_or,
      Option.some.injEq]
    cases hl : g.label with
    | none => simp [hl]
    | some l' =>
      simp only
      cases he : g.elems with
      | nil => simp [he]
      | cons e es =>
        simp only
        cases hf : find m.elems e with
        | error er => simp [he, Finds, hf]
        | ok v => simp [he, Finds, hf, hl]
  | none =>
    simp only [feedback, gateFeedback, hg, reduceCtorEq, false_and, exists_false, or_false]
    cases ha : o.acqs with
    | nil => simp
    | cons a as =>
      simp only
      cases hl : a.label with
      | none => simp [hl]
      | some l' =>
        simp only
        cases hf : find m.ports a.port with
        | error er => simp [Finds, hf]
        | ok v => simp [Finds, hf, hl]

theorem fbOf_spec {m : Maps} {l : String} {c line : Nat} : ∀ (pre : List (Rat × Op)),
    (∀ x ∈ pre, Known m x.2 ∧ (x.2.gate ≠ none → x.2.pulses = [] ∧ x.2.acqs = [])) →
    (Dict.get? (fbOf m pre) l = some (c, line) ↔ Measured (Finds m.elems) (Finds m.ports) pre l c line) := by
  intro pre
  induction pre using List.reverseRecOn with
  | nil => intro _; simp [fbOf, Dict.get?, Measured]
  | append_singleton pre x ih =>
    intro h
    have ih := ih (fun y hy => h y (by simp [hy]))
    have hx := h x (by simp)
    have hfi := feedback_iff hx.1 hx.2
    rw [fbOf_snoc]
    have hno : (∀ k, ¬ Measured.HasLabel (Finds m.elems) (Finds m.ports) l x.2 k) →
        (Measured (Finds m.elems) (Finds m.ports) (pre ++ [x]) l c line ↔
          Measured (Finds m.elems) (Finds m.ports) pre l c line) := by
      intro hn
      constructor
      · rintro ⟨a, y, b, hab, hc, hl, hpost⟩
        rcases List.eq_nil_or_concat b with rfl | ⟨b', z, rfl⟩
        · have := List.append_inj_right' (s₁ := pre) (s₂ := a) (t₁ := [x]) (t₂ := [y]) (by simpa using hab) rfl
          simp only [List.cons.injEq, and_true] at this
          subst this
          exact absurd hl (hn line)
        · have h1 : pre ++ [x] = (a ++ y :: b') ++ [z] := by rw [hab]; simp
          have h2 := List.append_inj_left' h1 rfl
          exact ⟨a, y, b', h2, hc, hl, fun w hw => hpost w (by simp [hw])⟩
      · rintro ⟨a, y, b, hab, hc, hl, hpost⟩
        refine ⟨a, y, b ++ [x], by rw [hab]; simp, hc, hl, ?_⟩
        intro w hw
        rcases List.mem_append.1 hw with hw | hw
        · exact hpost w hw
        · rw [List.mem_singleton] at hw; subst hw; exact hn
    cases hf : feedback m x.2 with
    | error e =>
      simp only
      rw [ih, hno]
      intro k hk; rw [← hfi, hf] at hk; simp at hk
    | ok f =>
      cases f with
      | none =>
        simp only
        rw [ih, hno]
        intro k hk; rw [← hfi, hf] at hk; simp at hk
      | some p =>
        obtain ⟨l', line'⟩ := p
        simp only
        by_cases hll : l = l'
        · subst hll
          have hlab := (hfi l line').1 hf
          rw [Dict.get?_set_self]
          constructor
          · intro heq
            simp only [Option.some.injEq, Prod.mk.injEq] at heq
            obtain ⟨rfl, rfl⟩ := heq
            exact ⟨pre, x, [], rfl, rfl, hlab, by simp⟩
          · rintro ⟨a, y, b, hab, hc, hl, hpost⟩
            rcases List.eq_nil_or_concat b with rfl | ⟨b', z, rfl⟩
            · have h1 := List.append_inj_right' (s₁ := pre) (s₂ := a) (t₁ := [x]) (t₂ := [y]) (by simpa using hab) rfl
              have h2 := List.append_inj_left' (s₁ := pre) (s₂ := a) (t₁ := [x]) (t₂ := [y]) (by simpa using hab) rfl
              simp only [List.cons.injEq, and_true] at h1
              subst h1 h2
              have := (hfi l line).2 hl
              rw [hf] at this
              simp only [Except.ok.injEq, Option.some.injEq, Prod.mk.injEq, true_and] at this
              rw [hc, this]
            · have h1 : pre ++ [x] = (a ++ y :: b') ++ [z] := by rw [hab]; simp
              have h2 := List.append_inj_right' h1 rfl
              simp only [List.cons.injEq, and_true] at h2
              subst h2
              exact absurd hlab (hpost x (by simp) line')
        · rw [Dict.get?_set_ne _ _ hll, ih, hno]
          intro k hk; rw [← hfi, hf] at hk
          simp only [Except.ok.injEq, Option.some.injEq, Prod.mk.injEq] at hk
          exact hll hk.1.symm

theorem hasLabel_congr (hs : Fine order res s) {x : Rat × Op} (hx : x ∈ leaves 0 s) (l : String) (line : Nat) :
    Measured.HasLabel (Finds (maps order s).elems) (Finds (maps order s).ports) l x.2 line ↔
      Measured.HasLabel (ElemLine s) (DrawnLine order s) l x.2 line := by
  rw [Measured.HasLabel, Measured.HasLabel]
  apply or_congr
  · constructor
    · rintro ⟨a, r, h1, h2, h3⟩; exact ⟨a, r, h1, h2, (port_finds hs _ _).1 h3⟩
    · rintro ⟨a, r, h1, h2, h3⟩; exact ⟨a, r, h1, h2, (port_finds hs _ _).2 h3⟩
  · constructor
    · rintro ⟨g, e, r, h1, h2, h3, h4⟩; exact ⟨g, e, r, h1, h2, h3, (leaf_elem hs hx h1 (by simp [h3]) _).1 h4⟩
    · rintro ⟨g, e, r, h1, h2, h3, h4⟩; exact ⟨g, e, r, h1, h2, h3, (leaf_elem hs hx h1 (by simp [h3]) _).2 h4⟩

theorem measured_congr (hs : Fine order res s) {pre : List (Rat × Op)} (hp : ∀ x ∈ pre, x ∈ leaves 0 s) (l : String)
    (c line : Nat) : Measured (Finds (maps order s).elems) (Finds (maps order s).ports) pre l c line ↔
      Measured (ElemLine s) (DrawnLine order s) pre l c line := by
  constructor
  · rintro ⟨a, x, b, rfl, h1, h2, h3⟩
    exact ⟨a, x, b, rfl, h1, (hasLabel_congr hs (hp x (by simp)) l line).1 h2, fun y hy k hk =>
      h3 y hy k ((hasLabel_congr hs (hp y (by simp [hy])) l k).2 hk)⟩
  · rintro ⟨a, x, b, rfl, h1, h2, h3⟩
    exact ⟨a, x, b, rfl, h1, (hasLabel_congr hs (hp x (by simp)) l line).2 h2, fun y hy k hk =>
      h3 y hy k ((hasLabel_congr hs (hp y (by simp [hy])) l k).1 hk)⟩

theorem find_fb (hs : Fine order res s) {u : Use} (hu : u ∈ flows [] 0 s) (l : String) (c line : Nat) :
    find (fbOf (maps order s) (u.before ++ u.inside)) l = .ok (c, line) ↔
      Measured (ElemLine s) (DrawnLine order s) (u.before ++ u.inside) l c line := by
  rw [← measured_congr hs (fun x hx => use_leaves hu hx), ← fbOf_spec _ (fun x hx =>
    ⟨known hs (use_leaves hu hx), hs.pure x (use_leaves hu hx)⟩), find]
  cases Dict.get? (fbOf (maps order s) (u.before ++ u.inside)) l <;> simp

/-! ### The diagram -/

theorem diagram_ok {d : Diagram} (hs : Fine order res s) (h : diagram order res s = .ok d) :
    allGlyphs (maps order s) res (entries [] 0 s) = .ok d.glyphs ∧ d.lines = (maps order s).elems ∧ d.left = -1 ∧
      d.right = steps (times (leaves 0 s)) + 1 := by
  rw [diagram_eq order res s hs.simple] at h
  cases hg : allGlyphs (maps order s) res (entries [] 0 s) with
  | error e => rw [hg] at h; simp at h
  | ok g =>
    rw [hg] at h
    simp only [Except.ok.injEq] at h
    subst h
    exact ⟨rfl, rfl, rfl, rfl⟩

/-- Marks and links belong to operations. -/
def OpGlyph : Glyph → Prop
  | .mark _ _ _ => True
  | .link _ _ _ => True
  | _ => False

/-- Brackets belong to loops. -/
def LoopGlyph : Glyph → Prop
  | .brackets _ _ _ _ _ => True
  | _ => False

/-- Rectangles and arrows belong to conditional operations. -/
def CondGlyph : Glyph → Prop
  | .rect _ _ _ _ => True
  | .arrow _ _ _ _ => True
  | _ => False

theorem due_opGlyph {E P : String → Nat → Prop} {o : Op} {x : Rat} {y : Glyph} (h : Due E P res o x y) : OpGlyph y := by
  cases h with
  | gate _ hd => cases hd <;> trivial
  | _ => trivial

theorem loopDue_glyph {I : Nat → Prop} {n r a b : Nat} {y : Glyph} (h : LoopDue I n r a b y) : LoopGlyph y := by
  cases h <;> trivial

theorem condDue_glyph {I : Nat → Prop} {n c l a b : Nat} {k : Bool} {y : Glyph} (h : CondDue I n c l a b k y) :
    CondGlyph y := by
  cases h <;> trivial

theorem drawLoop_spec (hs : Fine order res s) {u : Use} (hu : u ∈ flows [] 0 s) {r : Nat} {b : Node}
    (hf : u.flow = .loop r b) {first last : Nat} {g : List Glyph}
    (h : drawLoop (maps order s) r b first last = .ok g) (y : Glyph) :
    y ∈ g ↔ LoopDue (Involved (ElemLine s) (DrawnLine order s) u.inside) (maps order s).elems.length r first last y := by
  rw [drawLoop] at h
  cases hi : indices (maps order s) b with
  | error e => rw [hi] at h; simp at h
  | ok ls =>
    rw [hi] at h
    simp only at h
    obtain ⟨hmem, hfull⟩ := indices_spec hs hu (b := b) (by rw [hf]; rfl) hi
    by_cases hlen : ls.length = (maps order s).elems.length
    · rw [if_pos hlen] at h
      by_cases h0 : (maps order s).elems.length = 0
      · rw [if_pos h0] at h; simp at h
      · rw [if_neg h0] at h
        simp only [Except.ok.injEq] at h
        subst h
        rw [List.mem_singleton, drawBrackets]
        have e1 : ((0 : Rat) - 3 / 10) = -(3 / 10) := by norm_num
        have e2 : ∀ q : Rat, q - 1 + 3 / 10 = q - 7 / 10 := fun q => by ring
        rw [e1, e2]
        constructor
        · rintro rfl; exact .all (hfull.1 hlen)
        · intro hd
          cases hd with
          | all => rfl
          | single hn => exact absurd (hfull.1 hlen) hn
    · rw [if_neg hlen] at h
      simp only [Except.ok.injEq] at h
      subst h
      rw [List.mem_map]
      constructor
      · rintro ⟨l, hl, rfl⟩; exact .single (fun hc => hlen (hfull.2 hc)) ((hmem l).1 hl)
      · intro hd
        cases hd with
        | all hc => exact absurd (hfull.2 hc) hlen
        | single _ hI => exact ⟨_, (hmem _).2 hI, rfl⟩

theorem drawCond_spec (hs : Fine order res s) {u : Use} (hu : u ∈ flows [] 0 s) {l : String} {buf : Rat} {b : Node}
    (hf : u.flow = .cond l buf b) {mt ml first last : Nat} {g : List Glyph}
    (h : drawCond (maps order s) mt ml b first last = .ok g) (y : Glyph) :
    y ∈ g ↔ CondDue (Involved (ElemLine s) (DrawnLine order s) u.inside) (maps order s).elems.length mt ml first last
      (isSched b) y := by
  rw [drawCond] at h
  cases hi : indices (maps order s) b with
  | error e => rw [hi] at h; simp at h
  | ok ls =>
    rw [hi] at h
    simp only at h
    obtain ⟨hmem, hfull⟩ := indices_spec hs hu (b := b) (by rw [hf]; rfl) hi
    have single : ∀ b' : Node, isSched b' = false →
        (y ∈ ls.map (fun k : Nat => Glyph.arrow mt (ml + 25 / 100) first (k + 25 / 100)) ↔
        CondDue (Involved (ElemLine s) (DrawnLine order s) u.inside) (maps order s).elems.length mt ml first last
          (isSched b') y) := by
      intro b' hb'
      rw [hb', List.mem_map]
      constructor
      · rintro ⟨k, hk, rfl⟩; exact .op ((hmem k).1 hk)
      · intro hd
        cases hd with
        | op hI => exact ⟨_, (hmem _).2 hI, rfl⟩
    cases b with
    | op o => simp only [Except.ok.injEq] at h; subst h; exact single _ rfl
    | loop r b => simp only [Except.ok.injEq] at h; subst h; exact single (.loop r b) rfl
    | cond l b b' => simp only [Except.ok.injEq] at h; subst h; exact single (.cond l b b') rfl
    | sched r its =>
      simp only at h
      simp only [isSched]
      by_cases hlen : ls.length = (maps order s).elems.length
      · rw [if_pos hlen] at h
        simp only [Except.ok.injEq] at h
        subst h
        simp only [rectArrow, List.mem_cons, List.not_mem_nil, or_false]
        have e1 : ((0 : Rat) - 45 / 100) = -(45 / 100) := by norm_num
        have e2 : ∀ q : Rat, q - 1 - 0 + 95 / 100 = q - 5 / 100 := fun q => by ring
        have e3 : ∀ q : Rat, q - 1 + 4 / 10 = q - 6 / 10 := fun q => by ring
        rw [e1, e2, e3]
        constructor
        · rintro (rfl | rfl)
          · exact .allRect (hfull.1 hlen)
          · exact .allArrow (hfull.1 hlen)
        · intro hd
          cases hd with
          | allRect => left; rfl
          | allArrow => right; rfl
          | rect hn => exact absurd (hfull.1 hlen) hn
          | arrow hn => exact absurd (hfull.1 hlen) hn
      · rw [if_neg hlen] at h
        simp only [Except.ok.injEq] at h
        subst h
        have e2 : ∀ q : Rat, q - q + 95 / 100 = 95 / 100 := fun q => by ring
        simp only [rectArrow, List.mem_flatMap, List.mem_cons, List.not_mem_nil, or_false, e2]
        constructor
        · rintro ⟨k, hk, rfl | rfl⟩
          · exact .rect (fun hc => hlen (hfull.2 hc)) ((hmem k).1 hk)
          · exact .arrow (fun hc => hlen (hfull.2 hc)) ((hmem k).1 hk)
        · intro hd
          cases hd with
          | allRect hc => exact absurd (hfull.2 hc) hlen
          | allArrow hc => exact absurd (hfull.2 hc) hlen
          | rect _ hI => exact ⟨_, (hmem _).2 hI, Or.inl rfl⟩
          | arrow _ hI => exact ⟨_, (hmem _).2 hI, Or.inr rfl⟩

theorem lineCount_unique {a b : Nat} (ha : LineCount s a) (hb : LineCount s b) : a = b := by
  obtain ⟨l, h1, h2, h3⟩ := ha
  obtain ⟨l', h1', h2', h3'⟩ := hb
  have : l.length = l'.length := by
    apply List.Perm.length_eq
    rw [List.perm_ext_iff_of_nodup h1 h1']
    intro e; rw [h2, h2']
  rcases h3 with ⟨hf, rfl⟩ | ⟨hf, rfl⟩ <;> rcases h3' with ⟨hf', rfl⟩ | ⟨hf', rfl⟩
  · rw [this]
  · exact absurd hf hf'
  · exact absurd hf' hf
  · exact this

/-- What is drawn for an entry, in terms of what is expected. -/
def EntryDue (order : List String) (res : List (String × Rat)) (s : Node) : Entry → Glyph → Prop
  | .leaf pre t o, y => Due (ElemLine s) (DrawnLine order s) res o (column (times pre) t) y
  | .use u, y =>
    (∃ r b n, u.flow = .loop r b ∧ LineCount s n ∧ LoopDue (Involved (ElemLine s) (DrawnLine order s) u.inside) n r
      (steps (times u.before) + 1) (steps (times (u.before ++ u.inside))) y) ∨
    (∃ l buf b n mc ml, u.flow = .cond l buf b ∧ LineCount s n ∧
      Measured (ElemLine s) (DrawnLine order s) (u.before ++ u.inside) l mc ml ∧
      CondDue (Involved (ElemLine s) (DrawnLine order s) u.inside) n mc ml
        (steps (times u.before) + 1) (steps (times (u.before ++ u.inside))) (isSched b) y)

theorem entry_spec (hs : Fine order res s) {e : Entry} (he : e ∈ entries [] 0 s) {g : List Glyph}
    (h : glyphsOf (maps order s) res e = .ok g) (y : Glyph) : y ∈ g ↔ EntryDue order res s e y := by
  cases e with
  | leaf pre t o =>
    obtain ⟨a, b, hab, hpre⟩ := (leaf_mem s [] 0 pre t o).1 he
    have hx : (t, o) ∈ leaves 0 s := by rw [hab]; simp
    rw [glyphsOf] at h
    cases hf : feedback (maps order s) o with
    | error e => rw [hf] at h; simp at h
    | ok f =>
      rw [hf] at h
      simp only at h
      rw [drawOp_mem hs.clocks h y, EntryDue]
      exact due_congr (fun g hg e he l => leaf_elem hs hx hg he l) (fun p l => port_finds hs p l)
  | use u =>
    have hu := (use_mem s [] 0 u).1 he
    have hcnt := length_map_elems hs.simple hs.order hs.other
    rw [glyphsOf] at h
    rw [EntryDue]
    obtain ⟨b, hb, -⟩ := flows_body s [] 0 u hs.simple hu
    cases hf : u.flow with
    | op o => rw [hf] at hb; simp [bodyOf] at hb
    | sched r its => rw [hf] at hb; simp [bodyOf] at hb
    | loop r b =>
      rw [hf] at h
      simp only at h
      rw [drawLoop_spec hs hu hf h y]
      constructor
      · intro hd; exact Or.inl ⟨r, b, _, rfl, hcnt, hd⟩
      · rintro (⟨r', b', n, heq, hn, hd⟩ | ⟨l, buf, b', n, mc, ml, heq, -⟩)
        · simp only [Node.loop.injEq] at heq
          obtain ⟨rfl, rfl⟩ := heq
          rw [lineCount_unique hcnt hn]; exact hd
        · simp at heq
    | cond l buf b =>
      rw [hf] at h
      simp only at h
      cases hfi : find (fbOf (maps order s) (u.before ++ u.inside)) l with
      | error e => rw [hfi] at h; simp at h
      | ok p =>
        obtain ⟨mt, ml⟩ := p
        rw [hfi] at h
        simp only at h
        rw [drawCond_spec hs hu hf h y]
        have hmeas := find_fb hs hu l
        constructor
        · intro hd; exact Or.inr ⟨l, buf, b, _, mt, ml, rfl, hcnt, (hmeas mt ml).1 hfi, hd⟩
        · rintro (⟨r', b', n, heq, hn, hd⟩ | ⟨l', buf', b', n, mc, ml', heq, hn, hm, hd⟩)
          · simp at heq
          · simp only [Node.cond.injEq] at heq
            obtain ⟨rfl, rfl, rfl⟩ := heq
            have := (hmeas mc ml').2 hm
            rw [hfi] at this
            simp only [Except.ok.injEq, Prod.mk.injEq] at this
            obtain ⟨rfl, rfl⟩ := this
            rw [lineCount_unique hcnt hn]; exact hd

theorem glyph_iff (hs : Fine order res s) {d : Diagram} (h : diagram order res s = .ok d) (y : Glyph) :
    y ∈ d.glyphs ↔ ∃ e ∈ entries [] 0 s, EntryDue order res s e y := by
  obtain ⟨hg, -⟩ := diagram_ok hs h
  rw [mem_allGlyphs _ _ _ _ y hg]
  have hall := (allGlyphs_ok_iff _ _ _).1 ⟨_, hg⟩
  constructor
  · rintro ⟨e, he, g, hge, hy⟩; exact ⟨e, he, (entry_spec hs he hge y).1 hy⟩
  · rintro ⟨e, he, hd⟩
    obtain ⟨g, hge⟩ := hall e he
    exact ⟨e, he, g, hge, (entry_spec hs he hge y).2 hd⟩

/-- **Operations.**  The marks of a diagram are those of the operations of the schedule, on the lines of their device
elements and ports: an operation that starts after everything before it in a new column, others at their time. -/
theorem operations_drawn (hs : Fine order res s) {d : Diagram} (h : diagram order res s = .ok d) (y : Glyph) :
    (y ∈ d.glyphs ∧ OpGlyph y) ↔ ∃ pre t o post, leaves 0 s = pre ++ (t, o) :: post ∧
      Due (ElemLine s) (DrawnLine order s) res o (column (times pre) t) y := by
  rw [glyph_iff hs h]
  constructor
  · rintro ⟨⟨e, he, hd⟩, hy⟩
    cases e with
    | leaf pre t o =>
      obtain ⟨a, b, hab, hp⟩ := (leaf_mem s [] 0 pre t o).1 he
      rw [List.nil_append] at hp
      subst hp
      exact ⟨pre, t, o, b, hab, hd⟩
    | use u =>
      rcases hd with ⟨r, b, n, -, -, hd⟩ | ⟨l, buf, b, n, mc, ml, -, -, -, hd⟩
      · have := loopDue_glyph hd
        cases y <;> simp [OpGlyph, LoopGlyph] at this hy
      · have := condDue_glyph hd
        cases y <;> simp [OpGlyph, CondGlyph] at this hy
  · rintro ⟨pre, t, o, post, hl, hd⟩
    exact ⟨⟨.leaf pre t o, (leaf_mem s [] 0 pre t o).2 ⟨pre, post, hl, rfl⟩, hd⟩, due_opGlyph hd⟩

/-- **Loops.**  The brackets of a diagram are those of the loops, on the lines of what is inside: from the column after those
of the operations before the loop to the column of the latest operation. -/
theorem loops_drawn (hs : Fine order res s) {d : Diagram} (h : diagram order res s = .ok d) (y : Glyph) :
    (y ∈ d.glyphs ∧ LoopGlyph y) ↔ ∃ u ∈ flows [] 0 s, ∃ r b n, u.flow = .loop r b ∧ LineCount s n ∧
      LoopDue (Involved (ElemLine s) (DrawnLine order s) u.inside) n r
        (steps (times u.before) + 1) (steps (times (u.before ++ u.inside))) y := by
  rw [glyph_iff hs h]
  constructor
  · rintro ⟨⟨e, he, hd⟩, hy⟩
    cases e with
    | leaf pre t o =>
      have := due_opGlyph hd
      cases y <;> simp [OpGlyph, LoopGlyph] at this hy
    | use u =>
      rcases hd with ⟨r, b, n, h1, h2, hd⟩ | ⟨l, buf, b, n, mc, ml, -, -, -, hd⟩
      · exact ⟨u, (use_mem s [] 0 u).1 he, r, b, n, h1, h2, hd⟩
      · have := condDue_glyph hd
        cases y <;> simp [LoopGlyph, CondGlyph] at this hy
  · rintro ⟨u, hu, r, b, n, h1, h2, hd⟩
    refine ⟨⟨.use u, (use_mem s [] 0 u).2 hu, Or.inl ⟨r, b, n, h1, h2, hd⟩⟩, ?_⟩
    cases hd <;> trivial

/-- **Conditional operations.**  The arrows and boxes of a diagram are those of the conditional operations: from the latest
measurement with the label to what is inside. -/
theorem conditionals_drawn (hs : Fine order res s) {d : Diagram} (h : diagram order res s = .ok d) (y : Glyph) :
    (y ∈ d.glyphs ∧ CondGlyph y) ↔ ∃ u ∈ flows [] 0 s, ∃ l buf b n mc ml, u.flow = .cond l buf b ∧ LineCount s n ∧
      Measured (ElemLine s) (DrawnLine order s) (u.before ++ u.inside) l mc ml ∧
      CondDue (Involved (ElemLine s) (DrawnLine order s) u.inside) n mc ml
        (steps (times u.before) + 1) (steps (times (u.before ++ u.inside))) (isSched b) y := by
  rw [glyph_iff hs h]
  constructor
  · rintro ⟨⟨e, he, hd⟩, hy⟩
    cases e with
    | leaf pre t o =>
      have := due_opGlyph hd
      cases y <;> simp [OpGlyph, CondGlyph] at this hy
    | use u =>
      rcases hd with ⟨r, b, n, h1, h2, hd⟩ | ⟨l, buf, b, n, mc, ml, h1, h2, h3, hd⟩
      · cases hd <;> exact absurd hy (by simp [CondGlyph])
      · exact ⟨u, (use_mem s [] 0 u).1 he, l, buf, b, n, mc, ml, h1, h2, h3, hd⟩
  · rintro ⟨u, hu, l, buf, b, n, mc, ml, h1, h2, h3, hd⟩
    exact ⟨⟨.use u, (use_mem s [] 0 u).2 hu, Or.inr ⟨l, buf, b, n, mc, ml, h1, h2, h3, hd⟩⟩, condDue_glyph hd⟩

/-- **When there is a diagram.** -/
theorem drawn_iff (hs : Fine order res s) : (∃ d, diagram order res s = .ok d) ↔
    (∀ x ∈ leaves 0 s, Drawable res x.2) ∧ ∀ u ∈ flows [] 0 s,
      (∀ x ∈ u.inside, ∀ p ∈ x.2.pulses, p.port ≠ none) ∧
      (∀ r b, u.flow = .loop r b → ¬ LineCount s 0) ∧
      (∀ l buf b, u.flow = .cond l buf b →
        ∃ mc ml, Measured (ElemLine s) (DrawnLine order s) (u.before ++ u.inside) l mc ml) := by
  have hcnt := length_map_elems hs.simple hs.order hs.other
  have h1 : (∃ d, diagram order res s = .ok d) ↔ ∀ e ∈ entries [] 0 s, ∃ g, glyphsOf (maps order s) res e = .ok g := by
    rw [diagram_eq order res s hs.simple, ← allGlyphs_ok_iff]
    cases allGlyphs (maps order s) res (entries [] 0 s) <;> simp
  have hleaf : ∀ pre t o, (t, o) ∈ leaves 0 s →
      ((∃ g, glyphsOf (maps order s) res (.leaf pre t o) = .ok g) ↔ Drawable res o) := by
    intro pre t o hx
    have := leaf_ok (x := column (times pre) t) hs.clocks (known hs hx) (hs.pure _ hx)
    rw [← this, glyphsOf]
    cases feedback (maps order s) o <;> simp
  have hidx : ∀ u ∈ flows [] 0 s, ∀ b, bodyOf u.flow = some b → ((∃ ls, indices (maps order s) b = .ok ls) ↔
      ∀ x ∈ u.inside, ∀ p ∈ x.2.pulses, p.port ≠ none) := by
    intro u hu b hb
    obtain ⟨b', hb', hops⟩ := flows_body s [] 0 u hs.simple hu
    rw [hb] at hb'; simp only [Option.some.injEq] at hb'; subst hb'
    rw [indices, hops]
    have := linesOf_ok (m := maps order s) (os := u.inside.map Prod.snd) (by
      intro o ho
      obtain ⟨x, hx, rfl⟩ := List.mem_map.1 ho
      exact known hs (use_leaves hu (List.mem_append_right _ hx)))
    have h2 : (∀ o ∈ u.inside.map Prod.snd, ∀ p ∈ o.pulses, p.port ≠ none) ↔
        ∀ x ∈ u.inside, ∀ p ∈ x.2.pulses, p.port ≠ none := List.forall_mem_map
    rw [← h2, ← this]
    cases linesOf (maps order s) (u.inside.map Prod.snd) <;> simp
  have huse : ∀ u ∈ flows [] 0 s, ((∃ g, glyphsOf (maps order s) res (.use u) = .ok g) ↔
      (∀ x ∈ u.inside, ∀ p ∈ x.2.pulses, p.port ≠ none) ∧
      (∀ r b, u.flow = .loop r b → ¬ LineCount s 0) ∧
      (∀ l buf b, u.flow = .cond l buf b →
        ∃ mc ml, Measured (ElemLine s) (DrawnLine order s) (u.before ++ u.inside) l mc ml)) := by
    intro u hu
    obtain ⟨b, hb, -⟩ := flows_body s [] 0 u hs.simple hu
    have hi := hidx u hu b hb
    rw [← hi, glyphsOf]
    cases hf : u.flow with
    | op o => rw [hf] at hb; simp [bodyOf] at hb
    | sched r its => rw [hf] at hb; simp [bodyOf] at hb
    | loop r b' =>
      rw [hf] at hb
      simp only [bodyOf, Option.some.injEq] at hb
      subst hb
      simp only [drawLoop, reduceCtorEq, false_implies, implies_true, and_true]
      cases hix : indices (maps order s) b' with
      | error e => simp
      | ok ls =>
        obtain ⟨hmem, hfull⟩ := indices_spec hs hu (b := b') (by rw [hf]; rfl) hix
        simp only [Except.ok.injEq, exists_eq', true_and, Node.loop.injEq]
        by_cases h0 : (maps order s).elems.length = 0
        · have hl0 : ls.length = (maps order s).elems.length := by rw [hfull, h0]; intro l hl; omega
          rw [if_pos hl0, if_pos h0]
          rw [h0] at hcnt
          simp only [reduceCtorEq, exists_false, false_iff]
          intro hc; exact hc r b' ⟨rfl, rfl⟩ hcnt
        · constructor
          · intro _ _ _ _ hc; exact h0 (lineCount_unique hcnt hc)
          · intro _
            by_cases hl : ls.length = (maps order s).elems.length
            · rw [if_pos hl, if_neg h0]; exact ⟨_, rfl⟩
            · rw [if_neg hl]; exact ⟨_, rfl⟩
    | cond l buf b' =>
      rw [hf] at hb
      simp only [bodyOf, Option.some.injEq] at hb
      subst hb
      simp only [reduceCtorEq, false_implies, implies_true, true_and, Node.cond.injEq]
      have hmeas := find_fb hs hu l
      constructor
      · rintro ⟨g, hg⟩
        cases hfi : find (fbOf (maps order s) (u.before ++ u.inside)) l with
        | error e => rw [hfi] at hg; simp at hg
        | ok p =>
          obtain ⟨mt, ml⟩ := p
          rw [hfi] at hg
          simp only [drawCond] at hg
          refine ⟨?_, ?_⟩
          · cases hix : indices (maps order s) b' with
            | error e => rw [hix] at hg; simp at hg
            | ok ls => exact ⟨ls, rfl⟩
          · rintro l' buf' b'' ⟨rfl, -, -⟩
            exact ⟨mt, ml, (hmeas mt ml).1 hfi⟩
      · rintro ⟨⟨ls, hix⟩, hm⟩
        obtain ⟨mc, ml, hm⟩ := hm l buf b' ⟨rfl, rfl, rfl⟩
        rw [(hmeas mc ml).2 hm]
        simp only [drawCond, hix]
        cases b' with
        | sched r its =>
          simp only
          by_cases hl : ls.length = (maps order s).elems.length
          · rw [if_pos hl]; exact ⟨_, rfl⟩
          · rw [if_neg hl]; exact ⟨_, rfl⟩
        | _ => exact ⟨_, rfl⟩
  rw [h1]
  constructor
  · intro h
    refine ⟨?_, ?_⟩
    · intro x hx
      obtain ⟨a, b, hab⟩ := List.append_of_mem hx
      exact (hleaf a x.1 x.2 hx).1 (h _ ((leaf_mem s [] 0 a x.1 x.2).2 ⟨a, b, hab, rfl⟩))
    · intro u hu
      exact (huse u hu).1 (h _ ((use_mem s [] 0 u).2 hu))
  · rintro ⟨hl, hu⟩ e he
    cases e with
    | leaf pre t o =>
      obtain ⟨a, b, hab, -⟩ := (leaf_mem s [] 0 pre t o).1 he
      have hx : (t, o) ∈ leaves 0 s := by rw [hab]; simp
      exact (hleaf pre t o hx).2 (hl _ hx)
    | use u =>
      have := (use_mem s [] 0 u).1 he
      exact (huse u this).2 (hu u this)

end Verif.CircuitDiagram
