/-
What is drawn for one operation, a loop, a conditional operation.
-/
import Verif.CircuitDiagram.Lines

set_option linter.unusedSimpArgs false
set_option linter.unusedVariables false

namespace Verif.CircuitDiagram

/-- `d[k]` is `n`. -/
def Finds (d : List (String × Nat)) (k : String) (n : Nat) : Prop := find d k = .ok n

theorem findAll_mem {d : List (String × Nat)} : ∀ {ks : List String} {vs : List Nat}, findAll d ks = .ok vs → ∀ v,
    v ∈ vs ↔ ∃ k ∈ ks, Finds d k v
  | [], vs, h, v => by simp [findAll] at h; simp [h]
  | k :: ks, vs, h, v => by
    rw [findAll] at h
    cases hf : find d k with
    | error e => rw [hf] at h; simp at h
    | ok w =>
      rw [hf] at h
      simp only at h
      cases hr : findAll d ks with
      | error e => rw [hr] at h; simp at h
      | ok ws =>
        rw [hr] at h
        simp only [Except.ok.injEq] at h
        subst h
        have ih := findAll_mem hr v
        simp only [List.mem_cons, ih, exists_eq_or_imp, Finds, hf, Except.ok.injEq]
        rw [eq_comm (a := v)]

theorem findAll_ok {d : List (String × Nat)} : ∀ {ks : List String},
    (∃ vs, findAll d ks = .ok vs) ↔ ∀ k ∈ ks, ∃ v, Finds d k v
  | [] => by simp [findAll]
  | k :: ks => by
    have ih := findAll_ok (d := d) (ks := ks)
    rw [List.forall_mem_cons, ← ih, findAll]
    simp only [Finds]
    cases find d k with
    | error e => simp
    | ok w => cases findAll d ks <;> simp

theorem findAll_length {d : List (String × Nat)} : ∀ {ks : List String} {vs : List Nat}, findAll d ks = .ok vs →
    vs.length = ks.length
  | [], vs, h => by simp [findAll] at h; simp [h]
  | k :: ks, vs, h => by
    rw [findAll] at h
    cases hf : find d k with
    | error e => rw [hf] at h; simp at h
    | ok w =>
      rw [hf] at h
      simp only at h
      cases hr : findAll d ks with
      | error e => rw [hr] at h; simp at h
      | ok ws =>
        rw [hr] at h
        simp only [Except.ok.injEq] at h
        subst h
        simp [findAll_length hr]

theorem findAll_pair {d : List (String × Nat)} {e e' : String} {l l' : Nat} :
    findAll d [e, e'] = .ok [l, l'] ↔ Finds d e l ∧ Finds d e' l' := by
  simp only [findAll, Finds]
  cases find d e with
  | error er => simp
  | ok v => cases find d e' <;> simp

theorem finds_unique {d : List (String × Nat)} {k : String} {a b : Nat} (h : Finds d k a) (h' : Finds d k b) : a = b := by
  rw [Finds] at h h'; rw [h] at h'; simpa using h'

theorem foldl_max_mem : ∀ (l : List Nat) (a : Nat), l.foldl max a ∈ a :: l
  | [], a => by simp
  | b :: l, a => by
    rw [List.foldl_cons]
    have := foldl_max_mem l (max a b)
    rcases List.mem_cons.1 this with h | h
    · rw [h]; rcases le_total a b with hab | hab
      · rw [max_eq_right hab]; simp
      · rw [max_eq_left hab]; simp
    · simp [h]

theorem le_foldl_max : ∀ (l : List Nat) (a x : Nat), x ∈ a :: l → x ≤ l.foldl max a
  | [], a, x, h => by simp at h; simp [h]
  | b :: l, a, x, h => by
    rw [List.foldl_cons]
    rcases List.mem_cons.1 h with rfl | h
    · exact le_trans (le_max_left x b) (le_foldl_max l _ _ (by simp))
    · rcases List.mem_cons.1 h with rfl | h
      · exact le_trans (le_max_right a x) (le_foldl_max l _ _ (by simp))
      · exact le_foldl_max l _ x (by simp [h])

theorem mem_pulseMarks {b : Bool} {tex : String} {x : Rat} {ls : List Nat} {y : Glyph} :
    y ∈ pulseMarks b tex x ls ↔ ∃ l ∈ ls, y = .mark (if b then .modulated else .baseband) x l ∨ y = .mark (.text tex) x l := by
  simp [pulseMarks]

theorem plotGate_mem {d : List (String × Nat)} {g : Gate} {x : Rat} {ls : List Nat} {gl : List Glyph}
    (hl : findAll d g.elems = .ok ls) (h : plotGate x g.tex ls g.plot = .ok gl) (y : Glyph) :
    y ∈ gl ↔ GateDue (Finds d) g x y := by
  have hm := findAll_mem hl
  obtain ⟨plot, elems, tex, label⟩ := g
  simp only at hl h hm
  cases plot with
  | gateBox =>
    simp only [plotGate, Except.ok.injEq] at h; subst h
    rw [List.mem_map]
    constructor
    · rintro ⟨l, h1, rfl⟩; obtain ⟨e, he, hf⟩ := (hm l).1 h1; exact .box rfl he hf
    · intro hd
      cases hd with
      | box _ he hf => exact ⟨_, (hm _).2 ⟨_, he, hf⟩, rfl⟩
      | _ => simp_all
  | reset =>
    simp only [plotGate, Except.ok.injEq] at h; subst h
    rw [List.mem_map]
    constructor
    · rintro ⟨l, h1, rfl⟩; obtain ⟨e, he, hf⟩ := (hm l).1 h1; exact .reset rfl he hf
    · intro hd
      cases hd with
      | reset _ he hf => exact ⟨_, (hm _).2 ⟨_, he, hf⟩, rfl⟩
      | _ => simp_all
  | meter =>
    simp only [plotGate, Except.ok.injEq] at h; subst h
    rw [List.mem_map]
    constructor
    · rintro ⟨l, h1, rfl⟩; obtain ⟨e, he, hf⟩ := (hm l).1 h1; exact .meter rfl he hf
    · intro hd
      cases hd with
      | meter _ he hf => exact ⟨_, (hm _).2 ⟨_, he, hf⟩, rfl⟩
      | _ => simp_all
  | acqMeter =>
    simp only [plotGate, Except.ok.injEq] at h; subst h
    rw [List.mem_map]
    constructor
    · rintro ⟨l, h1, rfl⟩; obtain ⟨e, he, hf⟩ := (hm l).1 h1; exact .acq (Or.inl rfl) he hf
    · intro hd
      cases hd with
      | acq _ he hf => exact ⟨_, (hm _).2 ⟨_, he, hf⟩, rfl⟩
      | _ => simp_all
  | pulseBaseband =>
    simp only [plotGate, Except.ok.injEq] at h; subst h
    rw [mem_pulseMarks]
    constructor
    · rintro ⟨l, h1, rfl | rfl⟩
      · obtain ⟨e, he, hf⟩ := (hm l).1 h1; exact .baseband rfl he hf
      · obtain ⟨e, he, hf⟩ := (hm l).1 h1; exact .pulseText (Or.inl rfl) he hf
    · intro hd
      cases hd with
      | baseband _ he hf => exact ⟨_, (hm _).2 ⟨_, he, hf⟩, Or.inl rfl⟩
      | pulseText _ he hf => exact ⟨_, (hm _).2 ⟨_, he, hf⟩, Or.inr rfl⟩
      | _ => simp_all
  | pulseModulated =>
    simp only [plotGate, Except.ok.injEq] at h; subst h
    rw [mem_pulseMarks]
    constructor
    · rintro ⟨l, h1, rfl | rfl⟩
      · obtain ⟨e, he, hf⟩ := (hm l).1 h1; exact .modulated rfl he hf
      · obtain ⟨e, he, hf⟩ := (hm l).1 h1; exact .pulseText (Or.inr rfl) he hf
    · intro hd
      cases hd with
      | modulated _ he hf => exact ⟨_, (hm _).2 ⟨_, he, hf⟩, Or.inl rfl⟩
      | pulseText _ he hf => exact ⟨_, (hm _).2 ⟨_, he, hf⟩, Or.inr rfl⟩
      | _ => simp_all
  | acqMeterText =>
    cases ls with
    | nil => simp [plotGate] at h
    | cons l rest =>
      simp only [plotGate, Except.ok.injEq] at h; subst h
      rw [List.mem_append, List.mem_map, List.mem_singleton]
      constructor
      · rintro (⟨k, h1, rfl⟩ | rfl)
        · obtain ⟨e, he, hf⟩ := (hm k).1 h1; exact .acq (Or.inr rfl) he hf
        · obtain ⟨e, he, hf⟩ := (hm _).1 (foldl_max_mem rest l)
          refine .acqText rfl he hf ?_
          intro e' he' l' hl'
          exact le_foldl_max rest l l' ((hm l').2 ⟨e', he', hl'⟩)
      · intro hd
        cases hd with
        | acq _ he hf => exact Or.inl ⟨_, (hm _).2 ⟨_, he, hf⟩, rfl⟩
        | @acqText e k _ he hf hmax =>
          right
          have h1 : k ≤ rest.foldl max l := le_foldl_max rest l k ((hm k).2 ⟨_, he, hf⟩)
          obtain ⟨e', he', hf'⟩ := (hm _).1 (foldl_max_mem rest l)
          have h2 := hmax e' he' _ hf'
          rw [le_antisymm h1 h2]
        | _ => simp_all
  | cnot =>
    rcases ls with _ | ⟨a, _ | ⟨b, _ | ⟨c, ls⟩⟩⟩
    · simp [plotGate] at h
    · simp [plotGate] at h
    · simp only [plotGate, Except.ok.injEq] at h; subst h
      have hlen := findAll_length hl
      simp only [List.length_cons, List.length_nil] at hlen
      rcases elems with _ | ⟨e, _ | ⟨e', _ | ⟨e'', elems⟩⟩⟩ <;> simp only [List.length_cons, List.length_nil] at hlen <;> try omega
      obtain ⟨hf, hf'⟩ := findAll_pair.1 hl
      simp only [List.mem_cons, List.not_mem_nil, or_false]
      constructor
      · rintro (rfl | rfl)
        · exact .link (Or.inl rfl) rfl hf hf'
        · exact .plus rfl rfl hf'
      · intro hd
        cases hd with
        | link _ he h1 h2 =>
          simp only [List.cons.injEq, and_true] at he
          obtain ⟨rfl, rfl⟩ := he
          left; rw [finds_unique h1 hf, finds_unique h2 hf']
        | plus _ he h1 =>
          simp only [List.cons.injEq, and_true] at he
          obtain ⟨rfl, rfl⟩ := he
          right; rw [finds_unique h1 hf']
        | _ => simp_all
    · simp [plotGate] at h
  | cz =>
    rcases ls with _ | ⟨a, _ | ⟨b, _ | ⟨c, ls⟩⟩⟩
    · simp [plotGate] at h
    · simp [plotGate] at h
    · simp only [plotGate, Except.ok.injEq] at h; subst h
      have hlen := findAll_length hl
      simp only [List.length_cons, List.length_nil] at hlen
      rcases elems with _ | ⟨e, _ | ⟨e', _ | ⟨e'', elems⟩⟩⟩ <;> simp only [List.length_cons, List.length_nil] at hlen <;> try omega
      obtain ⟨hf, hf'⟩ := findAll_pair.1 hl
      simp only [List.mem_cons, List.not_mem_nil, or_false]
      constructor
      · rintro rfl
        exact .link (Or.inr rfl) rfl hf hf'
      · intro hd
        cases hd with
        | link _ he h1 h2 =>
          simp only [List.cons.injEq, and_true] at he
          obtain ⟨rfl, rfl⟩ := he
          rw [finds_unique h1 hf, finds_unique h2 hf']
        | _ => simp_all
    · simp [plotGate] at h

theorem plotGate_ok {g : Gate} {x : Rat} {ls : List Nat} (hlen : ls.length = g.elems.length) :
    (∃ gl, plotGate x g.tex ls g.plot = .ok gl) ↔
      (g.plot = .acqMeterText → g.elems ≠ []) ∧ (g.plot = .cnot ∨ g.plot = .cz → g.elems.length = 2) := by
  obtain ⟨plot, elems, tex, label⟩ := g
  simp only at hlen ⊢
  cases plot <;> simp [plotGate]
  · cases ls with
    | nil => simp only [List.length_nil] at hlen; simp [List.length_eq_zero_iff.1 hlen.symm]
    | cons a ls => cases elems <;> simp at hlen ⊢
  all_goals
    rcases ls with _ | ⟨a, _ | ⟨b, _ | ⟨c, ls⟩⟩⟩ <;> simp at hlen ⊢ <;> omega

theorem mem_res {res : List (String × Rat)} (hn : (Dict.keys res).Nodup) {c : String} {f : Rat} :
    find res c = .ok f ↔ (c, f) ∈ res := by
  rw [find]
  cases h : Dict.get? res c with
  | none =>
    simp only [reduceCtorEq, false_iff]
    intro hc
    rw [Dict.get?_of_mem hn hc] at h; simp at h
  | some v =>
    simp only [Except.ok.injEq]
    constructor
    · rintro rfl; exact Dict.mem_of_get? h
    · intro hc
      rw [Dict.get?_of_mem hn hc] at h; simpa using h.symm

theorem drawPulses_mem {res : List (String × Rat)} (hn : (Dict.keys res).Nodup) {x : Rat} {name : String}
    {ls : List Nat} : ∀ {ps : List Pulse} {gl : List Glyph}, drawPulses res x name ls ps = .ok gl → ∀ y,
    (y ∈ gl ↔ ∃ p ∈ ps, ∃ f, (p.clock, f) ∈ res ∧ ∃ l ∈ ls,
      y = .mark (if f = 0 then .baseband else .modulated) x l ∨ y = .mark (.text name) x l)
  | [], gl, h, y => by simp [drawPulses] at h; simp [h]
  | p :: ps, gl, h, y => by
    rw [drawPulses] at h
    cases hf : find res p.clock with
    | error e => rw [hf] at h; simp at h
    | ok f =>
      rw [hf] at h
      simp only at h
      cases hr : drawPulses res x name ls ps with
      | error e => rw [hr] at h; simp at h
      | ok g =>
        rw [hr] at h
        simp only [Except.ok.injEq] at h
        subst h
        rw [List.mem_append, drawPulses_mem hn hr y, mem_pulseMarks]
        simp only [List.mem_cons, exists_eq_or_imp]
        have hk : (if decide (f ≠ 0) = true then Kind.modulated else Kind.baseband) =
            (if f = 0 then Kind.baseband else Kind.modulated) := by
          by_cases h0 : f = 0 <;> simp [h0]
        rw [hk]
        have : (∃ f', (p.clock, f') ∈ res ∧ ∃ l ∈ ls,
            y = .mark (if f' = 0 then .baseband else .modulated) x l ∨ y = .mark (.text name) x l) ↔
            (∃ l ∈ ls, y = .mark (if f = 0 then .baseband else .modulated) x l ∨ y = .mark (.text name) x l) := by
          constructor
          · rintro ⟨f', hf', hh⟩
            rw [← mem_res hn, hf] at hf'
            simp only [Except.ok.injEq] at hf'
            subst hf'; exact hh
          · intro hh; exact ⟨f, (mem_res hn).1 hf, hh⟩
        rw [this]

theorem drawPulses_ok {res : List (String × Rat)} (hn : (Dict.keys res).Nodup) {x : Rat} {name : String}
    {ls : List Nat} : ∀ {ps : List Pulse}, (∃ gl, drawPulses res x name ls ps = .ok gl) ↔
      ∀ p ∈ ps, ∃ f, (p.clock, f) ∈ res
  | [] => by simp [drawPulses]
  | p :: ps => by
    have ih := drawPulses_ok hn (x := x) (name := name) (ls := ls) (ps := ps)
    rw [List.forall_mem_cons, ← ih, drawPulses]
    simp only [← mem_res hn]
    cases find res p.clock with
    | error e => simp
    | ok f => cases drawPulses res x name ls ps <;> simp

/-- What is drawn for an operation. -/
theorem drawOp_mem {m : Maps} {res : List (String × Rat)} (hn : (Dict.keys res).Nodup) {x : Rat} {o : Op}
    {gl : List Glyph} (h : drawOp m res x o = .ok gl) (y : Glyph) :
    y ∈ gl ↔ Due (Finds m.elems) (Finds m.ports) res o x y := by
  rw [drawOp] at h
  cases hg : o.gate with
  | some g =>
    rw [hg] at h
    simp only at h
    cases hl : findAll m.elems g.elems with
    | error e => rw [hl] at h; simp at h
    | ok ls =>
      rw [hl] at h
      rw [plotGate_mem hl h y]
      constructor
      · intro hd; exact .gate hg hd
      · intro hd
        cases hd with
        | gate hg' hd => rw [hg] at hg'; simp only [Option.some.injEq] at hg'; subst hg'; exact hd
        | baseband hg' => rw [hg] at hg'; simp at hg'
        | modulated hg' => rw [hg] at hg'; simp at hg'
        | name hg' => rw [hg] at hg'; simp at hg'
        | acq hg' => rw [hg] at hg'; simp at hg'
  | none =>
    rw [hg] at h
    simp only at h
    by_cases hp : o.pulses = []
    · rw [if_neg (by simp [hp])] at h
      by_cases ha : o.acqs = []
      · rw [if_neg (by simp [ha])] at h; simp at h
      · rw [if_pos ha] at h
        cases hl : findAll m.ports (o.acqs.map (·.port)) with
        | error e => rw [hl] at h; simp at h
        | ok ls =>
          rw [hl] at h
          simp only [Except.ok.injEq] at h
          subst h
          have hm := findAll_mem hl
          simp only [List.mem_flatMap, List.mem_map, List.mem_dedup]
          constructor
          · rintro ⟨a, ha', l, hl', rfl⟩
            obtain ⟨k, hk, hf⟩ := (hm l).1 hl'
            obtain ⟨b, hb, rfl⟩ := List.mem_map.1 hk
            exact .acq hg hp hb hf
          · intro hd
            cases hd with
            | gate hg' => rw [hg] at hg'; simp at hg'
            | baseband _ hp' => rw [hp] at hp'; simp at hp'
            | modulated _ hp' => rw [hp] at hp'; simp at hp'
            | name _ hp' => rw [hp] at hp'; simp at hp'
            | @acq a l _ _ ha' hf => exact ⟨a, ha', l, (hm l).2 ⟨_, List.mem_map.2 ⟨a, ha', rfl⟩, hf⟩, rfl⟩
    · rw [if_pos hp] at h
      cases hl : findAll m.ports (o.pulses.filterMap (·.port)) with
      | error e => rw [hl] at h; simp at h
      | ok ls =>
        rw [hl] at h
        simp only at h
        have hm := findAll_mem hl
        rw [drawPulses_mem hn h y]
        have hall := (drawPulses_ok hn).1 ⟨gl, h⟩
        simp only [List.mem_dedup]
        constructor
        · rintro ⟨p, hp', f, hf, l, hl', hy⟩
          obtain ⟨k, hk, hfi⟩ := (hm l).1 hl'
          obtain ⟨q, hq, hqp⟩ := List.mem_filterMap.1 hk
          rcases hy with rfl | rfl
          · by_cases h0 : f = 0
            · subst h0; rw [if_pos rfl]; exact .baseband hg hp' hf hq hqp hfi
            · rw [if_neg h0]; exact .modulated hg hp' hf h0 hq hqp hfi
          · exact .name hg hq hqp hfi
        · intro hd
          cases hd with
          | gate hg' => rw [hg] at hg'; simp at hg'
          | @baseband p q port l _ hp' hf hq hqp hfi =>
            exact ⟨p, hp', 0, hf, l, (hm l).2 ⟨port, List.mem_filterMap.2 ⟨q, hq, hqp⟩, hfi⟩, by simp⟩
          | @modulated p q port l f _ hp' hf h0 hq hqp hfi =>
            exact ⟨p, hp', f, hf, l, (hm l).2 ⟨port, List.mem_filterMap.2 ⟨q, hq, hqp⟩, hfi⟩, by simp [h0]⟩
          | @name q port l _ hq hqp hfi =>
            obtain ⟨f, hf⟩ := hall q hq
            exact ⟨q, hq, f, hf, l, (hm l).2 ⟨port, List.mem_filterMap.2 ⟨q, hq, hqp⟩, hfi⟩, Or.inr rfl⟩
          | acq _ hp' => exact absurd hp' hp

/-- The names of an operation are in the maps. -/
def Known (m : Maps) (o : Op) : Prop :=
  (∀ g, o.gate = some g → ∀ e ∈ g.elems, ∃ l, Finds m.elems e l) ∧
  (∀ p ∈ o.pulses, ∀ q, p.port = some q → ∃ l, Finds m.ports q l) ∧
  (∀ a ∈ o.acqs, ∃ l, Finds m.ports a.port l)

/-- An operation that is drawn. -/
theorem leaf_ok {m : Maps} {res : List (String × Rat)} (hn : (Dict.keys res).Nodup) {x : Rat} {o : Op} (hk : Known m o)
    (hpure : o.gate ≠ none → o.pulses = [] ∧ o.acqs = []) :
    ((∃ f, feedback m o = .ok f) ∧ ∃ gl, drawOp m res x o = .ok gl) ↔ Drawable res o := by
  obtain ⟨hk1, hk2, hk3⟩ := hk
  rw [Drawable, drawOp]
  cases hg : o.gate with
  | some g =>
    obtain ⟨hp0, ha0⟩ := hpure (by simp [hg])
    simp only
    obtain ⟨ls, hls⟩ := findAll_ok.2 (hk1 g hg)
    rw [hls]
    simp only
    rw [plotGate_ok (findAll_length hls)]
    have : (∃ f, feedback m o = .ok f) ↔ (g.label ≠ none → g.elems ≠ []) := by
      simp only [feedback, ha0, gateFeedback, hg]
      cases hlb : g.label with
      | none => simp
      | some l =>
        simp only
        cases he : g.elems with
        | nil => simp
        | cons e es =>
          obtain ⟨v, hv⟩ := hk1 g hg e (by simp [he])
          rw [Finds] at hv
          simp [hv]
    rw [this]; tauto
  | none =>
    simp only
    have hfb : ∃ f, feedback m o = .ok f := by
      rw [feedback]
      cases ha : o.acqs with
      | nil => simp [gateFeedback, hg]
      | cons a as =>
        simp only
        cases hl : a.label with
        | none => simp [gateFeedback, hg]
        | some l =>
          obtain ⟨v, hv⟩ := hk3 a (by simp [ha])
          rw [Finds] at hv
          simp [hv]
    simp only [hfb, true_and]
    by_cases hp : o.pulses = []
    · rw [if_neg (by simp [hp])]
      by_cases ha : o.acqs = []
      · rw [if_neg (by simp [ha])]; simp [hp, ha]
      · rw [if_pos ha]
        have : ∃ ls, findAll m.ports (o.acqs.map (·.port)) = .ok ls := findAll_ok.2 (by
          intro k hkm
          obtain ⟨a, ha', rfl⟩ := List.mem_map.1 hkm
          exact hk3 a ha')
        obtain ⟨ls, hls⟩ := this
        rw [hls]; simp [hp, ha]
    · rw [if_pos hp]
      have : ∃ ls, findAll m.ports (o.pulses.filterMap (·.port)) = .ok ls := findAll_ok.2 (by
        intro k hkm
        obtain ⟨a, ha', hq⟩ := List.mem_filterMap.1 hkm
        exact hk2 a ha' k hq)
      obtain ⟨ls, hls⟩ := this
      rw [hls]
      simp only
      rw [drawPulses_ok hn]; simp [hp]

/-! ### Control flow -/

theorem pulseLines_mem {m : Maps} : ∀ {ps : List Pulse} {ls : List Nat}, pulseLines m ps = .ok ls → ∀ l,
    l ∈ ls ↔ ∃ p port, p ∈ ps ∧ p.port = some port ∧ Finds m.ports port l
  | [], ls, h, l => by simp [pulseLines] at h; simp [h]
  | p :: ps, ls, h, l => by
    rw [pulseLines] at h
    cases hp : p.port with
    | none => rw [hp] at h; simp at h
    | some q =>
      rw [hp] at h
      simp only at h
      cases hf : find m.ports q with
      | error e => rw [hf] at h; simp at h
      | ok v =>
        rw [hf] at h
        simp only at h
        cases hr : pulseLines m ps with
        | error e => rw [hr] at h; simp at h
        | ok vs =>
          rw [hr] at h
          simp only [Except.ok.injEq] at h
          subst h
          rw [List.mem_cons, pulseLines_mem hr l]
          constructor
          · rintro (rfl | ⟨p', port, h1, h2, h3⟩)
            · exact ⟨p, q, by simp, hp, hf⟩
            · exact ⟨p', port, by simp [h1], h2, h3⟩
          · rintro ⟨p', port, h1, h2, h3⟩
            rcases List.mem_cons.1 h1 with rfl | h1
            · left
              rw [hp] at h2; simp only [Option.some.injEq] at h2; subst h2
              rw [Finds, hf] at h3; simpa using h3.symm
            · right; exact ⟨p', port, h1, h2, h3⟩

theorem pulseLines_ok {m : Maps} : ∀ {ps : List Pulse},
    (∃ ls, pulseLines m ps = .ok ls) ↔ ∀ p ∈ ps, ∃ port l, p.port = some port ∧ Finds m.ports port l
  | [] => by simp [pulseLines]
  | p :: ps => by
    have ih := pulseLines_ok (m := m) (ps := ps)
    rw [List.forall_mem_cons, ← ih, pulseLines]
    cases hp : p.port with
    | none => simp
    | some q =>
      simp only [Finds]
      cases hf : find m.ports q with
      | error e => simp [hf]
      | ok v =>
        cases pulseLines m ps with
        | error e => simp
        | ok vs => simp [hf]

/-- The operation is on the line. -/
def On (m : Maps) (o : Op) (l : Nat) : Prop :=
  (∃ g e, o.gate = some g ∧ e ∈ g.elems ∧ Finds m.elems e l) ∨
    (∃ p port, p ∈ o.pulses ∧ p.port = some port ∧ Finds m.ports port l) ∨ (∃ a, a ∈ o.acqs ∧ Finds m.ports a.port l)

theorem opLines_mem {m : Maps} {o : Op} {ls : List Nat} (h : opLines m o = .ok ls) (l : Nat) : l ∈ ls ↔ On m o l := by
  rw [opLines] at h
  cases ha : findAll m.elems (elemsOf o) with
  | error e => rw [ha] at h; simp at h
  | ok a =>
    rw [ha] at h
    simp only at h
    cases hb : pulseLines m o.pulses with
    | error e => rw [hb] at h; simp at h
    | ok b =>
      rw [hb] at h
      simp only at h
      cases hc : findAll m.ports (o.acqs.map (·.port)) with
      | error e => rw [hc] at h; simp at h
      | ok c =>
        rw [hc] at h
        simp only [Except.ok.injEq] at h
        subst h
        rw [List.mem_append, List.mem_append, findAll_mem ha, pulseLines_mem hb, findAll_mem hc, On, or_assoc]
        apply or_congr
        · rw [elemsOf]
          cases hg : o.gate with
          | none => simp
          | some g => simp
        · apply or_congr Iff.rfl
          simp only [List.mem_map]
          constructor
          · rintro ⟨k, ⟨a, ha', rfl⟩, hf⟩; exact ⟨a, ha', hf⟩
          · rintro ⟨a, ha', hf⟩; exact ⟨_, ⟨a, ha', rfl⟩, hf⟩

theorem opLines_ok {m : Maps} {o : Op} (hk : Known m o) :
    (∃ ls, opLines m o = .ok ls) ↔ ∀ p ∈ o.pulses, p.port ≠ none := by
  obtain ⟨hk1, hk2, hk3⟩ := hk
  rw [opLines]
  have ha : ∃ a, findAll m.elems (elemsOf o) = .ok a := findAll_ok.2 (by
    rw [elemsOf]
    cases hg : o.gate with
    | none => simp
    | some g => exact hk1 g hg)
  have hc : ∃ c, findAll m.ports (o.acqs.map (·.port)) = .ok c := findAll_ok.2 (by
    intro k hkm
    obtain ⟨a, ha', rfl⟩ := List.mem_map.1 hkm
    exact hk3 a ha')
  obtain ⟨a, ha⟩ := ha
  obtain ⟨c, hc⟩ := hc
  rw [ha, hc]
  simp only
  have hb := pulseLines_ok (m := m) (ps := o.pulses)
  have : (∀ p ∈ o.pulses, ∃ port l, p.port = some port ∧ Finds m.ports port l) ↔ ∀ p ∈ o.pulses, p.port ≠ none := by
    constructor
    · intro h p hp; obtain ⟨port, l, h1, -⟩ := h p hp; rw [h1]; simp
    · intro h p hp
      cases hq : p.port with
      | none => exact absurd hq (h p hp)
      | some q => obtain ⟨l, hl⟩ := hk2 p hp q hq; exact ⟨q, l, rfl, hl⟩
  rw [← this, ← hb]
  cases pulseLines m o.pulses <;> simp

theorem linesOf_mem {m : Maps} : ∀ {os : List Op} {ls : List Nat}, linesOf m os = .ok ls → ∀ l,
    l ∈ ls ↔ ∃ o ∈ os, On m o l
  | [], ls, h, l => by simp [linesOf] at h; simp [h]
  | o :: os, ls, h, l => by
    rw [linesOf] at h
    cases ho : opLines m o with
    | error e => rw [ho] at h; simp at h
    | ok a =>
      rw [ho] at h
      simp only at h
      cases hr : linesOf m os with
      | error e => rw [hr] at h; simp at h
      | ok b =>
        rw [hr] at h
        simp only [Except.ok.injEq] at h
        subst h
        rw [List.mem_append, opLines_mem ho, linesOf_mem hr]
        simp

theorem linesOf_ok {m : Maps} : ∀ {os : List Op}, (∀ o ∈ os, Known m o) →
    ((∃ ls, linesOf m os = .ok ls) ↔ ∀ o ∈ os, ∀ p ∈ o.pulses, p.port ≠ none)
  | [], _ => by simp [linesOf]
  | o :: os, hk => by
    have ih := linesOf_ok (m := m) (os := os) (fun o ho => hk o (by simp [ho]))
    have h1 := opLines_ok (hk o (by simp))
    simp only [List.mem_cons, forall_eq_or_imp, ← ih, ← h1, linesOf]
    cases opLines m o with
    | error e => simp
    | ok a => cases linesOf m os <;> simp

end Verif.CircuitDiagram
