/-
Lemmas on the conversion: every step writes a list of options.
-/
import Verif.OldConfig.Spec
import Mathlib.Data.List.Induction
import Mathlib.Tactic.Tauto

namespace Verif.OldConfig

set_option linter.unusedSimpArgs false

variable {V : Type}

section

variable {A : Type} [DecidableEq A]

/-- Keys that are written one after the other. -/
def applyW (o W : List (A × V)) : List (A × V) := W.foldl (fun o e => Dict.set o e.1 e.2) o

theorem applyW_append (o W X : List (A × V)) : applyW o (W ++ X) = applyW (applyW o W) X := by
  simp [applyW, List.foldl_append]

theorem mem_keys_applyW {W : List (A × V)} : ∀ {o : List (A × V)} {K : A},
    K ∈ Dict.keys (applyW o W) ↔ K ∈ Dict.keys o ∨ K ∈ W.map Prod.fst := by
  induction W with
  | nil => simp [applyW]
  | cons e W ih =>
    intro o K
    have : applyW o (e :: W) = applyW (Dict.set o e.1 e.2) W := rfl
    rw [this, ih, Dict.mem_keys_set]
    simp only [List.map_cons, List.mem_cons]
    tauto

theorem get?_applyW {W : List (A × V)} : (∀ K v w, (K, v) ∈ W → (K, w) ∈ W → v = w) → ∀ {K v},
    Dict.get? (applyW [] W) K = some v ↔ (K, v) ∈ W := by
  induction W using List.reverseRecOn with
  | nil => intro _ K v; simp [applyW, Dict.get?_nil]
  | append_singleton W e ih =>
    intro hf K v
    have hf' : ∀ K v w, (K, v) ∈ W → (K, w) ∈ W → v = w := fun K v w h1 h2 =>
      hf K v w (List.mem_append_left _ h1) (List.mem_append_left _ h2)
    rw [applyW_append]
    show Dict.get? (Dict.set (applyW [] W) e.1 e.2) K = some v ↔ _
    by_cases h : K = e.1
    · subst h
      rw [Dict.get?_set_self]
      constructor
      · intro h; simp only [Option.some.injEq] at h; subst h; simp
      · intro h
        rw [hf e.1 v e.2 h (by simp)]
    · rw [Dict.get?_set_ne _ _ h, ih hf']
      simp only [List.mem_append, List.mem_singleton]
      constructor
      · exact .inl
      · rintro (h1 | h1)
        · exact h1
        · exact absurd (by rw [← h1]) h

theorem applyW_new : ∀ {W o : List (A × V)}, (∀ e ∈ W, e.1 ∉ Dict.keys o) → (W.map Prod.fst).Nodup → applyW o W = o ++ W
  | [], o, _, _ => by simp [applyW]
  | e :: W, o, h, hn => by
    simp only [List.map_cons, List.nodup_cons] at hn
    have h1 : Dict.set o e.1 e.2 = o ++ [e] := by
      unfold Dict.set
      rw [if_neg (fun x => h e (by simp) ((Dict.any_iff o e.1).mp x))]
    show applyW (Dict.set o e.1 e.2) W = _
    rw [h1, applyW_new _ hn.2]
    · simp
    · intro x hx
      simp only [Dict.keys, List.map_append, List.map_cons, List.map_nil, List.mem_append, List.mem_singleton, not_or]
      refine ⟨h x (by simp [hx]), ?_⟩
      rintro e'
      exact hn.1 (by rw [← e']; exact List.mem_map_of_mem hx)

end

theorem setAll_eq (o : List (Key × V)) (cat field : String) (pcs : List Pc) (v : V) :
    setAll o cat field pcs v = applyW o (pcs.map fun p => ((cat, p, field), v)) := by
  simp [setAll, applyW, List.foldl_map]

/-- What keys in a table write. -/
def popWrites (table : List (String × String × String)) (p : Pc) (opts : List (String × V)) : List (Key × V) :=
  opts.filterMap fun e => (lookup table e.1).map fun x => ((x.1, p, x.2), e.2)

theorem popAll_eq (table : List (String × String × String)) (p : Pc) : ∀ (opts : List (String × V)) (o : List (Key × V)),
    popAll table p opts o = applyW o (popWrites table p opts)
  | [], o => rfl
  | e :: l, o => by
    have h1 : popAll table p (e :: l) o = popAll table p l (match lookup table e.1 with
        | some (cat, field) => Dict.set o (cat, p, field) e.2
        | none => o) := rfl
    rw [h1, popAll_eq table p l]
    unfold popWrites
    rw [List.filterMap_cons]
    cases h : lookup table e.1 with
    | none => simp
    | some x => simp [applyW]

theorem setWhole_eq {o : List (Key × V)} {p : Pc} {opts : List (String × V)}
    (h : ∀ k, ("sequencer_options", p, k) ∉ Dict.keys o) (hn : (opts.map Prod.fst).Nodup) :
    setWhole o p opts = applyW o (opts.map fun e => (("sequencer_options", p, e.1), e.2)) := by
  rw [applyW_new]
  · unfold setWhole
    congr 1
    rw [List.filter_eq_self]
    rintro ⟨⟨a, b, c⟩, v⟩ he
    simp only [Bool.not_eq_true', Bool.and_eq_false_iff, beq_eq_false_iff_ne]
    by_cases h1 : a = "sequencer_options"
    · right
      rintro rfl
      subst h1
      exact h c (List.mem_map_of_mem (f := Prod.fst) he)
    · exact .inl h1
  · intro e he
    rw [List.mem_map] at he
    obtain ⟨x, _, rfl⟩ := he
    exact h _
  · rw [List.map_map]
    rw [List.nodup_map_iff_inj_on]
    · intro x hx y hy hxy
      simp only [Function.comp, Prod.mk.injEq, true_and] at hxy
      exact List.inj_on_of_nodup_map hn hx hy hxy
    · exact List.Nodup.of_map _ hn

/-- What one port-clock writes. -/
def pcWrites (kind : Kind) (c : PcCfg V) : List (Key × V) :=
  match kind with
  | .complex => popWrites complexPcTable c.pc c.opts ++
      (rest complexPcTable c.opts).map fun e => (("sequencer_options", c.pc, e.1), e.2)
  | .real => popWrites realPcTable c.pc c.opts ++
      if (rest realPcTable c.opts).any (fun e => realRest.contains e.1) then
        (rest realPcTable c.opts).map fun e => (("sequencer_options", c.pc, e.1), e.2) else []
  | .digital => popWrites digitalPcTable c.pc c.opts

theorem lookup_iff {table : List (String × String × String)} (h : (Dict.keys table).Nodup) {k : String}
    {x : String × String} : lookup table k = some x ↔ (k, x) ∈ table := by
  unfold lookup
  exact ⟨Dict.mem_of_get?, Dict.get?_of_mem h⟩

theorem lookup_complexPc {k : String} {x : String × String} :
    lookup complexPcTable k = some x ↔ (Kind.complex, k, x) ∈ pcMeaning := by
  rw [lookup_iff (by decide)]; obtain ⟨a, b⟩ := x
  simp [complexPcTable, pcMeaning]

theorem lookup_realPc {k : String} {x : String × String} :
    lookup realPcTable k = some x ↔ (Kind.real, k, x) ∈ pcMeaning := by
  rw [lookup_iff (by decide)]; obtain ⟨a, b⟩ := x
  simp [realPcTable, pcMeaning]

theorem lookup_digitalPc {k : String} {x : String × String} :
    lookup digitalPcTable k = some x ↔ (Kind.digital, k, x) ∈ pcMeaning := by
  rw [lookup_iff (by decide)]; obtain ⟨a, b⟩ := x
  simp [digitalPcTable, pcMeaning]

theorem lookup_complex {k : String} {x : String × String} :
    lookup complexTable k = some x ↔ (Kind.complex, k, x) ∈ channelMeaning := by
  rw [lookup_iff (by decide)]; obtain ⟨a, b⟩ := x
  simp [complexTable, channelMeaning]

theorem lookup_real {k : String} {x : String × String} :
    lookup realTable k = some x ↔ (Kind.real, k, x) ∈ channelMeaning := by
  rw [lookup_iff (by decide)]; obtain ⟨a, b⟩ := x
  simp [realTable, channelMeaning]

theorem lookup_none {table : List (String × String × String)} {kind : Kind} {m : List (Kind × String × String × String)}
    (h : ∀ k x, lookup table k = some x ↔ (kind, k, x) ∈ m) {k : String} :
    lookup table k = none ↔ ∀ x y, (kind, k, x, y) ∉ m := by
  rw [Option.eq_none_iff_forall_ne_some]
  constructor
  · intro h1 x y hm; exact h1 (x, y) ((h k (x, y)).mpr hm)
  · rintro h1 ⟨x, y⟩ hm; exact h1 x y ((h k (x, y)).mp hm)

theorem mem_popWrites {table : List (String × String × String)} {p : Pc} {opts : List (String × V)} {cat field : String}
    {q : Pc} {v : V} : ((cat, q, field), v) ∈ popWrites table p opts ↔
      q = p ∧ ∃ k, (k, v) ∈ opts ∧ lookup table k = some (cat, field) := by
  unfold popWrites
  simp only [List.mem_filterMap, Option.map_eq_some_iff, Prod.mk.injEq]
  constructor
  · rintro ⟨⟨k, w⟩, he, ⟨a, b⟩, h1, ⟨h2, h3, h4⟩, h5⟩
    simp only at h1 h2 h3 h4 h5
    subst h2 h3 h4 h5
    exact ⟨rfl, k, he, h1⟩
  · rintro ⟨rfl, k, he, hl⟩
    exact ⟨(k, v), he, (cat, field), hl, ⟨rfl, rfl, rfl⟩, rfl⟩

theorem mem_rest {table : List (String × String × String)} {opts : List (String × V)} {k : String} {v : V} :
    (k, v) ∈ rest table opts ↔ (k, v) ∈ opts ∧ lookup table k = none := by
  simp [rest]

theorem mem_seqW {p : Pc} {opts : List (String × V)} {cat field : String} {q : Pc} {v : V} :
    ((cat, q, field), v) ∈ opts.map (fun e => (("sequencer_options", p, e.1), e.2)) ↔
      cat = "sequencer_options" ∧ q = p ∧ (field, v) ∈ opts := by
  simp only [List.mem_map, Prod.mk.injEq]
  constructor
  · rintro ⟨⟨k, w⟩, he, ⟨h1, h2, h3⟩, h4⟩
    simp only at h3 h4
    subst h3 h4
    exact ⟨h1.symm, h2.symm, he⟩
  · rintro ⟨rfl, rfl, h⟩
    exact ⟨(field, v), h, ⟨rfl, rfl, rfl⟩, rfl⟩

theorem any_real {opts : List (String × V)} :
    (rest realPcTable opts).any (fun e => realRest.contains e.1) = true ↔ ∃ e ∈ opts, e.1 ∈ others := by
  simp only [List.any_eq_true]
  constructor
  · rintro ⟨⟨k, v⟩, he, hk⟩
    rw [mem_rest] at he
    refine ⟨(k, v), he.1, ?_⟩
    have h2 := (lookup_none (fun k x => lookup_realPc)).mp he.2
    simp only [List.contains_eq_mem, decide_eq_true_eq, realRest, List.mem_cons, List.not_mem_nil, or_false] at hk
    simp only [others, List.mem_cons, List.not_mem_nil, or_false]
    rcases hk with rfl | rfl | hk
    · exact absurd (by simp [pcMeaning]) (h2 "sequencer_options" "init_gain_awg_path_I")
    · exact absurd (by simp [pcMeaning]) (h2 "sequencer_options" "init_gain_awg_path_Q")
    · exact hk
  · rintro ⟨⟨k, v⟩, he, hk⟩
    simp only [others, List.mem_cons, List.not_mem_nil, or_false] at hk
    refine ⟨(k, v), mem_rest.mpr ⟨he, ?_⟩, ?_⟩
    · rw [lookup_none (fun k x => lookup_realPc)]
      rcases hk with rfl | rfl | rfl | rfl <;> simp [pcMeaning]
    · rcases hk with rfl | rfl | rfl | rfl <;> simp [realRest]

/-- What a port-clock writes is what is wanted for it. -/
theorem mem_pcWrites {kind : Kind} {c : PcCfg V} {cat field : String} {q : Pc} {v : V} :
    ((cat, q, field), v) ∈ pcWrites kind c ↔ q = c.pc ∧ ((∃ k, (k, v) ∈ c.opts ∧ (kind, k, cat, field) ∈ pcMeaning) ∨
      (Free kind c ∧ (field, v) ∈ c.opts ∧ (∀ x y, (kind, field, x, y) ∉ pcMeaning) ∧ cat = "sequencer_options")) := by
  cases kind with
  | complex =>
    simp only [pcWrites, List.mem_append, mem_popWrites, mem_seqW, mem_rest, lookup_complexPc,
      lookup_none (fun k x => lookup_complexPc), Free, true_and]
    constructor
    · rintro (⟨rfl, h⟩ | ⟨h1, h2, h3, h4⟩)
      · exact ⟨rfl, .inl h⟩
      · exact ⟨h2, .inr ⟨h3, h4, h1⟩⟩
    · rintro ⟨rfl, h | ⟨h1, h2, h3⟩⟩
      · exact .inl ⟨rfl, h⟩
      · exact .inr ⟨h3, rfl, h1, h2⟩
  | real =>
    simp only [pcWrites, List.mem_append, mem_popWrites, lookup_realPc, Free]
    by_cases h : (rest realPcTable c.opts).any (fun e => realRest.contains e.1) = true
    · rw [if_pos h]
      rw [any_real] at h
      simp only [mem_seqW, mem_rest, lookup_none (fun k x => lookup_realPc), h, true_and]
      constructor
      · rintro (⟨rfl, h⟩ | ⟨h1, h2, h3, h4⟩)
        · exact ⟨rfl, .inl h⟩
        · exact ⟨h2, .inr ⟨h3, h4, h1⟩⟩
      · rintro ⟨rfl, h | ⟨h1, h2, h3⟩⟩
        · exact .inl ⟨rfl, h⟩
        · exact .inr ⟨h3, rfl, h1, h2⟩
    · rw [if_neg h]
      rw [any_real] at h
      simp only [List.not_mem_nil, or_false, h, false_and]
  | digital =>
    simp only [pcWrites, mem_popWrites, lookup_digitalPc, Free, false_and, or_false]

/-- Sequencer options are only written if there are some. -/
theorem pcWrites_seq {kind : Kind} {c : PcCfg V} {q : Pc} {field : String} {v : V}
    (h : (("sequencer_options", q, field), v) ∈ pcWrites kind c) : q = c.pc ∧ HasSeq kind c := by
  rw [mem_pcWrites] at h
  obtain ⟨h1, h2⟩ := h
  refine ⟨h1, ?_⟩
  rcases h2 with ⟨k, h2, h3⟩ | ⟨hf, h2, h3, _⟩
  · simp only [pcMeaning, List.mem_cons, Prod.mk.injEq, List.not_mem_nil, or_false] at h3
    simp at h3
    rcases h3 with ⟨rfl, rfl, rfl⟩ | ⟨rfl, rfl, rfl⟩
    · exact ⟨_, h2, .inl (by simp [gains])⟩
    · exact ⟨_, h2, .inl (by simp [gains])⟩
  · cases kind with
    | complex => exact ⟨_, h2, h3⟩
    | real =>
      obtain ⟨e, he, ho⟩ := hf
      exact ⟨e, he, .inr ho⟩
    | digital => exact hf.elim

theorem rest_nodup {table : List (String × String × String)} {opts : List (String × V)} (h : (opts.map Prod.fst).Nodup) :
    ((rest table opts).map Prod.fst).Nodup :=
  h.sublist (List.filter_sublist.map _)

/-- One port-clock. -/
theorem pcOptions_eq {kind : Kind} {c : PcCfg V} {o : List (Key × V)} (hn : (c.opts.map Prod.fst).Nodup)
    (hg : kind = .real → (∃ x ∈ c.opts, x.1 ∈ gains) → ¬ ∃ x ∈ c.opts, x.1 ∈ others)
    (ho : HasSeq kind c → ∀ k, ("sequencer_options", c.pc, k) ∉ Dict.keys o) :
    pcOptions kind c o = applyW o (pcWrites kind c) := by
  cases kind with
  | complex =>
    unfold pcOptions pcWrites
    simp only [popAll_eq]
    by_cases h : (rest complexPcTable c.opts).isEmpty
    · rw [if_pos h]
      rw [List.isEmpty_iff] at h
      simp [h]
    · rw [if_neg h, applyW_append, setWhole_eq _ (rest_nodup hn)]
      intro k hk
      rw [mem_keys_applyW] at hk
      rcases hk with hk | hk
      · refine ho ?_ k hk
        rw [List.isEmpty_iff] at h
        obtain ⟨⟨k, v⟩, he⟩ := List.exists_mem_of_ne_nil _ h
        rw [mem_rest, lookup_none (fun k x => lookup_complexPc)] at he
        exact ⟨_, he.1, he.2⟩
      · rw [List.mem_map] at hk
        obtain ⟨⟨⟨a, b, d⟩, v⟩, hm, hk⟩ := hk
        simp only [Prod.mk.injEq] at hk
        obtain ⟨rfl, rfl, rfl⟩ := hk
        rw [mem_popWrites] at hm
        obtain ⟨_, k', _, hl⟩ := hm
        rw [lookup_complexPc] at hl
        simp [pcMeaning] at hl
  | real =>
    unfold pcOptions pcWrites
    simp only [popAll_eq]
    by_cases h : (rest realPcTable c.opts).any (fun e => realRest.contains e.1) = true
    · rw [if_pos h, if_pos h, applyW_append, setWhole_eq _ (rest_nodup hn)]
      intro k hk
      rw [any_real] at h
      rw [mem_keys_applyW] at hk
      rcases hk with hk | hk
      · obtain ⟨e, he, hoo⟩ := h
        exact ho ⟨e, he, .inr hoo⟩ k hk
      · rw [List.mem_map] at hk
        obtain ⟨⟨⟨a, b, d⟩, v⟩, hm, hk⟩ := hk
        simp only [Prod.mk.injEq] at hk
        obtain ⟨rfl, rfl, rfl⟩ := hk
        rw [mem_popWrites] at hm
        obtain ⟨_, k', hk', hl⟩ := hm
        rw [lookup_realPc] at hl
        simp [pcMeaning] at hl
        refine hg rfl ⟨(k', v), hk', ?_⟩ h
        rcases hl with ⟨rfl, _⟩ | ⟨rfl, _⟩ <;> simp [gains]
    · rw [if_neg h, if_neg h]
      simp
  | digital =>
    unfold pcOptions pcWrites
    simp only [popAll_eq]

/-- Sequencer options in `o` come from port-clocks in `S`. -/
def SeqIn (o : List (Key × V)) (S : List (Kind × PcCfg V)) : Prop :=
  ∀ q k, ("sequencer_options", q, k) ∈ Dict.keys o → ∃ x ∈ S, HasSeq x.1 x.2 ∧ x.2.pc = q

/-- Several port-clocks. -/
theorem convertPcs_eq (kind : Kind) (node : Node) : ∀ (l : List (PcCfg V)) (S : List (Kind × PcCfg V)) (n : New V),
    (∀ p ∈ l, (p.opts.map Prod.fst).Nodup) →
    (kind = .real → ∀ p ∈ l, (∃ x ∈ p.opts, x.1 ∈ gains) → ¬ ∃ x ∈ p.opts, x.1 ∈ others) →
    (S ++ l.map fun p => (kind, p)).Pairwise (fun a b => HasSeq a.1 a.2 → HasSeq b.1 b.2 → a.2.pc ≠ b.2.pc) →
    SeqIn n.options S →
    convertPcs kind node l n = { n with
      options := applyW n.options (l.flatMap (pcWrites kind)),
      graph := n.graph ++ l.map fun p => (node, .port p.pc.1) } ∧
    SeqIn (applyW n.options (l.flatMap (pcWrites kind))) (S ++ l.map fun p => (kind, p))
  | [], S, n, _, _, _, h => by simpa [convertPcs, applyW] using h
  | c :: l, S, n, h1, h2, h3, h4 => by
    have hc : pcOptions kind c n.options = applyW n.options (pcWrites kind c) := by
      refine pcOptions_eq (h1 c (by simp)) (fun hk => h2 hk c (by simp)) ?_
      intro hs k hk
      obtain ⟨x, hx, hxs, hxp⟩ := h4 _ _ hk
      rw [List.pairwise_append] at h3
      exact h3.2.2 x hx (kind, c) (by simp) hxs hs hxp
    have hs : SeqIn (applyW n.options (pcWrites kind c)) (S ++ [(kind, c)]) := by
      intro q k hk
      rw [mem_keys_applyW] at hk
      rcases hk with hk | hk
      · obtain ⟨x, hx, h⟩ := h4 _ _ hk
        exact ⟨x, List.mem_append_left _ hx, h⟩
      · rw [List.mem_map] at hk
        obtain ⟨⟨K, v⟩, hm, rfl⟩ := hk
        obtain ⟨h5, h6⟩ := pcWrites_seq hm
        exact ⟨(kind, c), by simp, h6, h5.symm⟩
    obtain ⟨h5, h6⟩ := convertPcs_eq kind node l (S ++ [(kind, c)])
      { n with graph := n.graph ++ [(node, .port c.pc.1)], options := pcOptions kind c n.options }
      (fun p hp => h1 p (by simp [hp])) (fun hk p hp => h2 hk p (by simp [hp])) (by simpa using h3) (by rw [hc]; exact hs)
    constructor
    · unfold convertPcs
      rw [h5]
      simp [hc, applyW_append]
    · simp only [hc] at h6
      rw [List.flatMap_cons, applyW_append]
      simpa using h6

end Verif.OldConfig
