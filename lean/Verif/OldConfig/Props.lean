/-
C85: hardware configurations in the old style are converted as they are meant.
-/
import Verif.OldConfig.Fold

namespace Verif.OldConfig

set_option linter.unusedSimpArgs false

variable {V : Type}

theorem lookup_table {kind : Kind} (hk : kind ≠ .digital) {k : String} {x : String × String} :
    lookup (table kind) k = some x ↔ (kind, k, x) ∈ channelMeaning := by
  cases kind with
  | complex => exact lookup_complex
  | real => exact lookup_real
  | digital => exact absurd rfl hk

theorem loFreq_iff {old : Old V} (h : WellFormed old) {l : String} {v : V} :
    loFreq old l = .ok (some v) ↔ Frequency old l v := by
  constructor
  · intro hl
    unfold loFreq at hl
    split at hl
    · exact absurd hl (by simp)
    · rename_i opts hg
      simp only [Except.ok.injEq] at hl
      exact ⟨opts, Dict.mem_of_get? hg, Dict.mem_of_get? hl⟩
    · exact absurd hl (by simp)
  · rintro ⟨opts, h1, h2⟩
    unfold loFreq
    rw [Dict.get?_of_mem h.names h1]
    simp only [Except.ok.injEq]
    exact Dict.get?_of_mem (h.los _ h1 opts rfl).1 h2

theorem mem_freqW {old : Old V} (h : WellFormed old) {pcs : List Pc} {l : String} {cat field : String} {pc : Pc} {v : V} :
    ((cat, pc, field), v) ∈ freqW old pcs l ↔
      Frequency old l v ∧ pc ∈ pcs ∧ cat = "modulation_frequencies" ∧ field = "lo_freq" := by
  unfold freqW
  constructor
  · intro hm
    split at hm
    · rename_i w hw
      rw [List.mem_map] at hm
      obtain ⟨p, hp, he⟩ := hm
      simp only [Prod.mk.injEq] at he
      obtain ⟨⟨rfl, rfl, rfl⟩, rfl⟩ := he
      exact ⟨(loFreq_iff h).mp hw, hp, rfl, rfl⟩
    · exact absurd hm (by simp)
  · rintro ⟨hf, hp, rfl, rfl⟩
    rw [← loFreq_iff h] at hf
    rw [hf]
    exact List.mem_map.mpr ⟨pc, hp, rfl⟩

theorem mem_entryW {old : Old V} (h : WellFormed old) {kind : Kind} (hk : kind ≠ .digital) {opt : Bool} {pcs : List Pc}
    {node : Node} {e : Entry V} {cat field : String} {pc : Pc} {v : V} :
    ((cat, pc, field), v) ∈ (entryW old kind opt pcs node e).options ↔ pc ∈ pcs ∧
      ((∃ k, e = .opt k v ∧ (kind, k, cat, field) ∈ channelMeaning) ∨
        ∃ l, e = .lo l ∧ Frequency old l v ∧ cat = "modulation_frequencies" ∧ field = "lo_freq") := by
  cases e with
  | opt k w =>
    simp only [entryW, Entry.opt.injEq, reduceCtorEq, false_and, exists_false, or_false]
    constructor
    · intro hm
      cases hl : lookup (table kind) k with
      | none => rw [hl] at hm; simp at hm
      | some x =>
        rw [hl] at hm
        simp only [List.mem_map, Prod.mk.injEq] at hm
        obtain ⟨p, hp, ⟨rfl, rfl, rfl⟩, rfl⟩ := hm
        exact ⟨hp, k, ⟨rfl, rfl⟩, (lookup_table hk).mp hl⟩
    · rintro ⟨hp, k', ⟨rfl, rfl⟩, hm⟩
      rw [(lookup_table hk).mpr hm]
      exact List.mem_map.mpr ⟨pc, hp, rfl⟩
  | lo l =>
    simp only [entryW, mem_freqW h, reduceCtorEq, false_and, exists_false, false_or, Entry.lo.injEq]
    constructor
    · rintro ⟨h1, h2, h3⟩; exact ⟨h2, l, rfl, h1, h3⟩
    · rintro ⟨h2, l', rfl, h1, h3⟩; exact ⟨h1, h2, h3⟩

theorem mem_entriesW {old : Old V} (h : WellFormed old) {kind : Kind} (hk : kind ≠ .digital) {opt : Bool} {pcs : List Pc}
    {cat field : String} {pc : Pc} {v : V} : ∀ {es : List (Entry V)} {node : Node},
    ((cat, pc, field), v) ∈ (entriesW old kind opt pcs node es).options ↔ pc ∈ pcs ∧
      ((∃ k, .opt k v ∈ es ∧ (kind, k, cat, field) ∈ channelMeaning) ∨
        ∃ l, .lo l ∈ es ∧ Frequency old l v ∧ cat = "modulation_frequencies" ∧ field = "lo_freq")
  | [], node => by simp [entriesW]
  | e :: es, node => by
    simp only [entriesW, New.cat, List.mem_append, mem_entryW h hk, mem_entriesW h hk, List.mem_cons]
    constructor
    · rintro (⟨hp, ⟨k, he, hm⟩ | ⟨l, he, hm⟩⟩ | ⟨hp, ⟨k, he, hm⟩ | ⟨l, he, hm⟩⟩)
      · exact ⟨hp, .inl ⟨k, .inl he.symm, hm⟩⟩
      · exact ⟨hp, .inr ⟨l, .inl he.symm, hm⟩⟩
      · exact ⟨hp, .inl ⟨k, .inr he, hm⟩⟩
      · exact ⟨hp, .inr ⟨l, .inr he, hm⟩⟩
    · rintro ⟨hp, ⟨k, he | he, hm⟩ | ⟨l, he | he, hm⟩⟩
      · exact .inl ⟨hp, .inl ⟨k, he.symm, hm⟩⟩
      · exact .inr ⟨hp, .inl ⟨k, he, hm⟩⟩
      · exact .inl ⟨hp, .inr ⟨l, he.symm, hm⟩⟩
      · exact .inr ⟨hp, .inr ⟨l, he, hm⟩⟩

/-- The options of a channel are what it wants. -/
theorem mem_chanW [DecidableEq V] {old : Old V} (h : WellFormed old) {optical : Pc → Bool} {dflt : String → V}
    {e : String × Nat × Channel V} {cat field : String} {pc : Pc} {v : V} :
    ((cat, pc, field), v) ∈ (chanW old optical dflt e).options ↔
      ∃ p ∈ e.2.2.pcs, p.pc = pc ∧ WantsIn old e.2.2 p cat field v := by
  unfold chanW WantsIn
  by_cases hd : e.2.2.kind = .digital
  · rw [if_pos hd]
    simp only [pcsW, List.mem_flatMap, mem_pcWrites, hd]
    constructor
    · rintro ⟨p, hp, rfl, h1⟩
      exact ⟨p, hp, rfl, .inr (.inr h1)⟩
    · rintro ⟨p, hp, rfl, ⟨k, _, h1⟩ | ⟨l, _, h1, _⟩ | h1⟩
      · simp [channelMeaning] at h1
      · exact absurd rfl h1
      · exact ⟨p, hp, rfl, h1⟩
  · simp only [if_neg hd, New.cat, List.mem_append, mem_entriesW h hd, pcsW, List.mem_flatMap, mem_pcWrites, descW_options,
      List.not_mem_nil, or_false, List.mem_map]
    constructor
    · rintro (⟨⟨p, hp, rfl⟩, h1 | ⟨l, h1, h2, h3⟩⟩ | ⟨p, hp, rfl, h1⟩)
      · exact ⟨p, hp, rfl, .inl h1⟩
      · exact ⟨p, hp, rfl, .inr (.inl ⟨l, h1, hd, h2, h3⟩)⟩
      · exact ⟨p, hp, rfl, .inr (.inr h1)⟩
    · rintro ⟨p, hp, rfl, h1 | ⟨l, h1, _, h2, h3⟩ | h1⟩
      · exact .inl ⟨⟨p, hp, rfl⟩, .inl h1⟩
      · exact .inl ⟨⟨p, hp, rfl⟩, .inr ⟨l, h1, h2, h3⟩⟩
      · exact .inr ⟨p, hp, rfl, h1⟩

/-- Well-formed configurations are converted. -/
theorem convert_ok_partial [DecidableEq V] {old : Old V} (h : WellFormed old) (optical : Pc → Bool) (dflt : String → V) :
    ∃ n, convert old optical dflt = .ok n := ⟨_, convert_eq old optical dflt h⟩

/-- The hardware options are what the channels want. -/
theorem options_partial [DecidableEq V] {old : Old V} (h : WellFormed old) {optical : Pc → Bool} {dflt : String → V}
    {n : New V} (hc : convert old optical dflt = .ok n) (pc : Pc) (cat field : String) (v : V) :
    Dict.get? n.options (cat, pc, field) = some v ↔ Wants old pc cat field v := by
  have hm : ∀ pc cat field v, ((cat, pc, field), v) ∈ (catAll (itemW old optical dflt) old).options ↔
      Wants old pc cat field v := by
    intro pc cat field v
    rw [chans_field (fun n => n.options) rfl (fun _ _ => rfl) (fun _ => rfl) (fun _ => rfl) (fun _ => rfl) (fun _ => rfl)]
    simp only [List.mem_flatMap, mem_chanW h]
    rfl
  rw [convert_eq old optical dflt h] at hc
  simp only [Except.ok.injEq] at hc
  subst hc
  show Dict.get? (applyW [] _) _ = _ ↔ _
  rw [get?_applyW, hm]
  rintro ⟨c, p, f⟩ v w h1 h2
  exact h.unique p c f v w ((hm ..).mp h1) ((hm ..).mp h2)

theorem noLo_graph (old : Old V) (kind : Kind) (opt : Bool) (pcs : List Pc) : ∀ (es : List (Entry V)) (node : Node),
    (∀ l, .lo l ∉ es) → (entriesW old kind opt pcs node es).graph = [] ∧ (entriesW old kind opt pcs node es).mixers = [] ∧
      es.foldl (entryNode opt) node = node
  | [], node, _ => ⟨rfl, rfl, rfl⟩
  | .opt k v :: es, node, h => by
    obtain ⟨h1, h2, h3⟩ := noLo_graph old kind opt pcs es node (fun l hl => h l (by simp [hl]))
    simp only [entriesW, New.cat, entryW, entryNode, List.foldl_cons]
    refine ⟨?_, ?_, h3⟩
    · rw [h1]; split <;> rfl
    · rw [h2]; split <;> rfl
  | .lo l :: es, node, h => absurd (List.mem_cons_self) (h l)

theorem oneLo_graph (old : Old V) (kind : Kind) (opt : Bool) (pcs : List Pc) (l : String) (b : List (Entry V))
    (hb : ∀ l, .lo l ∉ b) : ∀ (a : List (Entry V)) (node : Node), (∀ l, .lo l ∉ a) →
    (entriesW old kind opt pcs node (a ++ .lo l :: b)).graph = [(node, .mixer opt l .if), (.lo l, .mixer opt l .lo)] ∧
      (entriesW old kind opt pcs node (a ++ .lo l :: b)).mixers = [(opt, l)] ∧
      (a ++ .lo l :: b).foldl (entryNode opt) node = .mixer opt l .out
  | [], node, _ => by
    obtain ⟨h1, h2, h3⟩ := noLo_graph old kind opt pcs b (.mixer opt l .out) hb
    simp only [List.nil_append, entriesW, New.cat, entryW, entryNode, h1, h2, List.foldl_cons, h3]
    exact ⟨rfl, rfl, trivial⟩
  | .opt k v :: a, node, h => by
    obtain ⟨h1, h2, h3⟩ := oneLo_graph old kind opt pcs l b hb a node (fun l hl => h l (by simp [hl]))
    simp only [List.cons_append, entriesW, New.cat, entryW, entryNode, List.foldl_cons, h1, h2, h3]
    refine ⟨?_, ?_, trivial⟩
    · split <;> rfl
    · split <;> rfl
  | .lo l :: a, node, h => absurd (List.mem_cons_self) (h l)

theorem optOf_iff {optical : Pc → Bool} {c : Channel V} :
    optOf optical c = true ↔ c.kind = .real ∧ ∃ p ∈ c.pcs, optical p.pc = true := by
  simp [optOf]

theorem descW_graph [DecidableEq V] (dflt : String → V) (id : String × Nat × String) (d : List (String × V)) :
    (descW dflt id d).graph = [] ∧ (descW dflt id d).mixers = [] := by
  unfold descW; split <;> exact ⟨rfl, rfl⟩

/-- The graph, the mixers. -/
theorem graph_chanW [DecidableEq V] {old : Old V} (h : WellFormed old) {optical : Pc → Bool} {dflt : String → V}
    {e : String × Nat × Channel V} (he : e ∈ chans old) :
    ((e.2.2.kind = .digital ∨ ∀ l, Entry.lo l ∉ e.2.2.entries) ∧ (chanW old optical dflt e).mixers = [] ∧
      (chanW old optical dflt e).graph = e.2.2.pcs.map fun p => (.chan e.1 e.2.1 e.2.2.name, .port p.pc.1)) ∨
    ∃ l, e.2.2.kind ≠ .digital ∧ Entry.lo l ∈ e.2.2.entries ∧ (∀ m, Entry.lo m ∈ e.2.2.entries → m = l) ∧
      (chanW old optical dflt e).mixers = [(optOf optical e.2.2, l)] ∧
      (chanW old optical dflt e).graph =
        [(.chan e.1 e.2.1 e.2.2.name, .mixer (optOf optical e.2.2) l .if), (.lo l, .mixer (optOf optical e.2.2) l .lo)] ++
          e.2.2.pcs.map fun p => (.mixer (optOf optical e.2.2) l .out, .port p.pc.1) := by
  by_cases hd : e.2.2.kind = .digital
  · left
    refine ⟨.inl hd, ?_, ?_⟩ <;> simp [chanW, if_pos hd, pcsW]
  · by_cases hl : ∀ l, Entry.lo l ∉ e.2.2.entries
    · left
      obtain ⟨h1, h2, h3⟩ := noLo_graph old e.2.2.kind (optOf optical e.2.2) (e.2.2.pcs.map (·.pc)) e.2.2.entries
        (.chan e.1 e.2.1 e.2.2.name) hl
      refine ⟨.inr hl, ?_, ?_⟩
      · simp [chanW, if_neg hd, New.cat, h2, pcsW, descW_graph]
      · simp [chanW, if_neg hd, New.cat, h1, h3, pcsW, descW_graph]
    · right
      push Not at hl
      obtain ⟨l, hl⟩ := hl
      obtain ⟨a, b, hab⟩ := List.append_of_mem hl
      have hs := h.single e he a b l
      have ha : ∀ m, Entry.lo m ∉ a := fun m hm => hs m hab (List.mem_append_left _ hm)
      have hb : ∀ m, Entry.lo m ∉ b := fun m hm => hs m hab (List.mem_append_right _ hm)
      obtain ⟨h1, h2, h3⟩ := oneLo_graph old e.2.2.kind (optOf optical e.2.2) (e.2.2.pcs.map (·.pc)) l b hb a
        (.chan e.1 e.2.1 e.2.2.name) ha
      rw [← hab] at h1 h2 h3
      refine ⟨l, hd, hl, ?_, ?_, ?_⟩
      · intro m hm
        rw [hab] at hm
        simp only [List.mem_append, List.mem_cons, Entry.lo.injEq] at hm
        rcases hm with hm | hm | hm
        · exact absurd hm (ha m)
        · exact hm
        · exact absurd hm (hb m)
      · simp [chanW, if_neg hd, New.cat, h2, pcsW, descW_graph]
      · simp [chanW, if_neg hd, New.cat, h1, h3, pcsW, descW_graph]

/-- Ports are connected to channels, or to mixers. -/
theorem graph_partial [DecidableEq V] {old : Old V} (h : WellFormed old) {optical : Pc → Bool} {dflt : String → V}
    {n : New V} (hc : convert old optical dflt = .ok n) (x : Node × Node) : x ∈ n.graph ↔ Edge optical old x := by
  rw [convert_eq old optical dflt h] at hc
  simp only [Except.ok.injEq] at hc
  subst hc
  show x ∈ [] ++ (catAll (itemW old optical dflt) old).graph ↔ _
  rw [chans_field (fun n => n.graph) rfl (fun _ _ => rfl) (fun _ => rfl) (fun _ => rfl) (fun _ => rfl) (fun _ => rfl)]
  simp only [List.nil_append, List.mem_flatMap, Edge]
  constructor
  · rintro ⟨e, he, hx⟩
    refine ⟨e, he, ?_⟩
    rcases graph_chanW h (optical := optical) (dflt := dflt) he with ⟨h1, _, h2⟩ | ⟨l, hd, hl, _, _, h2⟩
    · rw [h2, List.mem_map] at hx
      obtain ⟨p, hp, rfl⟩ := hx
      exact .inl ⟨h1, p, hp, rfl⟩
    · rw [h2] at hx
      refine .inr ⟨l, hl, optOf optical e.2.2, optOf_iff, hd, ?_⟩
      simp only [List.cons_append, List.nil_append, List.mem_cons, List.mem_map] at hx
      rcases hx with hx | hx | ⟨p, hp, hx⟩
      · exact .inl hx
      · exact .inr (.inl hx)
      · exact .inr (.inr ⟨p, hp, hx.symm⟩)
  · rintro ⟨e, he, hx⟩
    refine ⟨e, he, ?_⟩
    rcases graph_chanW h (optical := optical) (dflt := dflt) he with ⟨h1, _, h2⟩ | ⟨l, hd, hl, hu, _, h2⟩
    · rw [h2]
      rcases hx with ⟨_, p, hp, rfl⟩ | ⟨l, hl, _, _, hd, _⟩
      · exact List.mem_map.mpr ⟨p, hp, rfl⟩
      · rcases h1 with h1 | h1
        · exact absurd h1 hd
        · exact absurd hl (h1 l)
    · rw [h2]
      rcases hx with ⟨h1, _⟩ | ⟨m, hm, o, ho, _, hx⟩
      · rcases h1 with h1 | h1
        · exact absurd h1 hd
        · exact absurd hl (h1 l)
      · obtain rfl := hu m hm
        have : o = optOf optical e.2.2 := by
          rw [Bool.eq_iff_iff, ho, optOf_iff]
        subst this
        simp only [List.cons_append, List.nil_append, List.mem_cons, List.mem_map]
        rcases hx with hx | hx | ⟨p, hp, hx⟩
        · exact .inl hx
        · exact .inr (.inl hx)
        · exact .inr (.inr ⟨p, hp, hx.symm⟩)

/-- Every mixer of the graph, and no other, is described, once. -/
theorem mixers_partial [DecidableEq V] {old : Old V} (h : WellFormed old) {optical : Pc → Bool} {dflt : String → V}
    {n : New V} (hc : convert old optical dflt = .ok n) (o : Bool) (l : String) :
    (o, l) ∈ n.mixers ↔ ∃ e ∈ chans old, Entry.lo l ∈ e.2.2.entries ∧ e.2.2.kind ≠ .digital ∧
      (o = true ↔ e.2.2.kind = .real ∧ ∃ p ∈ e.2.2.pcs, optical p.pc = true) := by
  rw [convert_eq old optical dflt h] at hc
  simp only [Except.ok.injEq] at hc
  subst hc
  show (o, l) ∈ addM [] (catAll (itemW old optical dflt) old).mixers ↔ _
  rw [chans_field (fun n => n.mixers) rfl (fun _ _ => rfl) (fun _ => rfl) (fun _ => rfl) (fun _ => rfl) (fun _ => rfl),
    mem_addM]
  simp only [List.not_mem_nil, false_or, List.mem_flatMap]
  constructor
  · rintro ⟨e, he, hx⟩
    refine ⟨e, he, ?_⟩
    rcases graph_chanW h (optical := optical) (dflt := dflt) he with ⟨_, h2, _⟩ | ⟨m, hd, hl, _, h2, _⟩
    · rw [h2] at hx; exact absurd hx (by simp)
    · rw [h2, List.mem_singleton, Prod.mk.injEq] at hx
      obtain ⟨rfl, rfl⟩ := hx
      exact ⟨hl, hd, optOf_iff⟩
  · rintro ⟨e, he, hl, hd, ho⟩
    refine ⟨e, he, ?_⟩
    rcases graph_chanW h (optical := optical) (dflt := dflt) he with ⟨h1, _, _⟩ | ⟨m, _, _, hu, h2, _⟩
    · rcases h1 with h1 | h1
      · exact absurd h1 hd
      · exact absurd hl (h1 l)
    · rw [h2, hu l hl, List.mem_singleton, Prod.mk.injEq]
      exact ⟨by rw [Bool.eq_iff_iff, ho, optOf_iff], rfl⟩

end Verif.OldConfig
