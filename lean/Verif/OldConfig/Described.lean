/-
C85: descriptions of clusters, modules, channels and local oscillators; corrections.
-/
import Verif.OldConfig.Props

namespace Verif.OldConfig

set_option linter.unusedSimpArgs false

variable {V : Type}

/-- Nothing but channels, mixers, edges and options. -/
def Bare (n : New V) : Prop := n.los = [] ∧ n.corrections = [] ∧ n.clusters = [] ∧ n.modules = []

theorem bare_cat {a b : New V} (ha : Bare a) (hb : Bare b) : Bare (a.cat b) := by
  obtain ⟨h1, h2, h3, h4⟩ := ha
  obtain ⟨h5, h6, h7, h8⟩ := hb
  exact ⟨by simp [New.cat, h1, h5], by simp [New.cat, h2, h6], by simp [New.cat, h3, h7], by simp [New.cat, h4, h8]⟩

theorem bare_entries (old : Old V) (kind : Kind) (opt : Bool) (pcs : List Pc) : ∀ (es : List (Entry V)) (node : Node),
    Bare (entriesW old kind opt pcs node es) ∧ (entriesW old kind opt pcs node es).channels = []
  | [], node => ⟨⟨rfl, rfl, rfl, rfl⟩, rfl⟩
  | e :: es, node => by
    obtain ⟨h1, h2⟩ := bare_entries old kind opt pcs es (entryNode opt node e)
    have h3 : Bare (entryW old kind opt pcs node e) ∧ (entryW old kind opt pcs node e).channels = [] := by
      cases e with
      | opt k v =>
        simp only [entryW]
        split <;> exact ⟨⟨rfl, rfl, rfl, rfl⟩, rfl⟩
      | lo l => exact ⟨⟨rfl, rfl, rfl, rfl⟩, rfl⟩
    exact ⟨bare_cat h3.1 h1, by simp [entriesW, New.cat, h2, h3.2]⟩

theorem bare_descW [DecidableEq V] (dflt : String → V) (id : String × Nat × String) (d : List (String × V)) :
    Bare (descW dflt id d) := by
  unfold descW; split <;> exact ⟨rfl, rfl, rfl, rfl⟩

theorem bare_chanW [DecidableEq V] (old : Old V) (optical : Pc → Bool) (dflt : String → V) (e : String × Nat × Channel V) :
    Bare (chanW old optical dflt e) := by
  unfold chanW
  by_cases hd : e.2.2.kind = .digital
  · simp only [if_pos hd]; exact ⟨rfl, rfl, rfl, rfl⟩
  · simp only [if_neg hd]
    exact bare_cat (bare_cat (bare_entries ..).1 ⟨rfl, rfl, rfl, rfl⟩) (bare_descW ..)

theorem bare_catAll {A : Type} {f : A → New V} (h : ∀ a, Bare (f a)) : ∀ l, Bare (catAll f l)
  | [] => ⟨rfl, rfl, rfl, rfl⟩
  | a :: l => bare_cat (h a) (bare_catAll h l)

theorem modW_bare [DecidableEq V] (old : Old V) (optical : Pc → Bool) (dflt : String → V) (cl : String) :
    ∀ (l : List (Module V)), (catAll (modW old optical dflt cl) l).los = [] ∧
      (catAll (modW old optical dflt cl) l).corrections = [] ∧ (catAll (modW old optical dflt cl) l).clusters = [] ∧
      (catAll (modW old optical dflt cl) l).modules =
        l.map fun m => ((cl, m.slot), m.opts.filter fun e => ["instrument_type", "sequence_to_file"].contains e.1)
  | [] => ⟨rfl, rfl, rfl, rfl⟩
  | m :: l => by
    obtain ⟨h1, h2, h3, h4⟩ := modW_bare old optical dflt cl l
    obtain ⟨h5, h6, h7, h8⟩ := bare_catAll (bare_chanW old optical dflt) (modChans cl m)
    simp [catAll, modW, New.cat, h1, h2, h3, h4, h5, h6, h7, h8]

/-- The local oscillators that are described. -/
theorem los_field [DecidableEq V] (old : Old V) (optical : Pc → Bool) (dflt : String → V) (l : Old V) (name : String)
    (d : List (String × V)) : (name, d) ∈ (catAll (itemW old optical dflt) l).los ↔
      ∃ opts, (name, Item.lo opts) ∈ l ∧ d = opts.filter fun x => ["instrument_type", "power"].contains x.1 := by
  rw [catAll_field (fun n => n.los) rfl (fun _ _ => rfl), List.mem_flatMap]
  constructor
  · rintro ⟨⟨a, i⟩, he, hx⟩
    cases i <;> simp [itemW, New.cat, modW_bare] at hx
    obtain ⟨rfl, rfl⟩ := hx
    exact ⟨_, he, by simp⟩
  · rintro ⟨opts, he, rfl⟩
    exact ⟨_, he, by simp [itemW]⟩

theorem corrections_field [DecidableEq V] (old : Old V) (optical : Pc → Bool) (dflt : String → V) (l : Old V) (name : String)
    (v : V) : (name, v) ∈ (catAll (itemW old optical dflt) l).corrections ↔ (name, Item.correction v) ∈ l := by
  rw [catAll_field (fun n => n.corrections) rfl (fun _ _ => rfl), List.mem_flatMap]
  constructor
  · rintro ⟨⟨a, i⟩, he, hx⟩
    cases i <;> simp [itemW, New.cat, modW_bare] at hx
    obtain ⟨rfl, rfl⟩ := hx
    exact he
  · intro he
    exact ⟨_, he, by simp [itemW]⟩

theorem clusters_field [DecidableEq V] (old : Old V) (optical : Pc → Bool) (dflt : String → V) (l : Old V) (name : String)
    (d : List (String × V)) : (name, d) ∈ (catAll (itemW old optical dflt) l).clusters ↔
      ∃ opts modules, (name, Item.cluster opts modules) ∈ l ∧
        d = opts.filter fun x => ["ref", "sequence_to_file"].contains x.1 := by
  rw [catAll_field (fun n => n.clusters) rfl (fun _ _ => rfl), List.mem_flatMap]
  constructor
  · rintro ⟨⟨a, i⟩, he, hx⟩
    cases i <;> simp [itemW, New.cat, modW_bare] at hx
    obtain ⟨rfl, rfl⟩ := hx
    exact ⟨_, _, he, by simp⟩
  · rintro ⟨opts, modules, he, rfl⟩
    exact ⟨_, he, by simp [itemW, New.cat, modW_bare]⟩

theorem modules_field [DecidableEq V] (old : Old V) (optical : Pc → Bool) (dflt : String → V) (l : Old V) (name : String)
    (slot : Nat) (d : List (String × V)) : ((name, slot), d) ∈ (catAll (itemW old optical dflt) l).modules ↔
      ∃ opts modules m, (name, Item.cluster opts modules) ∈ l ∧ m ∈ modules ∧ m.slot = slot ∧
        d = m.opts.filter fun x => ["instrument_type", "sequence_to_file"].contains x.1 := by
  rw [catAll_field (fun n => n.modules) rfl (fun _ _ => rfl), List.mem_flatMap]
  constructor
  · rintro ⟨⟨a, i⟩, he, hx⟩
    cases i with
    | cluster opts modules =>
      simp only [itemW, New.cat, modW_bare, List.nil_append, List.mem_map, Prod.mk.injEq] at hx
      obtain ⟨m, hm, ⟨rfl, rfl⟩, rfl⟩ := hx
      exact ⟨_, _, m, he, hm, rfl, rfl⟩
    | _ => simp [itemW] at hx
  · rintro ⟨opts, modules, m, he, hm, rfl, rfl⟩
    refine ⟨_, he, ?_⟩
    simp only [itemW, New.cat, modW_bare, List.nil_append, List.mem_map]
    exact ⟨m, hm, rfl⟩

theorem mem_of_names {old : Old V} (h : (old.map Prod.fst).Nodup) {name : String} {i j : Item V} (hi : (name, i) ∈ old)
    (hj : (name, j) ∈ old) : i = j := by
  have h1 := Dict.get?_of_mem h hi
  rw [Dict.get?_of_mem h hj] at h1
  exact (Option.some.inj h1).symm

/-- Local oscillators keep type and power. -/
theorem los_partial [DecidableEq V] {old : Old V} (h : WellFormed old) {optical : Pc → Bool} {dflt : String → V} {n : New V}
    (hc : convert old optical dflt = .ok n) (name : String) (d : List (String × V)) :
    Dict.get? n.los name = some d ↔
      ∃ opts, (name, Item.lo opts) ∈ old ∧ d = opts.filter fun x => x.1 = "instrument_type" ∨ x.1 = "power" := by
  rw [convert_eq old optical dflt h] at hc
  simp only [Except.ok.injEq] at hc
  subst hc
  show Dict.get? (applyW [] _) _ = _ ↔ _
  rw [get?_applyW, los_field]
  · simp
  · intro K v w h1 h2
    rw [los_field] at h1 h2
    obtain ⟨o1, h1, rfl⟩ := h1
    obtain ⟨o2, h2, rfl⟩ := h2
    have := mem_of_names h.names h1 h2
    simp only [Item.lo.injEq] at this
    rw [this]

/-- Corrections are kept. -/
theorem corrections_partial [DecidableEq V] {old : Old V} (h : WellFormed old) {optical : Pc → Bool} {dflt : String → V}
    {n : New V} (hc : convert old optical dflt = .ok n) (name : String) (v : V) :
    Dict.get? n.corrections name = some v ↔ (name, Item.correction v) ∈ old := by
  rw [convert_eq old optical dflt h] at hc
  simp only [Except.ok.injEq] at hc
  subst hc
  show Dict.get? (applyW [] _) _ = _ ↔ _
  rw [get?_applyW, corrections_field]
  intro K v w h1 h2
  rw [corrections_field] at h1 h2
  have := mem_of_names h.names h1 h2
  simpa using this

/-- Clusters keep their reference. -/
theorem clusters_partial [DecidableEq V] {old : Old V} (h : WellFormed old) {optical : Pc → Bool} {dflt : String → V}
    {n : New V} (hc : convert old optical dflt = .ok n) (name : String) (d : List (String × V)) :
    Dict.get? n.clusters name = some d ↔ ∃ opts modules, (name, Item.cluster opts modules) ∈ old ∧
      d = opts.filter fun x => x.1 = "ref" ∨ x.1 = "sequence_to_file" := by
  rw [convert_eq old optical dflt h] at hc
  simp only [Except.ok.injEq] at hc
  subst hc
  show Dict.get? (applyW [] _) _ = _ ↔ _
  rw [get?_applyW, clusters_field]
  · simp
  · intro K v w h1 h2
    rw [clusters_field] at h1 h2
    obtain ⟨o1, m1, h1, rfl⟩ := h1
    obtain ⟨o2, m2, h2, rfl⟩ := h2
    have := mem_of_names h.names h1 h2
    simp only [Item.cluster.injEq] at this
    rw [this.1]

/-- Modules keep their type. -/
theorem modules_partial [DecidableEq V] {old : Old V} (h : WellFormed old) {optical : Pc → Bool} {dflt : String → V}
    {n : New V} (hc : convert old optical dflt = .ok n) (name : String) (slot : Nat) (d : List (String × V)) :
    Dict.get? n.modules (name, slot) = some d ↔ ∃ opts modules m, (name, Item.cluster opts modules) ∈ old ∧ m ∈ modules ∧
      m.slot = slot ∧ d = m.opts.filter fun x => x.1 = "instrument_type" ∨ x.1 = "sequence_to_file" := by
  rw [convert_eq old optical dflt h] at hc
  simp only [Except.ok.injEq] at hc
  subst hc
  show Dict.get? (applyW [] _) _ = _ ↔ _
  rw [get?_applyW, modules_field]
  · simp
  · rintro ⟨name, slot⟩ v w h1 h2
    rw [modules_field] at h1 h2
    obtain ⟨o1, m1, a, h1, ha, rfl, rfl⟩ := h1
    obtain ⟨o2, m2, b, h2, hb, hs, rfl⟩ := h2
    have := mem_of_names h.names h1 h2
    simp only [Item.cluster.injEq] at this
    obtain ⟨rfl, rfl⟩ := this
    rw [List.inj_on_of_nodup_map (h.slots _ h1 _ _ rfl) ha hb hs.symm]

theorem mem_entryD {c : Channel V} {k : String} {v : V} :
    (k, v) ∈ c.entries.flatMap (entryD c.kind) ↔ Described c k v := by
  unfold Described
  rw [List.mem_flatMap]
  constructor
  · rintro ⟨e, he, hm⟩
    cases e with
    | lo l => simp [entryD] at hm
    | opt x w =>
      simp only [entryD] at hm
      split at hm
      · rename_i hd
        simp only [List.mem_singleton, Prod.mk.injEq] at hm
        obtain ⟨rfl, rfl⟩ := hm
        refine ⟨he, ?_⟩
        simp only [List.contains_eq_mem, decide_eq_true_eq] at hd
        cases hk : c.kind <;> rw [hk] at hd <;> simp [described] at hd <;> simp [hd]
      · exact absurd hm (by simp)
  · rintro ⟨he, hd⟩
    refine ⟨_, he, ?_⟩
    have : (described c.kind).contains k = true := by
      simp only [List.contains_eq_mem, decide_eq_true_eq]
      cases hk : c.kind <;> rw [hk] at hd <;> simp at hd <;> simp [described, hd]
    simp only [entryD, if_pos this, List.mem_singleton]

theorem channels_chanW [DecidableEq V] (old : Old V) (optical : Pc → Bool) (dflt : String → V)
    (e : String × Nat × Channel V) (id : String × Nat × String) (d : List (String × V)) :
    (id, d) ∈ (chanW old optical dflt e).channels ↔ id = (e.1, e.2.1, e.2.2.name) ∧ e.2.2.kind ≠ .digital ∧
      d = applyW [] (e.2.2.entries.flatMap (entryD e.2.2.kind)) ∧ ¬ ∀ x ∈ d, x.2 = dflt x.1 := by
  unfold chanW
  by_cases hd : e.2.2.kind = .digital
  · rw [if_pos hd]; simp [pcsW, hd]
  · rw [if_neg hd]
    simp only [New.cat, List.mem_append, bare_entries, pcsW, List.not_mem_nil, false_or, descW]
    split
    · rename_i h
      simp only [List.all_eq_true, decide_eq_true_eq] at h
      constructor
      · intro hx; exact absurd hx (by simp)
      · rintro ⟨_, _, rfl, hx⟩
        exact absurd (fun x hx => h x hx) hx
    · rename_i h
      simp only [List.all_eq_true, decide_eq_true_eq] at h
      simp only [List.mem_singleton, Prod.mk.injEq]
      constructor
      · rintro ⟨rfl, rfl⟩; exact ⟨rfl, hd, rfl, h⟩
      · rintro ⟨rfl, _, rfl, _⟩; exact ⟨rfl, rfl⟩

/-- The description of a channel. -/
theorem get?_entryD {old : Old V} (h : WellFormed old) {e : String × Nat × Channel V} (he : e ∈ chans old) (k : String)
    (v : V) : Dict.get? (applyW [] (e.2.2.entries.flatMap (entryD e.2.2.kind))) k = some v ↔ Described e.2.2 k v := by
  rw [get?_applyW, mem_entryD]
  intro K v w h1 h2
  rw [mem_entryD] at h1 h2
  exact h.entry e he K v w h1.1 h2.1

/-- Of a channel that is described exactly what was given is described, one that is not was given nothing but default
values. -/
theorem channels_partial [DecidableEq V] {old : Old V} (h : WellFormed old) {optical : Pc → Bool} {dflt : String → V}
    {n : New V} (hc : convert old optical dflt = .ok n) {e : String × Nat × Channel V} (he : e ∈ chans old) :
    match Dict.get? n.channels (e.1, e.2.1, e.2.2.name) with
    | some d => ∀ k v, Dict.get? d k = some v ↔ Described e.2.2 k v
    | none => ∀ k v, Described e.2.2 k v → v = dflt k := by
  rw [convert_eq old optical dflt h] at hc
  simp only [Except.ok.injEq] at hc
  have hm : ∀ id d, Dict.get? n.channels id = some d ↔ ∃ e ∈ chans old, (id, d) ∈ (chanW old optical dflt e).channels := by
    intro id d
    subst hc
    show Dict.get? (applyW [] _) _ = _ ↔ _
    rw [chans_field (fun n => n.channels) rfl (fun _ _ => rfl) (fun _ => rfl) (fun _ => rfl) (fun _ => rfl) (fun _ => rfl),
      get?_applyW, List.mem_flatMap]
    intro K v w h1 h2
    rw [List.mem_flatMap] at h1 h2
    obtain ⟨a, ha, h1⟩ := h1
    obtain ⟨b, hb, h2⟩ := h2
    rw [channels_chanW] at h1 h2
    have := List.inj_on_of_nodup_map h.ids ha hb (h1.1.symm.trans h2.1)
    subst this
    rw [h1.2.2.1, h2.2.2.1]
  split
  · rename_i d hg
    rw [hm] at hg
    obtain ⟨a, ha, hg⟩ := hg
    rw [channels_chanW] at hg
    have := List.inj_on_of_nodup_map h.ids he ha hg.1
    subst this
    rw [hg.2.2.1]
    exact get?_entryD h he
  · rename_i hg
    intro k v hd
    by_contra hv
    have hk : e.2.2.kind ≠ .digital := by
      intro hk
      have := hd.2
      simp [hk] at this
    have hx := (hm (e.1, e.2.1, e.2.2.name) (applyW [] (e.2.2.entries.flatMap (entryD e.2.2.kind)))).mpr
      ⟨e, he, (channels_chanW ..).mpr ⟨rfl, hk, rfl, fun hall => hv
        (hall (k, v) (Dict.mem_of_get? ((get?_entryD h he k v).mpr hd)))⟩⟩
    rw [hg] at hx
    exact absurd hx (by simp)

theorem items_known [DecidableEq V] {old : Old V} {optical : Pc → Bool} {dflt : String → V} : ∀ {l : List (String × Item V)}
    {n m : New V}, convertItems old optical dflt l n = .ok m → ∀ e ∈ l, e.2 ≠ .unknown ∧
      ∀ opts, e.2 = .lo opts → ∀ x ∈ opts, x.1 ∈ ["instrument_type", "power", "frequency"]
  | [], _, _, _, e, he => absurd he (by simp)
  | e :: l, n, m, h, x, hx => by
    unfold convertItems at h
    split at h
    · exact absurd h (by simp)
    · rename_i n' hn
      rcases List.mem_cons.mp hx with rfl | hx
      · constructor
        · intro hu
          rw [hu] at hn
          simp [convertItem] at hn
        · intro opts ho
          rw [ho] at hn
          simp only [convertItem] at hn
          split at hn
          · exact absurd hn (by simp)
          · rename_i ha
            intro x hx
            by_contra hc
            exact ha (List.any_eq_true.mpr ⟨x, hx, by simpa using hc⟩)
      · exact items_known h x hx

/-- Instruments of unknown types, and unknown keys of local oscillators, are refused. -/
theorem known [DecidableEq V] {old : Old V} {optical : Pc → Bool} {dflt : String → V} {n : New V}
    (hc : convert old optical dflt = .ok n) : ∀ e ∈ old, e.2 ≠ .unknown ∧
      ∀ opts, e.2 = .lo opts → ∀ x ∈ opts, x.1 ∈ ["instrument_type", "power", "frequency"] := items_known hc

end Verif.OldConfig
