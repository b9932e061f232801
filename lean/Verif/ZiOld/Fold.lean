/-
The conversion of Zurich Instruments configurations as one write.
-/
import Verif.ZiOld.Spec
import Verif.OldConfig.Fold

namespace Verif.ZiOld

open Verif.OldConfig (applyW applyW_append mem_keys_applyW get?_applyW applyW_new addM addM_append mem_addM)

set_option linter.unusedSimpArgs false

variable {V : Type}

/-- What is written. -/
def New.add (n w : New V) : New V :=
  { los := applyW n.los w.los, devices := applyW n.devices w.devices, channels := applyW n.channels w.channels,
    mixers := addM n.mixers w.mixers, graph := n.graph ++ w.graph, options := applyW n.options w.options }

/-- One write after the other. -/
def New.cat (n w : New V) : New V :=
  { los := n.los ++ w.los, devices := n.devices ++ w.devices, channels := n.channels ++ w.channels,
    mixers := n.mixers ++ w.mixers, graph := n.graph ++ w.graph, options := n.options ++ w.options }

theorem add_add (n a b : New V) : (n.add a).add b = n.add (a.cat b) := by
  simp [New.add, New.cat, applyW_append, addM_append]

theorem add_empty (n : New V) : n.add {} = n := by
  simp [New.add, applyW, addM]

theorem cat_assoc (a b c : New V) : (a.cat b).cat c = a.cat (b.cat c) := by
  simp [New.cat]

/-- All writes of a list. -/
def catAll {A : Type} (f : A → New V) : List A → New V
  | [] => {}
  | a :: l => (f a).cat (catAll f l)

/-- The frequency of the local oscillator of a channel. -/
def loW (old : Old V) (c : Chan V) : List (Key × V) :=
  match c.lo with
  | none => []
  | some l => match loFreq old l with
    | .ok (some v) => [(("modulation_frequencies", c.pc, "lo_freq"), v)]
    | _ => []

/-- Mixer corrections. -/
def corrW (kind : Kind) (c : Chan V) : List (Key × V) :=
  c.corrections.map fun e => (("mixer_corrections", c.pc, if kind = .hdawg then e.1.toLower else e.1), e.2)

/-- A gain. -/
def gainW (truthy : V → Bool) (pc : Pc) (field : String) (g : Option V) : List (Key × V) :=
  match g with
  | none => []
  | some v => if truthy v then [(("output_gain", pc, field), v)] else []

/-- The intermediate frequency. -/
def modW (c : Chan V) : List (Key × V) :=
  match c.modulation with
  | some ⟨true, some v⟩ => [(("modulation_frequencies", c.pc, "interm_freq"), v)]
  | _ => []

/-- The options of a channel. -/
def optsW (old : Old V) (truthy : V → Bool) (kind : Kind) (c : Chan V) : List (Key × V) :=
  loW old c ++ (corrW kind c ++ (gainW truthy c.pc "gain_I" c.gain1 ++ (gainW truthy c.pc "gain_Q" c.gain2 ++ modW c)))

/-- The edges of a channel. -/
def edgesW (dev : String) (i : Nat) (c : Chan V) : List (Node × Node) :=
  match c.lo with
  | none => [(.chan dev i, .port c.pc.1)]
  | some l => [(.chan dev i, .mixer dev i .if), (.lo l, .mixer dev i .lo), (.mixer dev i .rf, .port c.pc.1)]

/-- What a channel writes. -/
def chanW (old : Old V) (truthy : V → Bool) (kind : Kind) (dev : String) (i : Nat) (c : Chan V) : New V :=
  { channels := match c.mode with
      | some m => [((dev, i), ⟨m, c.markers, c.trigger⟩)]
      | none => [],
    mixers := if c.lo.isSome then [(dev, i)] else [], graph := edgesW dev i c, options := optsW old truthy kind c }

/-- What is needed of a channel. -/
structure Good (old : Old V) (c : Chan V) : Prop where
  mode : c.mode ≠ none
  interm : c.modulation ≠ some ⟨true, none⟩
  exist : ∀ l, c.lo = some l → ∃ f, loFreq old l = .ok f
  corr : (c.corrections.map Prod.fst).Nodup ∧ (c.corrections.map fun e => e.1.toLower).Nodup

theorem setWhole_eq {o : List (Key × V)} {cat : String} {p : Pc} {opts : List (String × V)}
    (h : ∀ k, (cat, p, k) ∉ Dict.keys o) (hn : (opts.map Prod.fst).Nodup) :
    setWhole o cat p opts = applyW o (opts.map fun e => ((cat, p, e.1), e.2)) := by
  rw [applyW_new]
  · unfold setWhole
    congr 1
    rw [List.filter_eq_self]
    rintro ⟨⟨a, b, c⟩, v⟩ he
    simp only [Bool.not_eq_true', Bool.and_eq_false_iff, beq_eq_false_iff_ne]
    by_cases h1 : a = cat
    · right
      rintro rfl
      subst h1
      exact h c (List.mem_map_of_mem (f := Prod.fst) he)
    · exact .inl h1
  · intro e he
    rw [List.mem_map] at he
    obtain ⟨x, _, rfl⟩ := he
    exact h _
  · rw [List.map_map]
    rw [List.nodup_map_iff_inj_on]
    · intro x hx y hy hxy
      simp only [Function.comp, Prod.mk.injEq, true_and] at hxy
      exact List.inj_on_of_nodup_map hn hx hy hxy
    · exact List.Nodup.of_map _ hn

theorem convertCorrections_eq {kind : Kind} {c : Chan V} {o : List (Key × V)}
    (hn : (c.corrections.map Prod.fst).Nodup ∧ (c.corrections.map fun e => e.1.toLower).Nodup)
    (h : ∀ k, ("mixer_corrections", c.pc, k) ∉ Dict.keys o) :
    convertCorrections kind c o = applyW o (corrW kind c) := by
  unfold convertCorrections corrW
  by_cases he : c.corrections.isEmpty
  · rw [if_pos he]
    rw [List.isEmpty_iff] at he
    simp [he, applyW]
  · rw [if_neg he]
    by_cases hk : kind = .hdawg
    · have h1 : c.corrections.foldl (fun d e => Dict.set d e.1.toLower e.2) [] =
          c.corrections.map fun e => (e.1.toLower, e.2) := by
        have := applyW_new (W := c.corrections.map fun e => (e.1.toLower, e.2)) (o := []) (by simp [Dict.keys])
          (by simpa [List.map_map, Function.comp_def] using hn.2)
        simpa [applyW, List.foldl_map] using this
      simp only [if_pos hk, h1]
      rw [setWhole_eq h (by simpa [List.map_map, Function.comp_def] using hn.2)]
      simp [List.map_map, Function.comp_def]
    · simp only [if_neg hk]
      rw [setWhole_eq h hn.1]

theorem convertGain_eq (truthy : V → Bool) (pc : Pc) (field : String) (g : Option V) (o : List (Key × V)) :
    convertGain truthy pc field g o = applyW o (gainW truthy pc field g) := by
  unfold convertGain gainW
  cases g with
  | none => rfl
  | some v => simp only; split <;> rfl

theorem convertModulation_eq {c : Chan V} (h : c.modulation ≠ some ⟨true, none⟩) (o : List (Key × V)) :
    convertModulation c o = .ok (applyW o (modW c)) := by
  unfold convertModulation modW
  cases hm : c.modulation with
  | none => rfl
  | some m =>
    obtain ⟨p, i⟩ := m
    cases p with
    | false => rfl
    | true =>
      cases i with
      | none => exact absurd hm h
      | some v => rfl

/-- One channel. -/
theorem convertChan_eq {old : Old V} {truthy : V → Bool} {kind : Kind} {dev : String} {i : Nat} {c : Chan V} (hg : Good old c)
    {n : New V} (h : ∀ k, ("mixer_corrections", c.pc, k) ∉ Dict.keys n.options) :
    convertChan old truthy kind dev i c n = .ok (n.add (chanW old truthy kind dev i c)) := by
  obtain ⟨m, hm⟩ := Option.ne_none_iff_exists'.mp hg.mode
  unfold convertChan
  simp only [hm]
  have hc : ∀ o, (∀ k, ("mixer_corrections", c.pc, k) ∉ Dict.keys o) →
      convertModulation c (convertGain truthy c.pc "gain_Q" c.gain2 (convertGain truthy c.pc "gain_I" c.gain1
        (convertCorrections kind c o))) = .ok (applyW o (corrW kind c ++ (gainW truthy c.pc "gain_I" c.gain1 ++
          (gainW truthy c.pc "gain_Q" c.gain2 ++ modW c)))) := by
    intro o ho
    rw [convertCorrections_eq hg.corr ho, convertGain_eq, convertGain_eq, convertModulation_eq hg.interm]
    simp only [applyW_append]
  unfold convertChanLo
  cases hl : c.lo with
  | none =>
    simp only [hc n.options h]
    simp [New.add, chanW, hm, hl, optsW, loW, edgesW, applyW, addM]
  | some l =>
    obtain ⟨f, hf⟩ := hg.exist l hl
    cases f with
    | none =>
      simp only [hf, hc n.options h]
      simp [New.add, chanW, hm, hl, optsW, loW, edgesW, applyW, addM, hf]
    | some v =>
      have h2 : ∀ k, ("mixer_corrections", c.pc, k) ∉
          Dict.keys (Dict.set n.options ("modulation_frequencies", c.pc, "lo_freq") v) := by
        intro k hk
        rw [Dict.mem_keys_set] at hk
        rcases hk with hk | hk
        · simp at hk
        · exact h k hk
      simp only [hf, hc _ h2]
      simp [New.add, chanW, hm, hl, optsW, loW, edgesW, applyW, addM, hf]

/-- What a channel writes is for its port-clock. -/
theorem optsW_pc {old : Old V} {truthy : V → Bool} {kind : Kind} {c : Chan V} {K : Key}
    (h : K ∈ (optsW old truthy kind c).map Prod.fst) : K.2.1 = c.pc := by
  simp only [optsW, List.map_append, List.mem_append] at h
  rcases h with h | h | h | h | h
  · unfold loW at h
    split at h
    · simp at h
    · split at h
      · simp at h; rw [h]
      · simp at h
  · simp only [corrW, List.map_map, List.mem_map, Function.comp] at h
    obtain ⟨_, _, rfl⟩ := h
    rfl
  · unfold gainW at h
    split at h
    · simp at h
    · split at h
      · simp at h; rw [h]
      · simp at h
  · unfold gainW at h
    split at h
    · simp at h
    · split at h
      · simp at h; rw [h]
      · simp at h
  · unfold modW at h
    split at h
    · simp at h; rw [h]
    · simp at h

/-- Options are for some port-clocks. -/
def Within (o : List (Key × V)) (P : Pc → Prop) : Prop := ∀ K ∈ Dict.keys o, P K.2.1

/-- What a number writes. -/
def idxW (old : Old V) (truthy : V → Bool) (kind : Kind) (dev : String) (channels : List (Nat × Chan V)) (i : Nat) : New V :=
  match Dict.get? channels i with
  | none => {}
  | some c => chanW old truthy kind dev i c

/-- The channels of a device. -/
theorem convertChans_eq {old : Old V} {truthy : V → Bool} {kind : Kind} {dev : String} {channels : List (Nat × Chan V)} :
    ∀ (l : List Nat) (n : New V) (P : Pc → Prop), (∀ i ∈ l, ∀ c, Dict.get? channels i = some c → Good old c ∧ ¬ P c.pc) →
    l.Pairwise (fun i j => ∀ c b, Dict.get? channels i = some c → Dict.get? channels j = some b → c.pc ≠ b.pc) →
    Within n.options P →
    convertChans old truthy kind dev channels l n = .ok (n.add (catAll (idxW old truthy kind dev channels) l)) ∧
      Within (n.add (catAll (idxW old truthy kind dev channels) l)).options
        (fun p => P p ∨ ∃ i ∈ l, ∃ c, Dict.get? channels i = some c ∧ c.pc = p)
  | [], n, P, _, _, h => by
    simp only [convertChans, catAll, add_empty]
    exact ⟨trivial, fun K hK => .inl (h K hK)⟩
  | i :: l, n, P, hg, hp, h => by
    rw [List.pairwise_cons] at hp
    unfold convertChans
    cases hi : Dict.get? channels i with
    | none =>
      obtain ⟨h1, h2⟩ := convertChans_eq l n P (fun j hj => hg j (by simp [hj])) hp.2 h
      have : catAll (idxW old truthy kind dev channels) (i :: l) = catAll (idxW old truthy kind dev channels) l := by
        simp [catAll, idxW, hi, New.cat]
      rw [this]
      refine ⟨h1, fun K hK => ?_⟩
      rcases h2 K hK with h3 | ⟨j, hj, h3⟩
      · exact .inl h3
      · exact .inr ⟨j, by simp [hj], h3⟩
    | some c =>
      obtain ⟨hgc, hnc⟩ := hg i (by simp) c hi
      have hc := convertChan_eq (truthy := truthy) (kind := kind) (dev := dev) (i := i) hgc (n := n)
        (fun k hk => hnc (h _ hk))
      have hW : Within (n.add (chanW old truthy kind dev i c)).options (fun p => P p ∨ p = c.pc) := by
        intro K hK
        simp only [New.add, chanW, mem_keys_applyW] at hK
        rcases hK with hK | hK
        · exact .inl (h K hK)
        · exact .inr (optsW_pc hK)
      obtain ⟨h1, h2⟩ := convertChans_eq l (n.add (chanW old truthy kind dev i c)) _ (fun j hj b hb => by
        refine ⟨(hg j (by simp [hj]) b hb).1, ?_⟩
        rintro (h3 | h3)
        · exact (hg j (by simp [hj]) b hb).2 h3
        · exact hp.1 j hj c b hi hb h3.symm) hp.2 hW
      have : (n.add (chanW old truthy kind dev i c)).add (catAll (idxW old truthy kind dev channels) l) =
          n.add (catAll (idxW old truthy kind dev channels) (i :: l)) := by
        rw [add_add]; simp [catAll, idxW, hi]
      rw [this] at h1 h2
      simp only [hc, h1]
      refine ⟨trivial, fun K hK => ?_⟩
      rcases h2 K hK with (h3 | h3) | ⟨j, hj, h3⟩
      · exact .inl h3
      · exact .inr ⟨i, by simp, c, hi, h3.symm⟩
      · exact .inr ⟨j, by simp [hj], h3⟩

theorem pick_ok {opts : List (String × V)} : ∀ {l : List String}, (∀ k ∈ l, k ∈ opts.map Prod.fst) →
    pick opts l = .ok (l.filterMap fun k => (Dict.get? opts k).map fun v => (k, v))
  | [], _ => rfl
  | k :: l, h => by
    have hk := h k (by simp)
    rw [show opts.map Prod.fst = Dict.keys opts from rfl, ← Dict.get?_isSome_iff, Option.isSome_iff_exists] at hk
    obtain ⟨v, hv⟩ := hk
    have ih := pick_ok (opts := opts) (l := l) (fun x hx => h x (List.mem_cons_of_mem _ hx))
    unfold pick
    simp [hv, ih]

/-- What a device writes. -/
def deviceW (old : Old V) (truthy : V → Bool) (d : Device V) : New V :=
  New.cat { devices := [(d.name, (header d.kind).filterMap fun k => (Dict.get? d.opts k).map fun v => (k, v))] }
    (catAll (idxW old truthy d.kind d.name d.channels) (indices d.kind))

/-- The port-clocks of a device. -/
def devPcs (d : Device V) (p : Pc) : Prop := ∃ i ∈ indices d.kind, ∃ c, Dict.get? d.channels i = some c ∧ c.pc = p

theorem convertDevices_eq {old : Old V} {truthy : V → Bool} : ∀ (l : List (Device V)) (n : New V) (P : Pc → Prop),
    (∀ d ∈ l, d.kind ≠ .other ∧ (∀ k ∈ header d.kind, k ∈ d.opts.map Prod.fst) ∧
      (∀ i ∈ indices d.kind, ∀ c, Dict.get? d.channels i = some c → Good old c ∧ ¬ P c.pc) ∧
      (indices d.kind).Pairwise (fun i j => ∀ c b, Dict.get? d.channels i = some c → Dict.get? d.channels j = some b →
        c.pc ≠ b.pc)) →
    l.Pairwise (fun d e => ∀ p, devPcs d p → ¬ devPcs e p) →
    Within n.options P →
    convertDevices old truthy l n = .ok (n.add (catAll (deviceW old truthy) l))
  | [], n, P, _, _, _ => by simp [convertDevices, catAll, add_empty]
  | d :: l, n, P, hg, hp, h => by
    rw [List.pairwise_cons] at hp
    obtain ⟨h1, h2, h3, h4⟩ := hg d (by simp)
    obtain ⟨h5, h6⟩ := convertChans_eq (old := old) (truthy := truthy) (kind := d.kind) (dev := d.name)
      (channels := d.channels) (indices d.kind) (n.add { devices := [(d.name, (header d.kind).filterMap fun k =>
        (Dict.get? d.opts k).map fun v => (k, v))] }) P h3 h4 (by simpa [New.add, applyW] using h)
    have hn : ∀ x, ({ n with devices := Dict.set n.devices d.name x } : New V) = n.add { devices := [(d.name, x)] } := by
      intro x; simp [New.add, applyW, addM]
    unfold convertDevices
    simp only [if_neg h1, pick_ok h2, hn, h5]
    rw [add_add] at h6
    rw [add_add]
    rw [convertDevices_eq l _ _ _ hp.2 h6]
    · rw [add_add]; rfl
    · intro e he
      obtain ⟨h7, h8, h9, h10⟩ := hg e (by simp [he])
      refine ⟨h7, h8, fun i hi c hc => ⟨(h9 i hi c hc).1, ?_⟩, h10⟩
      rintro (h11 | h11)
      · exact (h9 i hi c hc).2 h11
      · exact hp.1 e he _ h11 ⟨i, hi, c, hc, rfl⟩

end Verif.ZiOld
