/-
C86: Zurich Instruments hardware configurations in the old style are converted as they are meant.
-/
import Verif.ZiOld.Fold

namespace Verif.ZiOld

open Verif.OldConfig (applyW applyW_append mem_keys_applyW get?_applyW applyW_new addM addM_append mem_addM)

set_option linter.unusedSimpArgs false

variable {V : Type}

theorem mem_indices {k : Kind} {i : Nat} : i ∈ indices k ↔ (k = .hdawg ∧ i < 4) ∨ (k = .uhfqa ∧ i = 0) := by
  cases k with
  | hdawg => simp [indices]; omega
  | uhfqa => simp [indices]
  | other => simp [indices]

theorem has_iff {old : Old V} (h : WellFormed old) {d : Device V} {i : Nat} {c : Chan V} :
    Has old d i c ↔ d ∈ old.devices ∧ i ∈ indices d.kind ∧ Dict.get? d.channels i = some c := by
  unfold Has
  rw [mem_indices]
  constructor
  · rintro ⟨h1, h2, h3⟩; exact ⟨h1, h3, Dict.get?_of_mem (h.chans d h1) h2⟩
  · rintro ⟨h1, h3, h2⟩; exact ⟨h1, Dict.mem_of_get? h2, h3⟩

theorem find_lo {los : List (Lo V)} (h : (los.map Lo.name).Nodup) {l : Lo V} (hl : l ∈ los) :
    los.find? (fun x => x.name == l.name) = some l := by
  cases hf : los.find? (fun x => x.name == l.name) with
  | none =>
    rw [List.find?_eq_none] at hf
    exact absurd (hf l hl) (by simp)
  | some m =>
    have h1 := List.find?_some hf
    have h2 := List.mem_of_find?_eq_some hf
    rw [List.inj_on_of_nodup_map h h2 hl (by simpa using h1)]

theorem loFreq_ok {old : Old V} (h : WellFormed old) {l : String} (he : ∃ o ∈ old.los.getD [], o.name = l) :
    ∃ f, loFreq old l = .ok f := by
  obtain ⟨o, ho, rfl⟩ := he
  unfold loFreq
  cases hl : old.los with
  | none => rw [hl] at ho; simp at ho
  | some los =>
    have hn := h.los
    have hf := h.freq o ho
    rw [hl] at ho hn
    simp only [Option.getD_some] at ho hn
    simp only
    rw [find_lo hn ho]
    cases hff : o.frequency with
    | none => exact ⟨none, by simp [hff]⟩
    | some f =>
      obtain ⟨e, rfl⟩ := hf f hff
      exact ⟨some e.2, by simp [hff]⟩

theorem loFreq_iff {old : Old V} (h : WellFormed old) {l : String} {v : V} :
    loFreq old l = .ok (some v) ↔ Frequency old l v := by
  unfold loFreq Frequency
  have hn := h.los
  have hq := h.freq
  cases hl : old.los with
  | none => simp
  | some los =>
    rw [hl] at hn hq
    simp only [Option.getD_some] at hn hq
    constructor
    · intro hf
      simp only at hf
      split at hf
      · exact absurd hf (by simp)
      · rename_i o ho
        split at hf
        · exact absurd hf (by simp)
        · exact absurd hf (by simp)
        · rename_i e t hfe
          simp only [Except.ok.injEq, Option.some.injEq] at hf
          obtain ⟨e', he'⟩ := hq o (List.mem_of_find?_eq_some ho) _ hfe
          simp only [List.cons.injEq] at he'
          obtain ⟨rfl, rfl⟩ := he'
          exact ⟨los, o, e.1, rfl, List.mem_of_find?_eq_some ho, by simpa using List.find?_some ho, by
            rw [hfe, ← hf]⟩
    · rintro ⟨los', o, k, h1, h2, rfl, h3⟩
      simp only [Option.some.injEq] at h1
      subst h1
      simp [find_lo hn h2, h3]

theorem good {old : Old V} (h : WellFormed old) {d : Device V} {i : Nat} {c : Chan V} (hh : Has old d i c) : Good old c :=
  ⟨h.mode d i c hh, h.interm d i c hh, fun l hl => loFreq_ok h (h.exist d i c hh l hl), h.corr d i c hh⟩

theorem convert_eq {old : Old V} (h : WellFormed old) (truthy : V → Bool) : convert old truthy =
    .ok (New.add { los := (old.los.getD []).foldl convertLo [] } (catAll (deviceW old truthy) old.devices)) := by
  unfold convert
  refine convertDevices_eq old.devices _ (fun _ => False) ?_ ?_ ?_
  · intro d hd
    refine ⟨h.kinds d hd, ?_, ?_, ?_⟩
    · intro k hk
      have hm : ∀ k, (∃ v, (k, v) ∈ d.opts) → k ∈ d.opts.map Prod.fst := by
        rintro k ⟨v, hv⟩; exact List.mem_map_of_mem (f := Prod.fst) hv
      have hr := hm _ (h.ref d hd)
      cases hk' : d.kind <;> rw [hk'] at hk <;> simp [header] at hk
      · rcases hk with rfl | rfl | rfl
        · exact hr
        · exact hm _ (h.grouping d hd hk').1
        · exact hm _ (h.grouping d hd hk').2
      · subst hk; exact hr
    · intro i hi c hc
      exact ⟨good h ((has_iff h).mpr ⟨hd, hi, hc⟩), id⟩
    · have hn : (indices d.kind).Pairwise (· ≠ ·) := by cases d.kind <;> decide
      refine hn.imp_of_mem ?_
      intro i j hi hj hij c b hc hb hcb
      exact hij (h.pcs d i c d j b ((has_iff h).mpr ⟨hd, hi, hc⟩) ((has_iff h).mpr ⟨hd, hj, hb⟩) hcb).2
  · have hn : old.devices.Pairwise (· ≠ ·) := List.Nodup.of_map _ h.names
    refine hn.imp_of_mem ?_
    rintro d e hd he hde p ⟨i, hi, c, hc, rfl⟩ ⟨j, hj, b, hb, hcb⟩
    exact hde (h.pcs d i c e j b ((has_iff h).mpr ⟨hd, hi, hc⟩) ((has_iff h).mpr ⟨he, hj, hb⟩) hcb.symm).1
  · intro K hK
    simp [Dict.keys] at hK

theorem mem_catAll {A B : Type} (g : New V → List B) (h0 : g {} = []) (h : ∀ a b, g (a.cat b) = g a ++ g b) (f : A → New V)
    {x : B} : ∀ {l : List A}, x ∈ g (catAll f l) ↔ ∃ a ∈ l, x ∈ g (f a)
  | [] => by simp [catAll, h0]
  | a :: l => by simp [catAll, h, mem_catAll g h0 h f]

/-- A field that only channels write. -/
theorem chans_field {B : Type} (g : New V → List B) (h0 : g {} = []) (h : ∀ a b, g (a.cat b) = g a ++ g b)
    (h1 : ∀ x, g { devices := x } = []) {old : Old V} (hw : WellFormed old) {truthy : V → Bool} {x : B} :
    x ∈ g (catAll (deviceW old truthy) old.devices) ↔
      ∃ d i c, Has old d i c ∧ x ∈ g (chanW old truthy d.kind d.name i c) := by
  rw [mem_catAll g h0 h]
  constructor
  · rintro ⟨d, hd, hx⟩
    rw [deviceW, h, h1, List.nil_append, mem_catAll g h0 h] at hx
    obtain ⟨i, hi, hx⟩ := hx
    unfold idxW at hx
    cases hc : Dict.get? d.channels i with
    | none => rw [hc] at hx; simp [h0] at hx
    | some c =>
      rw [hc] at hx
      exact ⟨d, i, c, (has_iff hw).mpr ⟨hd, hi, hc⟩, hx⟩
  · rintro ⟨d, i, c, hh, hx⟩
    obtain ⟨hd, hi, hc⟩ := (has_iff hw).mp hh
    refine ⟨d, hd, ?_⟩
    rw [deviceW, h, h1, List.nil_append, mem_catAll g h0 h]
    exact ⟨i, hi, by unfold idxW; rw [hc]; exact hx⟩

/-- What a channel writes is what it wants. -/
theorem mem_optsW {old : Old V} (h : WellFormed old) {truthy : V → Bool} {kind : Kind} {c : Chan V} {cat field : String}
    {pc : Pc} {v : V} : ((cat, pc, field), v) ∈ optsW old truthy kind c ↔ c.pc = pc ∧ WantsIn old truthy kind c cat field v := by
  have e1 : ((cat, pc, field), v) ∈ loW old c ↔ c.pc = pc ∧
      ∃ l, c.lo = some l ∧ Frequency old l v ∧ cat = "modulation_frequencies" ∧ field = "lo_freq" := by
    unfold loW
    cases c.lo with
    | none => simp
    | some l =>
      simp only [Option.some.injEq, exists_eq_left', ← loFreq_iff h]
      cases loFreq old l with
      | error e => simp
      | ok f =>
        cases f with
        | none => simp
        | some w =>
          simp only [List.mem_singleton, Prod.mk.injEq, Except.ok.injEq, Option.some.injEq]
          constructor
          · rintro ⟨⟨rfl, rfl, rfl⟩, rfl⟩; exact ⟨rfl, rfl, rfl, rfl⟩
          · rintro ⟨rfl, rfl, rfl, rfl⟩; exact ⟨⟨rfl, rfl, rfl⟩, rfl⟩
  have e2 : ((cat, pc, field), v) ∈ corrW kind c ↔ c.pc = pc ∧ ∃ k, (k, v) ∈ c.corrections ∧ cat = "mixer_corrections" ∧
      ((kind = .hdawg ∧ field = k.toLower) ∨ (kind ≠ .hdawg ∧ field = k)) := by
    unfold corrW
    simp only [List.mem_map, Prod.mk.injEq]
    constructor
    · rintro ⟨⟨k, w⟩, hm, ⟨rfl, rfl, rfl⟩, rfl⟩
      refine ⟨rfl, k, hm, rfl, ?_⟩
      by_cases hk : kind = .hdawg
      · exact .inl ⟨hk, by simp [hk]⟩
      · exact .inr ⟨hk, by simp [hk]⟩
    · rintro ⟨rfl, k, hm, rfl, ⟨hk, rfl⟩ | ⟨hk, rfl⟩⟩
      · exact ⟨_, hm, ⟨rfl, rfl, by simp [hk]⟩, rfl⟩
      · exact ⟨_, hm, ⟨rfl, rfl, by simp [hk]⟩, rfl⟩
  have e3 : ∀ f g, ((cat, pc, field), v) ∈ gainW truthy c.pc f g ↔ c.pc = pc ∧ g = some v ∧ truthy v = true ∧
      cat = "output_gain" ∧ field = f := by
    intro f g
    unfold gainW
    cases g with
    | none => simp
    | some w =>
      simp only [Option.some.injEq]
      by_cases ht : truthy w = true
      · rw [if_pos ht]
        simp only [List.mem_singleton, Prod.mk.injEq]
        constructor
        · rintro ⟨⟨rfl, rfl, rfl⟩, rfl⟩; exact ⟨rfl, rfl, ht, rfl, rfl⟩
        · rintro ⟨rfl, rfl, _, rfl, rfl⟩; exact ⟨⟨rfl, rfl, rfl⟩, rfl⟩
      · rw [if_neg ht]
        constructor
        · intro hx; exact absurd hx (by simp)
        · rintro ⟨_, rfl, h1, _⟩; exact absurd h1 ht
  have e4 : ((cat, pc, field), v) ∈ modW c ↔ c.pc = pc ∧ c.modulation = some ⟨true, some v⟩ ∧
      cat = "modulation_frequencies" ∧ field = "interm_freq" := by
    unfold modW
    split
    · rename_i w hm
      rw [hm]
      simp only [List.mem_singleton, Prod.mk.injEq, Option.some.injEq, Modu.mk.injEq, true_and]
      constructor
      · rintro ⟨⟨rfl, rfl, rfl⟩, rfl⟩; exact ⟨rfl, rfl, rfl, rfl⟩
      · rintro ⟨rfl, rfl, rfl, rfl⟩; exact ⟨⟨rfl, rfl, rfl⟩, rfl⟩
    · rename_i hm
      constructor
      · intro hx; exact absurd hx (by simp)
      · rintro ⟨_, h1, _⟩; exact absurd h1 (hm v)
  unfold optsW WantsIn
  simp only [List.mem_append, e1, e2, e3, e4]
  constructor
  · rintro (⟨h1, h2⟩ | ⟨h1, h2⟩ | ⟨h1, h2⟩ | ⟨h1, h2⟩ | ⟨h1, h2⟩)
    · exact ⟨h1, .inl h2⟩
    · exact ⟨h1, .inr (.inl h2)⟩
    · exact ⟨h1, .inr (.inr (.inl h2))⟩
    · exact ⟨h1, .inr (.inr (.inr (.inl h2)))⟩
    · exact ⟨h1, .inr (.inr (.inr (.inr h2)))⟩
  · rintro ⟨h1, h2 | h2 | h2 | h2 | h2⟩
    · exact .inl ⟨h1, h2⟩
    · exact .inr (.inl ⟨h1, h2⟩)
    · exact .inr (.inr (.inl ⟨h1, h2⟩))
    · exact .inr (.inr (.inr (.inl ⟨h1, h2⟩)))
    · exact .inr (.inr (.inr (.inr ⟨h1, h2⟩)))

/-- A channel wants nothing in two ways. -/
theorem wantsIn_unique {old : Old V} (h : WellFormed old) {truthy : V → Bool} {kind : Kind} {c : Chan V}
    (hc : (c.corrections.map Prod.fst).Nodup ∧ (c.corrections.map fun e => e.1.toLower).Nodup) {cat field : String} {v w : V}
    (hv : WantsIn old truthy kind c cat field v) (hw : WantsIn old truthy kind c cat field w) : v = w := by
  rcases hv with ⟨l, a1, a2, a3, a4⟩ | ⟨k, a1, a2, a3⟩ | ⟨a1, _, a2, a3⟩ | ⟨a1, _, a2, a3⟩ | ⟨a1, a2, a3⟩ <;>
  rcases hw with ⟨m, b1, b2, b3, b4⟩ | ⟨j, b1, b2, b3⟩ | ⟨b1, _, b2, b3⟩ | ⟨b1, _, b2, b3⟩ | ⟨b1, b2, b3⟩
  · rw [a1] at b1
    obtain rfl := Option.some.inj b1
    rw [← loFreq_iff h] at a2 b2
    rw [a2] at b2
    simpa using b2
  all_goals first
    | (subst_vars; simp at b2; done)
    | (subst_vars; simp at b3; done)
    | (subst_vars; simp at b4; done)
    | (rw [a1] at b1; simpa using b1)
    | skip
  · rcases a3 with ⟨hk, rfl⟩ | ⟨hk, rfl⟩ <;> rcases b3 with ⟨hk', b3⟩ | ⟨hk', b3⟩
    · have := List.inj_on_of_nodup_map hc.2 a1 b1 b3
      simpa using (Prod.mk.inj this).2
    · exact absurd hk hk'
    · exact absurd hk' hk
    · have := List.inj_on_of_nodup_map hc.1 a1 b1 b3
      simpa using (Prod.mk.inj this).2

/-- Well-formed configurations are converted. -/
theorem convert_ok_partial {old : Old V} (h : WellFormed old) (truthy : V → Bool) : ∃ n, convert old truthy = .ok n :=
  ⟨_, convert_eq h truthy⟩

/-- The hardware options are what the channels want. -/
theorem options_partial {old : Old V} (h : WellFormed old) {truthy : V → Bool} {n : New V}
    (hc : convert old truthy = .ok n) (pc : Pc) (cat field : String) (v : V) :
    Dict.get? n.options (cat, pc, field) = some v ↔ Wants old truthy pc cat field v := by
  rw [convert_eq h] at hc
  simp only [Except.ok.injEq] at hc
  subst hc
  have hm : ∀ pc cat field v, ((cat, pc, field), v) ∈ (catAll (deviceW old truthy) old.devices).options ↔
      Wants old truthy pc cat field v := by
    intro pc cat field v
    rw [chans_field (fun n => n.options) rfl (fun _ _ => rfl) (fun _ => rfl) h]
    simp only [chanW, mem_optsW h, Wants]
  show Dict.get? (applyW [] _) _ = _ ↔ _
  rw [get?_applyW, hm]
  rintro ⟨c, p, f⟩ v w h1 h2
  obtain ⟨d, i, b, hh, hp, h1⟩ := (hm ..).mp h1
  obtain ⟨d', i', b', hh', hp', h2⟩ := (hm ..).mp h2
  obtain ⟨rfl, rfl⟩ := h.pcs d i b d' i' b' hh hh' (hp.trans hp'.symm)
  have := ((has_iff h).mp hh).2.2
  rw [((has_iff h).mp hh').2.2] at this
  obtain rfl := Option.some.inj this
  exact wantsIn_unique h (h.corr _ _ _ hh) h1 h2

/-- Ports are connected to channels, or to mixers. -/
theorem graph_partial {old : Old V} (h : WellFormed old) {truthy : V → Bool} {n : New V} (hc : convert old truthy = .ok n)
    (x : Node × Node) : x ∈ n.graph ↔ Edge old x := by
  rw [convert_eq h] at hc
  simp only [Except.ok.injEq] at hc
  subst hc
  show x ∈ [] ++ (catAll (deviceW old truthy) old.devices).graph ↔ _
  rw [List.nil_append, chans_field (fun n => n.graph) rfl (fun _ _ => rfl) (fun _ => rfl) h]
  simp only [chanW, Edge]
  constructor
  · rintro ⟨d, i, c, hh, hx⟩
    refine ⟨d, i, c, hh, ?_⟩
    unfold edgesW at hx
    cases hl : c.lo with
    | none => rw [hl] at hx; exact .inl ⟨rfl, by simpa using hx⟩
    | some l => rw [hl] at hx; exact .inr ⟨l, rfl, by simpa using hx⟩
  · rintro ⟨d, i, c, hh, hx⟩
    refine ⟨d, i, c, hh, ?_⟩
    unfold edgesW
    rcases hx with ⟨hl, hx⟩ | ⟨l, hl, hx⟩
    · rw [hl]; simpa using hx
    · rw [hl]; simpa using hx

/-- A channel with a local oscillator has a mixer. -/
theorem mixers_partial {old : Old V} (h : WellFormed old) {truthy : V → Bool} {n : New V} (hc : convert old truthy = .ok n)
    (dev : String) (i : Nat) : (dev, i) ∈ n.mixers ↔ ∃ d c l, Has old d i c ∧ d.name = dev ∧ c.lo = some l := by
  rw [convert_eq h] at hc
  simp only [Except.ok.injEq] at hc
  subst hc
  show (dev, i) ∈ addM [] (catAll (deviceW old truthy) old.devices).mixers ↔ _
  rw [mem_addM, chans_field (fun n => n.mixers) rfl (fun _ _ => rfl) (fun _ => rfl) h]
  simp only [chanW, List.not_mem_nil, false_or]
  constructor
  · rintro ⟨d, j, c, hh, hx⟩
    cases hl : c.lo with
    | none => rw [hl] at hx; simp at hx
    | some l =>
      rw [hl] at hx
      simp at hx
      obtain ⟨rfl, rfl⟩ := hx
      exact ⟨d, c, l, hh, rfl, hl⟩
  · rintro ⟨d, c, l, hh, rfl, hl⟩
    exact ⟨d, i, c, hh, by simp [hl]⟩

/-- The channels that are described are those that there are, with their mode, markers and trigger. -/
theorem channels_partial {old : Old V} (h : WellFormed old) {truthy : V → Bool} {n : New V} (hc : convert old truthy = .ok n)
    (dev : String) (i : Nat) (x : Desc V) : Dict.get? n.channels (dev, i) = some x ↔
      ∃ d c, Has old d i c ∧ d.name = dev ∧ c.mode = some x.mode ∧ c.markers = x.markers ∧ c.trigger = x.trigger := by
  rw [convert_eq h] at hc
  simp only [Except.ok.injEq] at hc
  subst hc
  have hm : ∀ dev i x, ((dev, i), x) ∈ (catAll (deviceW old truthy) old.devices).channels ↔
      ∃ d c, Has old d i c ∧ d.name = dev ∧ c.mode = some x.mode ∧ c.markers = x.markers ∧ c.trigger = x.trigger := by
    intro dev i x
    rw [chans_field (fun n => n.channels) rfl (fun _ _ => rfl) (fun _ => rfl) h]
    simp only [chanW]
    constructor
    · rintro ⟨d, j, c, hh, hx⟩
      cases hl : c.mode with
      | none => rw [hl] at hx; simp at hx
      | some m =>
        rw [hl] at hx
        simp at hx
        obtain ⟨⟨rfl, rfl⟩, rfl⟩ := hx
        exact ⟨d, c, hh, rfl, hl, rfl, rfl⟩
    · rintro ⟨d, c, hh, rfl, h1, h2, h3⟩
      refine ⟨d, i, c, hh, ?_⟩
      rw [h1]
      simp [h2, h3]
  show Dict.get? (applyW [] _) _ = _ ↔ _
  rw [get?_applyW, hm]
  rintro ⟨dev, i⟩ v w h1 h2
  obtain ⟨d, c, hh, rfl, a1, a2, a3⟩ := (hm ..).mp h1
  obtain ⟨e, b, hh', hn, b1, b2, b3⟩ := (hm ..).mp h2
  have := List.inj_on_of_nodup_map h.names ((has_iff h).mp hh').1 ((has_iff h).mp hh).1 hn
  subst this
  have := ((has_iff h).mp hh).2.2
  rw [((has_iff h).mp hh').2.2] at this
  obtain rfl := Option.some.inj this
  obtain ⟨v1, v2, v3⟩ := v
  obtain ⟨w1, w2, w3⟩ := w
  simp only at a1 a2 a3 b1 b2 b3
  rw [a1] at b1
  simp only [Desc.mk.injEq]
  exact ⟨Option.some.inj b1, a2.symm.trans b2, a3.symm.trans b3⟩

/-- Devices keep their reference, HDAWGs also grouping and clock. -/
theorem devices_partial {old : Old V} (h : WellFormed old) {truthy : V → Bool} {n : New V} (hc : convert old truthy = .ok n)
    {d : Device V} (hd : d ∈ old.devices) : ∃ x, Dict.get? n.devices d.name = some x ∧ ∀ k v, (k, v) ∈ x ↔ (k, v) ∈ d.opts ∧
      (k = "ref" ∨ d.kind = .hdawg ∧ (k = "channelgrouping" ∨ k = "clock_select")) := by
  rw [convert_eq h] at hc
  simp only [Except.ok.injEq] at hc
  subst hc
  refine ⟨(header d.kind).filterMap fun k => (Dict.get? d.opts k).map fun v => (k, v), ?_, ?_⟩
  · have hm : ∀ name x, (name, x) ∈ (catAll (deviceW old truthy) old.devices).devices ↔ ∃ d ∈ old.devices, name = d.name ∧
        x = (header d.kind).filterMap fun k => (Dict.get? d.opts k).map fun v => (k, v) := by
      intro name x
      rw [mem_catAll (fun n => n.devices) rfl (fun _ _ => rfl)]
      have hz : ∀ d : Device V, (catAll (idxW old truthy d.kind d.name d.channels) (indices d.kind)).devices = [] := by
        intro d
        rw [List.eq_nil_iff_forall_not_mem]
        intro y hy
        rw [mem_catAll (fun n => n.devices) rfl (fun _ _ => rfl)] at hy
        obtain ⟨i, _, hy⟩ := hy
        unfold idxW at hy
        split at hy
        · simp at hy
        · simp [chanW] at hy
      simp only [deviceW, New.cat, hz, List.append_nil, List.mem_singleton, Prod.mk.injEq]
    show Dict.get? (applyW [] _) _ = _
    rw [get?_applyW, hm]
    · exact ⟨d, hd, rfl, rfl⟩
    · intro K v w h1 h2
      obtain ⟨a, ha, rfl, rfl⟩ := (hm ..).mp h1
      obtain ⟨b, hb, hn, rfl⟩ := (hm ..).mp h2
      rw [List.inj_on_of_nodup_map h.names ha hb hn]
  · intro k v
    simp only [List.mem_filterMap, Option.map_eq_some_iff, Prod.mk.injEq]
    have hh : ∀ k, k ∈ header d.kind ↔ (k = "ref" ∨ d.kind = .hdawg ∧ (k = "channelgrouping" ∨ k = "clock_select")) := by
      intro k
      have := h.kinds d hd
      cases hk : d.kind with
      | hdawg => simp [header]
      | uhfqa => simp [header]
      | other => exact absurd hk this
    rw [← hh]
    constructor
    · rintro ⟨k', hk, v', hv, rfl, rfl⟩
      exact ⟨Dict.mem_of_get? hv, hk⟩
    · rintro ⟨hv, hk⟩
      exact ⟨k, hk, v, Dict.get?_of_mem (h.opts d hd) hv, rfl, rfl⟩

/-- Local oscillators keep instrument, generic component, parameters and power. -/
theorem los_partial {old : Old V} (h : WellFormed old) {truthy : V → Bool} {n : New V} (hc : convert old truthy = .ok n)
    {l : Lo V} (hl : l ∈ old.los.getD []) : ∃ x, Dict.get? n.los l.name = some x ∧ x.instrument = l.instrument ∧
      x.generic = l.generic ∧ (∀ p, l.freqParam = some p → x.freqParam = p) ∧ (l.freqParam = none → x.freqParam = "frequency") ∧
      (∀ k v r, l.power = (k, v) :: r → x.powerParam = k ∧ x.power = some v) ∧
      (l.power = [] → x.powerParam = "power" ∧ x.power = none) := by
  rw [convert_eq h] at hc
  simp only [Except.ok.injEq] at hc
  subst hc
  refine ⟨⟨l.instrument, l.generic, l.freqParam.getD "frequency", (l.power.head?.map Prod.fst).getD "power",
      l.power.head?.map Prod.snd⟩, ?_, ?_⟩
  rotate_left
  · refine ⟨rfl, rfl, ?_, ?_, ?_, ?_⟩
    · intro p hp; simp [hp]
    · intro hp; simp [hp]
    · intro k v r hp; simp [hp]
    · intro hp; simp [hp]
  · have hz : (catAll (deviceW old truthy) old.devices).los = [] := by
      rw [List.eq_nil_iff_forall_not_mem]
      intro y hy
      rw [chans_field (fun n => n.los) rfl (fun _ _ => rfl) (fun _ => rfl) h] at hy
      obtain ⟨d, i, c, _, hy⟩ := hy
      simp [chanW] at hy
    show Dict.get? (applyW ((old.los.getD []).foldl convertLo []) _) _ = _
    rw [hz]
    have : (old.los.getD []).foldl convertLo [] = applyW [] ((old.los.getD []).map fun l => (l.name,
        (⟨l.instrument, l.generic, l.freqParam.getD "frequency", (l.power.head?.map Prod.fst).getD "power",
          l.power.head?.map Prod.snd⟩ : LoDesc V))) := by
      simp only [applyW, List.foldl_map]
      rfl
    rw [this]
    show Dict.get? (applyW [] _) _ = _
    rw [get?_applyW, List.mem_map]
    · exact ⟨l, hl, rfl⟩
    · intro K v w h1 h2
      rw [List.mem_map] at h1 h2
      obtain ⟨a, ha, h1⟩ := h1
      obtain ⟨b, hb, h2⟩ := h2
      simp only [Prod.mk.injEq] at h1 h2
      have := List.inj_on_of_nodup_map h.los ha hb (h1.1.trans h2.1.symm)
      subst this
      exact h1.2.symm.trans h2.2

end Verif.ZiOld
