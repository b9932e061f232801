/-
Frequencies of Zurich Instruments outputs.
-/
import Verif.ZiFreq.Wiring
import Mathlib.Tactic.Ring
import Mathlib.Tactic.Linarith
import Mathlib.Tactic.FieldSimp

set_option linter.unusedSimpArgs false
set_option linter.unusedVariables false

namespace Verif.ZiFreq
open Spec

/-! ### Intermediate frequencies -/

/-- After the loop over modulation frequencies, channels have the intermediate frequency of their port and clock. -/
theorem mods_interm {cfg : Cfg} {pcs : List (String × String)} {cs cs' : List Chan} {fr fr' : List (String × Option Rat)}
    (h : pcs.foldlM (modStep cfg) (cs, fr) = .ok (cs', fr')) (hz : ∀ c ∈ cs, c.modulation = none) :
    (∀ c ∈ cs', c.modulation = none ∨ ∃ m, Dict.get? cfg.mods (c.port, c.clock) = some m ∧ c.modulation = some m.interm) ∧
    (∀ pc ∈ pcs, ∀ m, Dict.get? cfg.mods pc = some m → ∃ c ∈ cs', c.port = pc.1 ∧ c.clock = pc.2 ∧ c.modulation = some m.interm) := by
  constructor
  · refine FoldM.invariant (P := fun s => ∀ c ∈ s.1, c.modulation = none ∨ ∃ m, Dict.get? cfg.mods (c.port, c.clock) = some m ∧
      c.modulation = some m.interm) (s' := (cs', fr')) ?_ (fun c hc => Or.inl (hz c hc)) h
    intro pc _ s s' hs h1
    rcases modStep_ok h1 with ⟨_, rfl⟩ | ⟨m, a, c, b, l, hm, e1, e2, e3, e4, _⟩
    · exact hs
    · intro d hd
      rw [e2] at hd
      rcases List.mem_append.1 hd with hd | hd
      · exact hs d (by rw [e1]; exact List.mem_append_left _ hd)
      · rcases List.mem_cons.1 hd with rfl | hd
        · refine Or.inr ⟨m, ?_, rfl⟩
          rw [← hm]; simp only [e3, e4]
        · exact hs d (by rw [e1]; exact List.mem_append_right _ (List.mem_cons_of_mem _ hd))
  · intro pc hpc m hm
    refine FoldM.established (P := fun s => ∃ c ∈ s.1, c.port = pc.1 ∧ c.clock = pc.2 ∧ c.modulation = some m.interm)
      (s' := (cs', fr')) hpc ?_ ?_ h
    · intro s s' h1
      rcases modStep_ok h1 with ⟨hm', _⟩ | ⟨m', a, c, b, l, hm', e1, e2, e3, e4, _⟩
      · rw [hm] at hm'; cases hm'
      · rw [hm] at hm'
        cases hm'
        exact ⟨{ c with modulation := some m.interm }, by rw [e2]; simp, e3, e4, rfl⟩
    · rintro pc' _ s s' ⟨c0, hc0, i1, i2, i3⟩ h1
      rcases modStep_ok h1 with ⟨_, rfl⟩ | ⟨m', a, c, b, l, hm', e1, e2, e3, e4, _⟩
      · exact ⟨c0, hc0, i1, i2, i3⟩
      · rw [e1] at hc0
        rcases List.mem_append.1 hc0 with hc0 | hc0
        · exact ⟨c0, by rw [e2]; exact List.mem_append_left _ hc0, i1, i2, i3⟩
        · rcases List.mem_cons.1 hc0 with rfl | hc0
          · have : pc' = pc := by
              apply Prod.ext
              · rw [← e3, i1]
              · rw [← e4, i2]
            subst this
            rw [hm] at hm'
            cases hm'
            exact ⟨{ c0 with modulation := some m.interm }, by rw [e2]; simp, i1, i2, rfl⟩
          · exact ⟨c0, by rw [e2]; exact List.mem_append_right _ (List.mem_cons_of_mem _ hc0), i1, i2, i3⟩

theorem wire_unmodulated {cfg : Cfg} {pcs : List (String × String)} {cs : List Chan} (h : pcs.foldlM (addPort cfg) [] = .ok cs) :
    ∀ c ∈ cs, c.modulation = none := by
  refine FoldM.invariant (P := fun cs => ∀ c ∈ cs, c.modulation = none) ?_ (by simp) h
  intro pc _ a a' ha h1
  refine FoldM.invariant (P := fun cs => ∀ c ∈ cs, c.modulation = none) ?_ ha h1
  intro n _ b b' hb h2 c hc
  obtain ⟨lo, io, hr, ht, rfl⟩ := addNode_ok h2
  rcases List.mem_append.1 hc with hc | hc
  · exact hb c hc
  · rw [List.mem_singleton] at hc; subst hc; rfl

/-- Every channel is either not modulated or modulated with the intermediate frequency that is configured for its port and
clock; if one is configured, then some channel of this port and clock has it. -/
theorem interm_configured {cfg : Cfg} {pcs : List (String × String)} (hp : Proper cfg pcs) {chans : List Chan} {conf : Conf}
    (h : compile cfg pcs = .ok (chans, conf)) :
    (∀ c ∈ chans, c.modulation = none ∨ ∃ m f, ((c.port, c.clock), m) ∈ cfg.mods ∧ m.interm = some f ∧ c.modulation = some (some f)) ∧
    (∀ pc ∈ pcs, ∀ m, (pc, m) ∈ cfg.mods → ∃ c ∈ chans, ∃ f, c.port = pc.1 ∧ c.clock = pc.2 ∧ m.interm = some f ∧
      c.modulation = some (some f)) := by
  obtain ⟨cs0, cs1, cs2, freqs, h0, e1, h1, h2, h3⟩ := compile_ok h
  obtain ⟨p1, p2, p3, _⟩ := parse_ok h2
  have hz : ∀ c ∈ cs1, c.modulation = none := by
    intro c hc
    rw [e1, StableSort.mem_sortBy] at hc
    exact wire_unmodulated h0 c hc
  obtain ⟨i1, i2⟩ := mods_interm h1 hz
  have hacc : ∀ c ∈ cs2, c.modulation ≠ some none := by
    intro c hc
    have ha := p2 c hc
    unfold accepted at ha
    simp only [Bool.and_eq_true, bne_iff_ne] at ha
    exact ha.1.2
  constructor
  · intro c hc
    have hc2 := p1.mem_iff.1 hc
    rcases i1 c hc2 with hm | ⟨m, hm, hi⟩
    · exact Or.inl hm
    · cases hf : m.interm with
      | none => rw [hf] at hi; exact absurd hi (hacc c hc2)
      | some f => exact Or.inr ⟨m, f, Dict.mem_of_get? hm, hf, by rw [hi, hf]⟩
  · intro pc hpc m hm
    obtain ⟨c, hc, c1, c2, c3⟩ := i2 pc hpc m (Dict.get?_of_mem hp.mods hm)
    cases hf : m.interm with
    | none => rw [hf] at c3; exact absurd c3 (hacc c hc)
    | some f => exact ⟨c, p1.mem_iff.2 hc, f, c1, c2, rfl, by rw [c3, hf]⟩

/-- A port and clock for which only the frequency of the local oscillator is given are refused, whatever the rest is. -/
theorem lo_only_refused {cfg : Cfg} {pcs : List (String × String)} (hp : Proper cfg pcs) {pc : String × String} (hpc : pc ∈ pcs)
    {m : Mod} (hm : (pc, m) ∈ cfg.mods) (hi : m.interm = none) : ∃ e, compile cfg pcs = .error e := by
  cases h : compile cfg pcs with
  | error e => exact ⟨e, rfl⟩
  | ok q =>
    obtain ⟨chans, conf⟩ := q
    obtain ⟨c, _, f, _, _, hf, _⟩ := (interm_configured hp h).2 pc hpc m hm
    rw [hi] at hf; cases hf

/-- Frequencies are refused for ports that are not behind an IQ mixer. -/
theorem direct_refused {cfg : Cfg} {pcs : List (String × String)} (hp : Proper cfg pcs) {pc : String × String} (hpc : pc ∈ pcs)
    {m : Mod} (hm : (pc, m) ∈ cfg.mods) (hu : Unambiguous cfg pc.1) (hd : ∀ d i l, ¬ Wired cfg pc.1 d i (some l)) :
    ∃ e, compile cfg pcs = .error e := by
  cases h : compile cfg pcs with
  | error e => exact ⟨e, rfl⟩
  | ok q =>
    obtain ⟨chans, conf⟩ := q
    exfalso
    obtain ⟨cs0, cs1, cs2, freqs, h0, e1, h1, h2, h3⟩ := compile_ok h
    obtain ⟨p1, _⟩ := parse_ok h2
    have : ∃ c ∈ cs2, ∃ l, c.port = pc.1 ∧ c.clock = pc.2 ∧ c.lo = some l := by
      refine FoldM.established (P := fun s => ∃ c ∈ s.1, ∃ l, c.port = pc.1 ∧ c.clock = pc.2 ∧ c.lo = some l)
        (s' := (cs2, freqs)) hpc ?_ ?_ h1
      · intro s s' h4
        rcases modStep_ok h4 with ⟨hm', _⟩ | ⟨m', a, c, b, l, hm', q1, q2, q3, q4, q5, _⟩
        · rw [Dict.get?_of_mem hp.mods hm] at hm'; cases hm'
        · exact ⟨{ c with modulation := some m'.interm }, by rw [q2]; simp, l, q3, q4, q5⟩
      · rintro pc' _ s s' ⟨c0, hc0, l0, i1, i2, i3⟩ h4
        have hw := modStep_wiring h4
        have : wiring c0 ∈ s'.1.map wiring := by rw [hw]; exact List.mem_map_of_mem hc0
        obtain ⟨c, hc, e⟩ := List.mem_map.1 this
        simp only [wiring, Prod.mk.injEq] at e
        exact ⟨c, hc, l0, by rw [e.2.2.1, i1], by rw [e.2.2.2.1, i2], by rw [e.2.2.2.2, i3]⟩
    obtain ⟨c, hc, l, c1, c2, c3⟩ := this
    exact hd c.device c.io l (((wired_channels hp h).2.2 pc hpc hu c.device c.io (some l)).1
      ⟨c, p1.mem_iff.2 hc, c1, c2, rfl, rfl, c3⟩)

/-! ### Local oscillators -/

theorem interm_eq {c : Chan} {i : Rat} (h : Interm c i) : c.interm = i := by
  unfold Chan.interm
  rcases h with ⟨h, rfl⟩ | h <;> rw [h]

/-- Frequencies that are given for a local oscillator. -/
theorem mods_freqs {cfg : Cfg} {pcs : List (String × String)} {cs cs' : List Chan} {fr : List (String × Option Rat)}
    (h : pcs.foldlM (modStep cfg) (cs, []) = .ok (cs', fr)) {l : String} {v : Option Rat}
    (hv : ∀ pc ∈ pcs, ∀ m, Dict.get? cfg.mods pc = some m →
      (∃ c ∈ cs, c.port = pc.1 ∧ c.clock = pc.2 ∧ c.lo = some l) → m.lo = v) :
    Dict.get? fr l = none ∨ Dict.get? fr l = some v := by
  have := FoldM.invariant (P := fun s => s.1.map wiring = cs.map wiring ∧ (Dict.get? s.2 l = none ∨ Dict.get? s.2 l = some v))
    (s' := (cs', fr)) ?_ ⟨rfl, Or.inl rfl⟩ h
  · exact this.2
  · rintro pc hpc s s' ⟨hw, hs⟩ h1
    refine ⟨(modStep_wiring h1).trans hw, ?_⟩
    rcases modStep_ok h1 with ⟨_, rfl⟩ | ⟨m, a, c, b, l', hm, e1, e2, e3, e4, e5, _, e7⟩
    · exact hs
    · rw [e7, Dict.get?_set]
      by_cases hl : l = l'
      · subst hl
        rw [if_pos rfl]
        have : wiring c ∈ cs.map wiring := by rw [← hw, e1]; simp
        obtain ⟨d, hd, e⟩ := List.mem_map.1 this
        simp only [wiring, Prod.mk.injEq] at e
        right
        rw [hv pc hpc m hm ⟨d, hd, by rw [e.2.2.1, e3], by rw [e.2.2.2.1, e4], by rw [e.2.2.2.2, e5]⟩]
      · rw [if_neg hl]; exact hs

theorem tell_ok {s s' : Conf} {o : Lo} {f : Rat} (h : tell s o f = .ok s') :
    s' = { s with
      generic := Dict.set (Dict.set s.generic (o.instrument.getD "", o.freqParam) (some f)) (o.instrument.getD "", o.powerParam) o.power } := by
  unfold tell at h
  by_cases hn : o.name = "generic" ∧ s.generic ≠ []
  · rw [if_pos hn] at h; cases h
  · rw [if_neg hn] at h; cases h; rfl

/-- One step of the loop over channels. -/
theorem addLo_ok {cfg : Cfg} {s s' : Conf} {c : Chan} (h : addLo cfg s c = .ok s') :
    (c.lo = none ∧ s' = s) ∨ ∃ l o, c.lo = some l ∧ o ∈ cfg.los ∧ o.name = l ∧
      ((∃ f, Dict.get? s.freqs l = some (some f) ∧ tell s o f = .ok s') ∨
       (Dict.get? s.freqs l = some none ∧ Dict.get? cfg.clocks c.clock = none ∧ s' = s) ∨
       (∃ r, Dict.get? s.freqs l = some none ∧ Dict.get? cfg.clocks c.clock = some r ∧
          tell { s with freqs := Dict.set s.freqs l (some (r - c.interm)) } o (r - c.interm) = .ok s')) := by
  unfold addLo at h
  cases hl : c.lo with
  | none => rw [hl] at h; cases h; exact Or.inl ⟨rfl, rfl⟩
  | some l =>
    rw [hl] at h
    simp only at h
    right
    cases hf : cfg.los.find? (fun o => o.name == l) with
    | none => rw [hf] at h; cases h
    | some o =>
      rw [hf] at h
      simp only at h
      have hn : o.name = l := by simpa using List.find?_some hf
      refine ⟨l, o, rfl, List.mem_of_find?_eq_some hf, hn, ?_⟩
      cases hg : Dict.get? s.freqs l with
      | none => rw [hg] at h; cases h
      | some v =>
        rw [hg] at h
        cases v with
        | some f => exact Or.inl ⟨f, rfl, h⟩
        | none =>
          simp only at h
          cases hc : Dict.get? cfg.clocks c.clock with
          | none => rw [hc] at h; cases h; exact Or.inr (Or.inl ⟨rfl, rfl, rfl⟩)
          | some r => rw [hc] at h; exact Or.inr (Or.inr ⟨r, rfl, rfl, h⟩)

/-- The parameter of a local oscillator keeps its value. -/
theorem addLo_keeps {cfg : Cfg} (hi : ∀ o ∈ cfg.los, o.instrument.isSome = true) (hn : (cfg.los.map (fun o => o.name)).Nodup)
    {o : Lo} (ho : o ∈ cfg.los) (ha : Alone cfg o)
    {f : Rat} {s s' : Conf} {c : Chan} (h : addLo cfg s c = .ok s') (hf : Dict.get? s.freqs o.name = some (some f)) :
    Dict.get? s'.freqs o.name = some (some f) ∧
    (Dict.get? s.generic (o.instrument.getD "", o.freqParam) = some (some f) ∨ c.lo = some o.name →
      Dict.get? s'.generic (o.instrument.getD "", o.freqParam) = some (some f)) := by
  have other : ∀ p ∈ cfg.los, p.name ≠ o.name → ∀ (g : List ((String × String) × Option Rat)) (v : Rat),
      Dict.get? (Dict.set (Dict.set g (p.instrument.getD "", p.freqParam) (some v)) (p.instrument.getD "", p.powerParam) p.power)
        (o.instrument.getD "", o.freqParam) = Dict.get? g (o.instrument.getD "", o.freqParam) := by
    intro p hp hne g v
    have i1 := hi p hp
    have i2 := hi o ho
    obtain ⟨a1, a2⟩ := ha p hp
    have a2 := a2 hne
    rw [Option.isSome_iff_exists] at i1 i2
    obtain ⟨x, hx⟩ := i1
    obtain ⟨y, hy⟩ := i2
    rw [hx, hy] at a1 a2
    rw [hx, hy]
    simp only [ne_eq, Prod.mk.injEq, Option.some.injEq, Option.getD_some] at a1 a2 ⊢
    rw [Dict.get?_set_ne _ _ (by simpa [eq_comm] using a1), Dict.get?_set_ne _ _ (by simpa [eq_comm] using a2)]
  have same : ∀ (g : List ((String × String) × Option Rat)) (v : Rat),
      Dict.get? (Dict.set (Dict.set g (o.instrument.getD "", o.freqParam) (some v)) (o.instrument.getD "", o.powerParam) o.power)
        (o.instrument.getD "", o.freqParam) = some (some v) := by
    intro g v
    have a1 := (ha o ho).1
    rw [Dict.get?_set_ne, Dict.get?_set_self]
    simp only [ne_eq, Prod.mk.injEq, true_and] at a1 ⊢
    exact fun e => a1 e.symm
  have uniq : ∀ p ∈ cfg.los, p.name = o.name → p = o := by
    intro p hp e
    exact List.inj_on_of_nodup_map hn hp ho e
  rcases addLo_ok h with ⟨hl, rfl⟩ | ⟨l, p, hl, hp, hpn, hcase⟩
  · refine ⟨hf, ?_⟩
    rintro (h1 | h1)
    · exact h1
    · rw [hl] at h1; cases h1
  · by_cases hne : l = o.name
    · have hpo := uniq p hp (hpn.trans hne)
      subst hpo
      rcases hcase with ⟨f', h1, h2⟩ | ⟨h1, _, _⟩ | ⟨r, h1, _, _⟩
      · rw [hne, hf] at h1
        cases h1
        have := tell_ok h2
        subst this
        exact ⟨hf, fun _ => same _ _⟩
      · rw [hne, hf] at h1; cases h1
      · rw [hne, hf] at h1; cases h1
    · have hpne : p.name ≠ o.name := by rw [hpn]; exact hne
      have hcl : ∀ {P : Prop}, (P ∨ c.lo = some o.name) → P := by
        rintro P (h1 | h1)
        · exact h1
        · rw [hl] at h1; cases h1; exact absurd rfl hne
      rcases hcase with ⟨f', h1, h2⟩ | ⟨h1, _, rfl⟩ | ⟨r, h1, _, h2⟩
      · have := tell_ok h2
        subst this
        exact ⟨hf, fun hh => (other p hp hpne _ _).trans (hcl hh)⟩
      · exact ⟨hf, hcl⟩
      · have := tell_ok h2
        subst this
        refine ⟨?_, fun hh => (other p hp hpne _ _).trans (hcl hh)⟩
        show Dict.get? (Dict.set s.freqs l _) o.name = _
        rw [Dict.get?_set_ne _ _ (fun e => hne e.symm)]
        exact hf

theorem keys_addLo {cfg : Cfg} {s s' : Conf} {c : Chan} (h : addLo cfg s c = .ok s') (hk : (Dict.keys s.generic).Nodup) :
    (Dict.keys s'.generic).Nodup := by
  have ht : ∀ {s s' : Conf} {o : Lo} {f : Rat}, tell s o f = .ok s' → (Dict.keys s.generic).Nodup → (Dict.keys s'.generic).Nodup := by
    intro s s' o f h hk
    rw [tell_ok h]
    exact Dict.keys_set_nodup (Dict.keys_set_nodup hk _ _) _ _
  rcases addLo_ok h with ⟨hl, rfl⟩ | ⟨l, p, hl, hp, hpn, ⟨f', h1, h2⟩ | ⟨h1, _, rfl⟩ | ⟨r, h1, _, h2⟩⟩
  · exact hk
  · exact ht h2 hk
  · exact hk
  · exact ht h2 hk

theorem sets_of_get {s : Conf} (hk : (Dict.keys s.generic).Nodup) {i p : String} {f : Rat}
    (h : Dict.get? s.generic (i, p) = some (some f)) : Sets s.generic i p f := by
  refine ⟨Dict.mem_of_get? h, ?_⟩
  intro w hw
  have := Dict.get?_of_mem hk hw
  rw [h] at this
  exact (Option.some.inj this).symm

/-- The frequency that is given for a local oscillator is what its parameter is set to, if all ports and clocks that use it agree. -/
theorem given_lo {cfg : Cfg} {pcs : List (String × String)} (hp : Proper cfg pcs) {chans : List Chan} {conf : Conf}
    (h : compile cfg pcs = .ok (chans, conf)) {o : Lo} (ho : o ∈ cfg.los) (ha : Alone cfg o) {instr : String}
    (hin : o.instrument = some instr) {f : Rat} {c : Chan} (hc : c ∈ chans) (hl : c.lo = some o.name)
    (hv : ∀ d ∈ chans, d.lo = some o.name → ∀ m, ((d.port, d.clock), m) ∈ cfg.mods → m.lo = some f) :
    Sets conf.generic instr o.freqParam f := by
  obtain ⟨cs0, cs1, cs2, freqs, h0, e1, h1, h2, h3⟩ := compile_ok h
  obtain ⟨p1, p2, p3, _⟩ := parse_ok h2
  have hw : (cs2.map wiring) = cs1.map wiring :=
    FoldM.invariant (P := fun s => s.1.map wiring = cs1.map wiring) (s' := (cs2, freqs))
      (fun pc _ a a' hp hs => (modStep_wiring hs).trans hp) rfl h1
  have hv' : Dict.get? freqs o.name = none ∨ Dict.get? freqs o.name = some (some f) := by
    refine mods_freqs h1 ?_
    rintro pc hpc m hm ⟨d, hd, d1, d2, d3⟩
    have : wiring d ∈ cs2.map wiring := by rw [hw]; exact List.mem_map_of_mem hd
    obtain ⟨d', hd', e⟩ := List.mem_map.1 this
    simp only [wiring, Prod.mk.injEq] at e
    refine hv d' (p1.mem_iff.2 hd') (by rw [e.2.2.2.2, d3]) m ?_
    rw [e.2.2.1, e.2.2.2.1, d1, d2]
    exact Dict.mem_of_get? hm
  have key : ∀ (l : List Chan) (s s' : Conf), l.foldlM (addLo cfg) s = .ok s' → c ∈ l → (Dict.keys s.generic).Nodup →
      (Dict.get? s.freqs o.name = none ∨ Dict.get? s.freqs o.name = some (some f)) →
      Dict.get? s'.generic (instr, o.freqParam) = some (some f) ∧ (Dict.keys s'.generic).Nodup := by
    intro l s s' hfold hcl hk hfr
    constructor
    · have hfr2 : Dict.get? s.freqs o.name = some (some f) := by
        rcases hfr with hfr | hfr
        · exfalso
          have : ∀ (l : List Chan) (s s' : Conf), l.foldlM (addLo cfg) s = .ok s' → c ∈ l → Dict.get? s.freqs o.name = none → False := by
            intro l
            induction l with
            | nil => intro s s' _ hc _; cases hc
            | cons d l ih =>
              intro s s' hfold hcl hfr
              obtain ⟨s1, g1, g2⟩ := (FoldM.ok_cons ..).1 hfold
              have hstep : c ≠ d ∧ Dict.get? s1.freqs o.name = none := by
                rcases addLo_ok g1 with ⟨hl', rfl⟩ | ⟨l', p, hl', hp', hpn, hcase⟩
                · refine ⟨?_, hfr⟩
                  rintro rfl
                  rw [hl] at hl'; cases hl'
                · have hne : l' ≠ o.name := by
                    rintro rfl
                    rcases hcase with ⟨f', q1, _⟩ | ⟨q1, _⟩ | ⟨r, q1, _⟩ <;> (rw [hfr] at q1; cases q1)
                  refine ⟨?_, ?_⟩
                  · rintro rfl
                    rw [hl] at hl'; cases hl'; exact hne rfl
                  · rcases hcase with ⟨f', q1, q2⟩ | ⟨q1, _, rfl⟩ | ⟨r, q1, _, q2⟩
                    · rw [tell_ok q2]; exact hfr
                    · exact hfr
                    · rw [tell_ok q2]
                      show Dict.get? (Dict.set s.freqs l' _) o.name = _
                      rw [Dict.get?_set_ne _ _ (fun e => hne e.symm)]; exact hfr
              rcases List.mem_cons.1 hcl with e | hcl
              · exact hstep.1 e
              · exact ih s1 s' g2 hcl hstep.2
          exact this l s s' hfold hcl hfr
        · exact hfr
      have main : ∀ (l : List Chan) (s s' : Conf), l.foldlM (addLo cfg) s = .ok s' → 
          Dict.get? s.freqs o.name = some (some f) → (c ∈ l ∨ Dict.get? s.generic (o.instrument.getD "", o.freqParam) = some (some f)) →
          Dict.get? s'.generic (o.instrument.getD "", o.freqParam) = some (some f) := by
        intro l
        induction l with
        | nil =>
          intro s s' hfold _ hor
          simp only [FoldM.nil, Except.ok.injEq] at hfold
          subst hfold
          rcases hor with hor | hor
          · cases hor
          · exact hor
        | cons d l ih =>
          intro s s' hfold hfr hor
          obtain ⟨s1, g1, g2⟩ := (FoldM.ok_cons ..).1 hfold
          obtain ⟨k1, k2⟩ := addLo_keeps p3 hp.los ho ha g1 hfr
          refine ih s1 s' g2 k1 ?_
          rcases hor with hor | hor
          · rcases List.mem_cons.1 hor with e | hor
            · right; apply k2; right; rw [← e, hl]
            · exact Or.inl hor
          · right; exact k2 (Or.inl hor)
      have := main l s s' hfold hfr2 (Or.inl hcl)
      rw [hin] at this
      exact this
    · exact FoldM.invariant (P := fun s => (Dict.keys s.generic).Nodup) (fun d _ a a' ha' hs => keys_addLo hs ha') hk hfold
  obtain ⟨r1, r2⟩ := key chans _ conf h3 hc List.nodup_nil hv'
  exact sets_of_get r2 r1

/-- If no frequency is given for a local oscillator, the first of its channels of which the clock has a frequency decides: this
channel emits at the frequency of its clock. -/
theorem derived_lo {cfg : Cfg} {pcs : List (String × String)} (hp : Proper cfg pcs) {chans : List Chan} {conf : Conf}
    (h : compile cfg pcs = .ok (chans, conf)) {o : Lo} (ho : o ∈ cfg.los) (ha : Alone cfg o) {instr : String}
    (hin : o.instrument = some instr) {c : Chan} {pre post : List Chan} (hc : chans = pre ++ c :: post) (hl : c.lo = some o.name)
    {r i : Rat} (hr : (c.clock, r) ∈ cfg.clocks) (hi : Interm c i) (hpre : ∀ d ∈ pre, d.lo = some o.name → ∀ q, (d.clock, q) ∉ cfg.clocks)
    (hv : ∀ d ∈ chans, d.lo = some o.name → ∀ m, ((d.port, d.clock), m) ∈ cfg.mods → m.lo = none) :
    Sets conf.generic instr o.freqParam (r - i) := by
  rw [← interm_eq hi]
  obtain ⟨cs0, cs1, cs2, freqs, h0, e1, h1, h2, h3⟩ := compile_ok h
  obtain ⟨p1, p2, p3, _⟩ := parse_ok h2
  have hw : (cs2.map wiring) = cs1.map wiring :=
    FoldM.invariant (P := fun s => s.1.map wiring = cs1.map wiring) (s' := (cs2, freqs))
      (fun pc _ a a' hp hs => (modStep_wiring hs).trans hp) rfl h1
  have hv' : Dict.get? freqs o.name = none ∨ Dict.get? freqs o.name = some none := by
    refine mods_freqs h1 ?_
    rintro pc hpc m hm ⟨d, hd, d1, d2, d3⟩
    have : wiring d ∈ cs2.map wiring := by rw [hw]; exact List.mem_map_of_mem hd
    obtain ⟨d', hd', e⟩ := List.mem_map.1 this
    simp only [wiring, Prod.mk.injEq] at e
    refine hv d' (p1.mem_iff.2 hd') (by rw [e.2.2.2.2, d3]) m ?_
    rw [e.2.2.1, e.2.2.2.1, d1, d2]
    exact Dict.mem_of_get? hm
  rw [hc] at h3
  have uniq : ∀ p ∈ cfg.los, p.name = o.name → p = o := fun p hp' e => List.inj_on_of_nodup_map hp.los hp' ho e
  have first : ∀ (l : List Chan) (s s' : Conf), l.foldlM (addLo cfg) s = .ok s' →
      (∀ d ∈ l, d.lo = some o.name → ∀ q, (d.clock, q) ∉ cfg.clocks) →
      (Dict.get? s.freqs o.name = none ∨ Dict.get? s.freqs o.name = some none) →
      (Dict.get? s'.freqs o.name = none ∨ Dict.get? s'.freqs o.name = some none) := by
    intro l s s' hfold hl' hs
    refine FoldM.invariant (P := fun s => Dict.get? s.freqs o.name = none ∨ Dict.get? s.freqs o.name = some none) ?_ hs hfold
    intro d hd a a' ha' hstep
    rcases addLo_ok hstep with ⟨_, rfl⟩ | ⟨l', p, hl'', hp', hpn, hcase⟩
    · exact ha'
    · rcases hcase with ⟨f', q1, q2⟩ | ⟨q1, _, rfl⟩ | ⟨q, q1, q3, q2⟩
      · rw [tell_ok q2]; exact ha'
      · exact ha'
      · rw [tell_ok q2]
        show Dict.get? (Dict.set a.freqs l' _) o.name = none ∨ Dict.get? (Dict.set a.freqs l' _) o.name = some none
        by_cases hne : o.name = l'
        · subst hne
          exact absurd (Dict.mem_of_get? q3) (hl' d hd hl'' q)
        · rw [Dict.get?_set_ne _ _ hne]; exact ha'
  rw [List.foldlM_append] at h3
  cases hA : pre.foldlM (addLo cfg) ⟨freqs, []⟩ with
  | error e => rw [hA] at h3; cases h3
  | ok s1 =>
    rw [hA] at h3
    replace h3 : (c :: post).foldlM (addLo cfg) s1 = .ok conf := h3
    have hs1 := first pre _ s1 hA hpre hv'
    have hk1 : (Dict.keys s1.generic).Nodup :=
      FoldM.invariant (P := fun s : Conf => (Dict.keys s.generic).Nodup) (s := ⟨freqs, []⟩) (fun d _ a a' ha' hs => keys_addLo hs ha')
        (by exact List.nodup_nil) hA
    obtain ⟨s2, g1, g2⟩ := (FoldM.ok_cons ..).1 h3
    have hs2 : Dict.get? s2.freqs o.name = some (some (r - c.interm)) ∧
        Dict.get? s2.generic (o.instrument.getD "", o.freqParam) = some (some (r - c.interm)) := by
      rcases addLo_ok g1 with ⟨hl', _⟩ | ⟨l', p, hl'', hp', hpn, hcase⟩
      · rw [hl] at hl'; cases hl'
      · rw [hl] at hl''
        cases hl''
        have hpo := uniq p hp' hpn
        subst hpo
        rcases hcase with ⟨f', q1, q2⟩ | ⟨q1, q3, _⟩ | ⟨q, q1, q3, q2⟩
        · rcases hs1 with hs1 | hs1 <;> (rw [hs1] at q1; cases q1)
        · rw [Dict.get?_of_mem hp.clocks hr] at q3; cases q3
        · rw [Dict.get?_of_mem hp.clocks hr] at q3
          cases q3
          rw [tell_ok q2]
          refine ⟨Dict.get?_set_self _ _ _, ?_⟩
          have a1 := (ha p hp').1
          show Dict.get? (Dict.set (Dict.set _ _ _) _ _) _ = _
          rw [Dict.get?_set_ne, Dict.get?_set_self]
          simp only [ne_eq, Prod.mk.injEq, true_and] at a1 ⊢
          exact fun e => a1 e.symm
    have hend := FoldM.invariant (P := fun s => Dict.get? s.freqs o.name = some (some (r - c.interm)) ∧
        Dict.get? s.generic (o.instrument.getD "", o.freqParam) = some (some (r - c.interm)))
      (fun d _ a a' ha' hs => by
        obtain ⟨k1, k2⟩ := addLo_keeps p3 hp.los ho ha hs ha'.1
        exact ⟨k1, k2 (Or.inl ha'.2)⟩) hs2 g2
    have hk2 : (Dict.keys conf.generic).Nodup :=
      FoldM.invariant (P := fun s => (Dict.keys s.generic).Nodup) (fun d _ a a' ha' hs => keys_addLo hs ha') hk1 h3
    have := hend.2
    rw [hin] at this
    exact sets_of_get hk2 this

end Verif.ZiFreq
