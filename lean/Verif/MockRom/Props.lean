/-
C80: results of the mock readout module.
-/
import Verif.MockRom.Spec
import Verif.AcqIndices.Props
import Verif.Common.FoldM
import Mathlib.Tactic.Ring
import Mathlib.Tactic.Linarith
import Mathlib.Tactic.FieldSimp

set_option linter.unusedSimpArgs false
set_option linter.unusedVariables false
set_option linter.unusedSectionVars false

namespace Verif.MockRom

open Verif.AcqIndices (Info Coord Coords Data Idx BinMode)

variable {Ch U K : Type} [DecidableEq Ch]

theorem mem_set {A V : Type} [DecidableEq A] {d : List (A × V)} {k : A} {v : V} {e : A × V}
    (h : e ∈ Dict.set d k v) : e = (k, v) ∨ (e ∈ d ∧ e.1 ≠ k) := by
  unfold Dict.set at h
  split at h
  · obtain ⟨x, hx, rfl⟩ := List.mem_map.mp h
    by_cases hk : x.1 = k
    · simp [hk]
    · simp only [beq_iff_eq, hk, if_false]; exact Or.inr ⟨hx, hk⟩
  · rename_i hn
    rcases List.mem_append.mp h with h | h
    · right
      refine ⟨h, fun hk => hn ?_⟩
      exact List.any_eq_true.mpr ⟨e, h, by simp [hk]⟩
    · left; simpa using h

/-! ### Compilation -/

theorem readoutPorts_plain {cfg : Config K} (hp : PlainPorts cfg) :
    ∃ ps : List HwPort, readoutPorts cfg.readout = .ok ps ∧ ps ≠ [] ∧
      ∀ p ∈ ps, p.second = none ∧ p.trace = false := by
  obtain ⟨l, hl, hne, h⟩ := hp
  have key : ∀ l : List (Option HwPort), (∀ p ∈ l, ∃ q : HwPort, p = some q ∧ q.second = none ∧ q.trace = false) →
      ∃ ps : List HwPort, readoutPorts (some l) = .ok ps ∧ ps.length = l.length ∧
        ∀ p ∈ ps, p.second = none ∧ p.trace = false := by
    intro l
    induction l with
    | nil => intro _; exact ⟨[], rfl, rfl, by simp⟩
    | cons p l ih =>
      intro h
      obtain ⟨ps, h1, h2, h3⟩ := ih (fun q hq => h q (List.mem_cons_of_mem _ hq))
      obtain ⟨q, rfl, hq⟩ := h p (List.mem_cons_self ..)
      refine ⟨q :: ps, ?_, by simp [h2], ?_⟩
      · unfold readoutPorts at h1 ⊢
        simp only [List.foldr_cons] at h1 ⊢
        rw [h1]
      · intro x hx
        rcases List.mem_cons.mp hx with rfl | hx
        · exact hq
        · exact h3 x hx
  obtain ⟨ps, h1, h2, h3⟩ := key l h
  refine ⟨ps, by rw [hl]; exact h1, ?_, h3⟩
  intro h0
  rw [h0] at h2
  exact hne (List.eq_nil_of_length_eq_zero h2.symm)

theorem stepPulse_cases {cfg : Config K} {rate : Rat} {hash : String} {p : Pulse K} {s s' : CS Ch K}
    (h : stepPulse cfg rate hash p s = .ok s') :
    rate ≠ 0 ∧ ((p.wf = none ∧ s' = s) ∨ ∃ f fr freq, p.wf = some f ∧ cfg.freqs = some fr ∧
      Dict.get? fr (p.port ++ "-" ++ p.clock) = some (some freq) ∧
      s' = { s with waves :=
        (Dict.set (Dict.set s.waves (hash, false) (((grid p.dur rate).map (f freq)).map Prod.fst)) (hash, true)
          (((grid p.dur rate).map (f freq)).map Prod.snd)) }) := by
  unfold stepPulse at h
  split at h
  · cases h
  rename_i hr
  refine ⟨hr, ?_⟩
  cases hw : p.wf with
  | none =>
    rw [hw] at h
    left
    exact ⟨rfl, (Except.ok.inj h).symm⟩
  | some f =>
    rw [hw] at h
    right
    cases hf : cfg.freqs with
    | none => rw [hf] at h; cases h
    | some fr =>
      rw [hf] at h
      simp only at h
      have hpc : pc p.port p.clock = p.port ++ "-" ++ p.clock := rfl
      rw [hpc] at h
      cases hg : Dict.get? fr (p.port ++ "-" ++ p.clock) with
      | none => rw [hg] at h; cases h
      | some o =>
        cases o with
        | none => rw [hg] at h; cases h
        | some freq =>
          rw [hg] at h
          exact ⟨f, fr, freq, rfl, rfl, hg, (Except.ok.inj h).symm⟩

theorem step_cases [DecidableEq K] {cfg : Config K} {rate : Rat}
    {index : List ((AcqIndices.Label × Nat) × Idx)} {s s' : CS Ch K} {i : Item Ch U K}
    (h : step cfg rate index s i = .ok s') :
    (∃ hash p, Plays i hash p ∧ stepPulse cfg rate hash p s = .ok s') ∨
    (∃ b ps g, Traces i b ∧ readoutPorts cfg.readout = .ok ps ∧
      newGain cfg s.gain (pc b.port b.clock) = .ok g ∧
      s' = { s with
              instrs := s.instrs ++ ps.map (fun p => ⟨true, p, s.next⟩)
              gain := g
              tmap := Dict.set s.tmap b.info.ch s.next
              next := s.next + 1 }) ∨
    (∃ a ps n, Measures i a ∧ readoutPorts cfg.readout = .ok ps ∧
      Dict.get? index ([some i.name], 0) = some (.one n) ∧
      s' = { s with
                instrs := s.instrs ++ ps.map (fun p => ⟨false, p, s.next⟩)
                bmap := Dict.set s.bmap (a.ch, n) s.next
                next := s.next + 1 }) := by
  unfold step at h
  cases ho : i.op with
  | nested o => rw [ho] at h; cases h
  | plain o =>
    rw [ho] at h
    simp only at h
    cases hp : o.pulses with
    | cons p rest =>
      rw [hp] at h
      exact Or.inl ⟨o.hash, p, ⟨o, rest, ho, rfl, hp⟩, h⟩
    | nil =>
      rw [hp] at h
      right
      simp only at h
      cases hc : o.cls with
      | other => rw [hc] at h; cases h
      | trace =>
        rw [hc] at h
        cases ha : o.acqs with
        | nil => rw [ha] at h; cases h
        | cons b rest =>
          rw [ha] at h
          simp only at h
          cases hr : readoutPorts cfg.readout with
          | error e => rw [hr] at h; cases h
          | ok ps =>
            rw [hr] at h
            simp only at h
            cases hg : newGain cfg s.gain (pc b.port b.clock) with
            | error e => rw [hg] at h; cases h
            | ok g =>
              rw [hg] at h
              exact Or.inl ⟨b, ps, g, ⟨o, rest, ho, hp, hc, ha⟩, rfl, hg, (Except.ok.inj h).symm⟩
      | ssb =>
        rw [hc] at h
        cases ha : o.acqs with
        | nil => rw [ha] at h; cases h
        | cons b rest =>
          rw [ha] at h
          simp only at h
          split at h
          · cases h
          rename_i hm
          cases hr : readoutPorts cfg.readout with
          | error e => rw [hr] at h; cases h
          | ok ps =>
            rw [hr] at h
            simp only at h
            cases hg : Dict.get? index ([some i.name], 0) with
            | none => rw [hg] at h; cases h
            | some ix =>
              cases ix with
              | many l => rw [hg] at h; cases h
              | one n =>
                rw [hg] at h
                exact Or.inr ⟨b.info, ps, n, ⟨o, b, rest, ho, hp, hc, ha, rfl, not_not.mp hm⟩, rfl, rfl,
                  (Except.ok.inj h).symm⟩

theorem not_plays_traces {i : Item Ch U K} {h : String} {p : Pulse K} {b : AcqInfo Ch U}
    (h1 : Plays i h p) (h2 : Traces i b) : False := by
  obtain ⟨o, r, h3, h4, h5⟩ := h1
  obtain ⟨o', r', h6, h7, h8⟩ := h2
  rw [h3] at h6; cases h6
  rw [h5] at h7; cases h7

theorem not_plays_measures {i : Item Ch U K} {h : String} {p : Pulse K} {a : Info Ch U}
    (h1 : Plays i h p) (h2 : Measures i a) : False := by
  obtain ⟨o, r, h3, h4, h5⟩ := h1
  obtain ⟨o', b, r', h6, h7, h8⟩ := h2
  rw [h3] at h6; cases h6
  rw [h5] at h7; cases h7

theorem not_traces_measures {i : Item Ch U K} {b : AcqInfo Ch U} {a : Info Ch U}
    (h1 : Traces i b) (h2 : Measures i a) : False := by
  obtain ⟨o, r, h3, h4, h5, _⟩ := h1
  obtain ⟨o', b, r', h6, h7, h8, _⟩ := h2
  rw [h3] at h6; cases h6
  rw [h5] at h8; cases h8

theorem traces_unique {i : Item Ch U K} {b b' : AcqInfo Ch U} (h1 : Traces i b) (h2 : Traces i b') : b = b' := by
  obtain ⟨o, r, h3, h4, h5, h6⟩ := h1
  obtain ⟨o', r', h3', h4', h5', h6'⟩ := h2
  rw [h3] at h3'; cases h3'
  rw [h6] at h6'; cases h6'; rfl

theorem measures_unique {i : Item Ch U K} {a a' : Info Ch U} (h1 : Measures i a) (h2 : Measures i a') : a = a' := by
  obtain ⟨o, b, r, h3, h4, h5, h6, h7, h8⟩ := h1
  obtain ⟨o', b', r', h3', h4', h5', h6', h7', h8'⟩ := h2
  rw [h3] at h3'; cases h3'
  rw [h6] at h6'; cases h6'
  rw [← h7, ← h7']

/-- The state after the schedulables `P`. -/
structure CInv [DecidableEq K] (cfg : Config K) (ps : List HwPort)
    (index : List ((AcqIndices.Label × Nat) × Idx)) (P : List (Item Ch U K)) (s : CS Ch K) : Prop where
  instr : ∀ i ∈ s.instrs, i.loc < s.next ∧ i.port ∈ ps
  tloc : ∀ e ∈ s.tmap, (∃ i ∈ s.instrs, i.loc = e.2) ∧ ∀ i ∈ s.instrs, i.loc = e.2 → i.trace = true
  bloc : ∀ e ∈ s.bmap, (∃ i ∈ s.instrs, i.loc = e.2) ∧ ∀ i ∈ s.instrs, i.loc = e.2 → i.trace = false
  tinj : ∀ e ∈ s.tmap, ∀ e' ∈ s.tmap, e.2 = e'.2 → e.1 = e'.1
  binj : ∀ e ∈ s.bmap, ∀ e' ∈ s.bmap, e.2 = e'.2 → e.1 = e'.1
  tnodup : (Dict.keys s.tmap).Nodup
  bnodup : (Dict.keys s.bmap).Nodup
  tkeys : ∀ ch, ch ∈ Dict.keys s.tmap ↔ ∃ i ∈ P, ∃ b, Traces i b ∧ b.info.ch = ch
  bkeys : ∀ ch n, (ch, n) ∈ Dict.keys s.bmap ↔ ∃ i ∈ P, ∃ a, Measures i a ∧ a.ch = ch ∧
    Dict.get? index ([some i.name], 0) = some (.one n)
  supported : ∀ i ∈ P, (∃ hash p, Plays i hash p) ∨ (∃ b, Traces i b) ∨ ∃ a, Measures i a
  bone : ∀ i ∈ P, ∀ a, Measures i a → ∃ n, Dict.get? index ([some i.name], 0) = some (.one n)
  gnone : cfg.gain = none → s.gain = none
  gsome : ∀ g, cfg.gain = some g → ∀ i ∈ P, ∀ b, Traces i b →
    s.gain.isSome ∧ Dict.get? g (b.port ++ "-" ++ b.clock) = s.gain

theorem cinv_init [DecidableEq K] (cfg : Config K) (ps : List HwPort)
    (index : List ((AcqIndices.Label × Nat) × Idx)) :
    CInv cfg ps index ([] : List (Item Ch U K)) ⟨[], [], 0, [], [], none⟩ := by
  constructor <;> simp [Dict.keys]

theorem loc_lt {ps : List HwPort} {instrs : List Instr} {next : Nat} {k : Nat}
    (hi : ∀ i ∈ instrs, i.loc < next ∧ i.port ∈ ps) (h : ∃ i ∈ instrs, i.loc = k) : k < next := by
  obtain ⟨i, h1, h2⟩ := h
  rw [← h2]; exact (hi i h1).1

/-- Instructions for a new location, added to those before. -/
theorem old_loc {ps : List HwPort} {instrs : List Instr} {next k : Nat} {t t' : Bool} {l : List HwPort}
    (hi : ∀ i ∈ instrs, i.loc < next ∧ i.port ∈ ps)
    (h : (∃ i ∈ instrs, i.loc = k) ∧ ∀ i ∈ instrs, i.loc = k → i.trace = t) :
    (∃ i ∈ instrs ++ l.map (fun p => (⟨t', p, next⟩ : Instr)), i.loc = k) ∧
      ∀ i ∈ instrs ++ l.map (fun p => (⟨t', p, next⟩ : Instr)), i.loc = k → i.trace = t := by
  have hlt := loc_lt hi h.1
  obtain ⟨⟨i, h1, h2⟩, h3⟩ := h
  refine ⟨⟨i, List.mem_append_left _ h1, h2⟩, ?_⟩
  intro j hj hk
  rcases List.mem_append.mp hj with hj | hj
  · exact h3 j hj hk
  · obtain ⟨p, _, rfl⟩ := List.mem_map.mp hj
    simp only at hk
    omega

theorem new_loc {ps : List HwPort} {instrs : List Instr} {next : Nat} {t : Bool} {l : List HwPort} (hl : l ≠ [])
    (hi : ∀ i ∈ instrs, i.loc < next ∧ i.port ∈ ps) :
    (∃ i ∈ instrs ++ l.map (fun p => (⟨t, p, next⟩ : Instr)), i.loc = next) ∧
      ∀ i ∈ instrs ++ l.map (fun p => (⟨t, p, next⟩ : Instr)), i.loc = next → i.trace = t := by
  obtain ⟨p, l', rfl⟩ := List.exists_cons_of_ne_nil hl
  refine ⟨⟨⟨t, p, next⟩, by simp, rfl⟩, ?_⟩
  intro j hj hk
  rcases List.mem_append.mp hj with hj | hj
  · have := (hi j hj).1; omega
  · obtain ⟨q, _, rfl⟩ := List.mem_map.mp hj
    rfl

theorem new_instr {ps : List HwPort} {instrs : List Instr} {next : Nat} {t : Bool}
    (hi : ∀ i ∈ instrs, i.loc < next ∧ i.port ∈ ps) :
    ∀ i ∈ instrs ++ ps.map (fun p => (⟨t, p, next⟩ : Instr)), i.loc < next + 1 ∧ i.port ∈ ps := by
  intro j hj
  rcases List.mem_append.mp hj with hj | hj
  · have := hi j hj; exact ⟨by omega, this.2⟩
  · obtain ⟨q, hq, rfl⟩ := List.mem_map.mp hj
    exact ⟨by simp, hq⟩

theorem cinv_step [DecidableEq K] {cfg : Config K} {rate : Rat} {ps : List HwPort}
    {index : List ((AcqIndices.Label × Nat) × Idx)} {P : List (Item Ch U K)} {s s' : CS Ch K} {i : Item Ch U K}
    (hps : readoutPorts cfg.readout = .ok ps) (hne : ps ≠ []) (hi : CInv cfg ps index P s)
    (h : step cfg rate index s i = .ok s') : CInv cfg ps index (P ++ [i]) s' := by
  rcases step_cases h with ⟨hash, p, hpl, hs⟩ | ⟨b, ps', g, hT, hps', hg, rfl⟩ | ⟨a, ps', n, hM, hps', hn, rfl⟩
  · have hw : ∃ w, s' = { s with waves := w } := by
      rcases (stepPulse_cases hs).2 with ⟨_, rfl⟩ | ⟨f, fr, freq, _, _, _, rfl⟩
      · exact ⟨s'.waves, rfl⟩
      · exact ⟨_, rfl⟩
    obtain ⟨w, rfl⟩ := hw
    constructor
    · exact hi.instr
    · exact hi.tloc
    · exact hi.bloc
    · exact hi.tinj
    · exact hi.binj
    · exact hi.tnodup
    · exact hi.bnodup
    · intro ch
      rw [hi.tkeys ch]
      constructor
      · rintro ⟨j, hj, b, hb⟩; exact ⟨j, by simp [hj], b, hb⟩
      · rintro ⟨j, hj, b, hb⟩
        rcases List.mem_append.mp hj with hj | hj
        · exact ⟨j, hj, b, hb⟩
        · rw [List.mem_singleton] at hj; subst hj; exact (not_plays_traces hpl hb.1).elim
    · intro ch n
      rw [hi.bkeys ch n]
      constructor
      · rintro ⟨j, hj, b, hb⟩; exact ⟨j, by simp [hj], b, hb⟩
      · rintro ⟨j, hj, b, hb⟩
        rcases List.mem_append.mp hj with hj | hj
        · exact ⟨j, hj, b, hb⟩
        · rw [List.mem_singleton] at hj; subst hj; exact (not_plays_measures hpl hb.1).elim
    · intro j hj
      rcases List.mem_append.mp hj with hj | hj
      · exact hi.supported j hj
      · rw [List.mem_singleton] at hj; subst hj; exact Or.inl ⟨hash, p, hpl⟩
    · intro j hj a ha
      rcases List.mem_append.mp hj with hj | hj
      · exact hi.bone j hj a ha
      · rw [List.mem_singleton] at hj; subst hj; exact (not_plays_measures hpl ha).elim
    · exact hi.gnone
    · intro g hg j hj b hb
      rcases List.mem_append.mp hj with hj | hj
      · exact hi.gsome g hg j hj b hb
      · rw [List.mem_singleton] at hj; subst hj; exact (not_plays_traces hpl hb).elim
  · rw [hps] at hps'; cases hps'
    constructor
    · exact new_instr hi.instr
    · intro e he
      rcases mem_set he with rfl | ⟨he, _⟩
      · exact new_loc hne hi.instr
      · exact old_loc hi.instr (hi.tloc e he)
    · intro e he
      exact old_loc hi.instr (hi.bloc e he)
    · intro e he e' he' hee
      rcases mem_set he with rfl | ⟨he, _⟩ <;> rcases mem_set he' with rfl | ⟨he', _⟩
      · rfl
      · have := loc_lt hi.instr (hi.tloc e' he').1; simp only at hee; omega
      · have := loc_lt hi.instr (hi.tloc e he).1; simp only at hee; omega
      · exact hi.tinj e he e' he' hee
    · exact hi.binj
    · exact Dict.keys_set_nodup hi.tnodup _ _
    · exact hi.bnodup
    · intro ch
      rw [Dict.mem_keys_set, hi.tkeys ch]
      constructor
      · rintro (rfl | ⟨j, hj, b, hb⟩)
        · exact ⟨i, by simp, b, hT, rfl⟩
        · exact ⟨j, by simp [hj], b, hb⟩
      · rintro ⟨j, hj, b', hb⟩
        rcases List.mem_append.mp hj with hj | hj
        · exact Or.inr ⟨j, hj, b', hb⟩
        · rw [List.mem_singleton] at hj; subst hj
          rw [traces_unique hb.1 hT] at hb
          exact Or.inl hb.2.symm
    · intro ch n
      show (ch, n) ∈ Dict.keys s.bmap ↔ _
      rw [hi.bkeys ch n]
      constructor
      · rintro ⟨j, hj, b, hb⟩; exact ⟨j, by simp [hj], b, hb⟩
      · rintro ⟨j, hj, b, hb⟩
        rcases List.mem_append.mp hj with hj | hj
        · exact ⟨j, hj, b, hb⟩
        · rw [List.mem_singleton] at hj; subst hj; exact (not_traces_measures hT hb.1).elim
    · intro j hj
      rcases List.mem_append.mp hj with hj | hj
      · exact hi.supported j hj
      · rw [List.mem_singleton] at hj; subst hj; exact Or.inr (Or.inl ⟨b, hT⟩)
    · intro j hj a ha
      rcases List.mem_append.mp hj with hj | hj
      · exact hi.bone j hj a ha
      · rw [List.mem_singleton] at hj; subst hj; exact (not_traces_measures hT ha).elim
    · intro h0
      unfold newGain at hg
      rw [h0] at hg
      simp only [Except.ok.injEq] at hg
      show g = none
      rw [← hg]; exact hi.gnone h0
    · intro gs hgs j hj b' hb'
      have hpc : pc b.port b.clock = b.port ++ "-" ++ b.clock := rfl
      unfold newGain at hg
      rw [hgs, hpc] at hg
      simp only at hg
      cases hx : Dict.get? gs (b.port ++ "-" ++ b.clock) with
      | none => rw [hx] at hg; cases hg
      | some x =>
        rw [hx] at hg
        simp only at hg
        split at hg
        · cases hg
        rename_i hno
        have hg' : g = some x := (Except.ok.inj hg).symm
        subst hg'
        refine ⟨rfl, ?_⟩
        rcases List.mem_append.mp hj with hj | hj
        · obtain ⟨h1, h2⟩ := hi.gsome gs hgs j hj b' hb'
          show Dict.get? gs (b'.port ++ "-" ++ b'.clock) = some x
          rw [h2]
          by_contra hne'
          exact hno ⟨h1, hne'⟩
        · rw [List.mem_singleton] at hj; subst hj
          rw [traces_unique hb' hT]; exact hx
  · rw [hps] at hps'; cases hps'
    constructor
    · exact new_instr hi.instr
    · intro e he
      exact old_loc hi.instr (hi.tloc e he)
    · intro e he
      rcases mem_set he with rfl | ⟨he, _⟩
      · exact new_loc hne hi.instr
      · exact old_loc hi.instr (hi.bloc e he)
    · exact hi.tinj
    · intro e he e' he' hee
      rcases mem_set he with rfl | ⟨he, _⟩ <;> rcases mem_set he' with rfl | ⟨he', _⟩
      · rfl
      · have := loc_lt hi.instr (hi.bloc e' he').1; simp only at hee; omega
      · have := loc_lt hi.instr (hi.bloc e he).1; simp only at hee; omega
      · exact hi.binj e he e' he' hee
    · exact hi.tnodup
    · exact Dict.keys_set_nodup hi.bnodup _ _
    · intro ch
      show ch ∈ Dict.keys s.tmap ↔ _
      rw [hi.tkeys ch]
      constructor
      · rintro ⟨j, hj, b, hb⟩; exact ⟨j, by simp [hj], b, hb⟩
      · rintro ⟨j, hj, b, hb⟩
        rcases List.mem_append.mp hj with hj | hj
        · exact ⟨j, hj, b, hb⟩
        · rw [List.mem_singleton] at hj; subst hj; exact (not_traces_measures hb.1 hM).elim
    · intro ch m
      rw [Dict.mem_keys_set, hi.bkeys ch m]
      constructor
      · rintro (he | ⟨j, hj, b, hb⟩)
        rotate_left
        · exact ⟨j, by simp [hj], b, hb⟩
        · obtain ⟨rfl, rfl⟩ := Prod.mk.inj he
          exact ⟨i, by simp, a, hM, rfl, hn⟩
      · rintro ⟨j, hj, b', hb⟩
        rcases List.mem_append.mp hj with hj | hj
        · exact Or.inr ⟨j, hj, b', hb⟩
        · rw [List.mem_singleton] at hj; subst hj
          rw [measures_unique hb.1 hM] at hb
          left
          obtain ⟨_, h2, h3⟩ := hb
          rw [hn] at h3
          simp only [Option.some.injEq, Idx.one.injEq] at h3
          rw [h2, h3]
    · intro j hj
      rcases List.mem_append.mp hj with hj | hj
      · exact hi.supported j hj
      · rw [List.mem_singleton] at hj; subst hj; exact Or.inr (Or.inr ⟨a, hM⟩)
    · intro j hj a' ha
      rcases List.mem_append.mp hj with hj | hj
      · exact hi.bone j hj a' ha
      · rw [List.mem_singleton] at hj; subst hj; exact ⟨n, hn⟩
    · exact hi.gnone
    · intro g hg j hj b hb
      rcases List.mem_append.mp hj with hj | hj
      · exact hi.gsome g hg j hj b hb
      · rw [List.mem_singleton] at hj; subst hj; exact (not_traces_measures hb hM).elim

theorem cinv_loop [DecidableEq K] {cfg : Config K} {rate : Rat} {ps : List HwPort}
    {index : List ((AcqIndices.Label × Nat) × Idx)}
    (hps : readoutPorts cfg.readout = .ok ps) (hne : ps ≠ []) : ∀ (items P : List (Item Ch U K)) (s s' : CS Ch K),
    CInv cfg ps index P s → items.foldlM (step cfg rate index) s = .ok s' → CInv cfg ps index (P ++ items) s' := by
  intro items
  induction items with
  | nil =>
    intro P s s' hi h
    rw [FoldM.nil] at h
    cases h
    rwa [List.append_nil]
  | cons i items ih =>
    intro P s s' hi h
    obtain ⟨s1, h1, h2⟩ := (FoldM.ok_cons ..).mp h
    have := ih (P ++ [i]) s1 s' (cinv_step hps hne hi h1) h2
    rwa [List.append_assoc] at this

/-- The parts of a successful compilation. -/
theorem compile_ok [DecidableEq K] [One K] {cfg : Config K} {items : List (Item Ch U K)} {s : Settings Ch U K}
    (h : compile cfg items = .ok s) :
    ∃ st cs, AcqIndices.generate (.sched (toItems items)) = .ok st ∧ cfg.rate = some s.rate ∧
      items.foldlM (step cfg s.rate st.map) ⟨[], [], 0, [], [], none⟩ = .ok cs ∧
      s = ⟨cs.waves, cs.instrs, s.rate, cs.gain.getD 1, st.chans, cs.tmap, cs.bmap⟩ := by
  unfold compile at h
  split at h
  · cases h
  rename_i st hst
  split at h
  · cases h
  rename_i rate hr
  split at h
  · cases h
  rename_i cs hcs
  have := Except.ok.inj h
  subst this
  exact ⟨st, cs, hst, hr, hcs, rfl⟩

end Verif.MockRom
