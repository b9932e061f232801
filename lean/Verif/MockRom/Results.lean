/-
C80: execution on the mock readout module, and the results.
-/
import Verif.MockRom.Props

set_option linter.unusedSimpArgs false
set_option linter.unusedVariables false
set_option linter.unusedSectionVars false

namespace Verif.MockRom

open Verif.AcqIndices (Info Coord Coords Data Idx BinMode)

variable {Ch U K : Type} [DecidableEq Ch]

/-! ### Execution -/

/-- The data after the instructions `Q`: `g` is the number of the draw at a location. -/
structure EInv [Mul K] (rom : Rom K) (draws : Nat → K) (Q : List Instr) (g : Nat → Nat)
    (d : List (Int × Res K) × Nat) : Prop where
  tr : ∀ l : Nat, (∃ i ∈ Q, i.loc = l) → (∀ i ∈ Q, i.loc = l → i.trace = true) →
    ∃ t, traceWaves (stride rom.rate) rom.gain (rom.waves.map Prod.snd) = .ok t ∧
      Dict.get? d.1 (l : Int) = some (.traces t)
  val : ∀ l : Nat, (∃ i ∈ Q, i.loc = l) → (∀ i ∈ Q, i.loc = l → i.trace = false) →
    Dict.get? d.1 (l : Int) = some (.value (draws (g l)))
  lt : ∀ l : Nat, (∃ i ∈ Q, i.loc = l ∧ i.trace = false) → g l < d.2
  inj : ∀ l l' : Nat, (∃ i ∈ Q, i.loc = l ∧ i.trace = false) → (∃ i ∈ Q, i.loc = l' ∧ i.trace = false) →
    g l = g l' → l = l'

theorem einv_step [Mul K] {rom : Rom K} {draws : Nat → K} {Q : List Instr} {g : Nat → Nat}
    {d d' : List (Int × Res K) × Nat} {i : Instr} (hi : i.port.second = none ∧ i.port.trace = false)
    (h : EInv rom draws Q g d) (hs : execOne rom draws d i = .ok d') :
    ∃ g', EInv rom draws (Q ++ [i]) g' d' := by
  have hloc : location i = .ok (i.loc : Int) := by unfold location; rw [hi.1]
  unfold execOne at hs
  rw [hloc, hi.2] at hs
  simp only [Bool.or_false] at hs
  have hcast : ∀ l : Nat, l ≠ i.loc → (l : Int) ≠ (i.loc : Int) := fun l hl hc => hl (Int.ofNat_inj.mp hc)
  cases ht : i.trace with
  | true =>
    rw [ht] at hs
    simp only [if_true] at hs
    cases hw : traceWaves (stride rom.rate) rom.gain (rom.waves.map Prod.snd) with
    | error e => rw [hw] at hs; cases hs
    | ok t =>
      rw [hw] at hs
      have := Except.ok.inj hs
      subst this
      refine ⟨g, ?_, ?_, ?_, ?_⟩
      · intro l hl hall
        refine ⟨t, hw, ?_⟩
        by_cases hli : l = i.loc
        · subst hli; exact Dict.get?_set_self ..
        · show Dict.get? (Dict.set d.1 (i.loc : Int) (.traces t)) (l : Int) = _
          rw [Dict.get?_set_ne _ _ (hcast l hli)]
          obtain ⟨j, hj, hjl⟩ := hl
          have hjQ : j ∈ Q := by
            rcases List.mem_append.mp hj with hj | hj
            · exact hj
            · rw [List.mem_singleton] at hj; subst hj; exact absurd hjl.symm hli
          obtain ⟨t', h1, h2⟩ := h.tr l ⟨j, hjQ, hjl⟩ (fun k hk => hall k (List.mem_append_left _ hk))
          rw [hw] at h1
          cases h1
          exact h2
      · intro l hl hall
        have hli : l ≠ i.loc := by
          intro hc
          have := hall i (by simp) hc.symm
          rw [ht] at this; cases this
        show Dict.get? (Dict.set d.1 (i.loc : Int) (.traces t)) (l : Int) = _
        rw [Dict.get?_set_ne _ _ (hcast l hli)]
        obtain ⟨j, hj, hjl⟩ := hl
        have hjQ : j ∈ Q := by
          rcases List.mem_append.mp hj with hj | hj
          · exact hj
          · rw [List.mem_singleton] at hj; subst hj; exact absurd hjl.symm hli
        exact h.val l ⟨j, hjQ, hjl⟩ (fun k hk => hall k (List.mem_append_left _ hk))
      · rintro l ⟨j, hj, hjl, hjt⟩
        rcases List.mem_append.mp hj with hj | hj
        · exact h.lt l ⟨j, hj, hjl, hjt⟩
        · rw [List.mem_singleton] at hj; subst hj; rw [ht] at hjt; cases hjt
      · have key : ∀ l : Nat, (∃ j ∈ Q ++ [i], j.loc = l ∧ j.trace = false) →
            ∃ j ∈ Q, j.loc = l ∧ j.trace = false := by
          rintro l ⟨j, hj, hjl, hjt⟩
          rcases List.mem_append.mp hj with hj | hj
          · exact ⟨j, hj, hjl, hjt⟩
          · rw [List.mem_singleton] at hj; subst hj; rw [ht] at hjt; cases hjt
        intro l l' hl hl' hg
        exact h.inj l l' (key l hl) (key l' hl') hg
  | false =>
    rw [ht] at hs
    simp only [Bool.false_eq_true, if_false] at hs
    have := Except.ok.inj hs
    subst this
    have key : ∀ l : Nat, l ≠ i.loc → (∃ j ∈ Q ++ [i], j.loc = l ∧ j.trace = false) →
        ∃ j ∈ Q, j.loc = l ∧ j.trace = false := by
      rintro l hli ⟨j, hj, hjl, hjt⟩
      rcases List.mem_append.mp hj with hj | hj
      · exact ⟨j, hj, hjl, hjt⟩
      · rw [List.mem_singleton] at hj; subst hj; exact absurd hjl.symm hli
    refine ⟨fun l => if l = i.loc then d.2 else g l, ?_, ?_, ?_, ?_⟩
    · intro l hl hall
      have hli : l ≠ i.loc := by
        intro hc
        have := hall i (by simp) hc.symm
        rw [ht] at this; cases this
      show ∃ t, _ ∧ Dict.get? (Dict.set d.1 (i.loc : Int) (.value (draws d.2))) (l : Int) = _
      rw [Dict.get?_set_ne _ _ (hcast l hli)]
      obtain ⟨j, hj, hjl⟩ := hl
      have hjQ : j ∈ Q := by
        rcases List.mem_append.mp hj with hj | hj
        · exact hj
        · rw [List.mem_singleton] at hj; subst hj; exact absurd hjl.symm hli
      exact h.tr l ⟨j, hjQ, hjl⟩ (fun k hk => hall k (List.mem_append_left _ hk))
    · intro l hl hall
      by_cases hli : l = i.loc
      · subst hli
        simp only [if_true]
        exact Dict.get?_set_self ..
      · show Dict.get? (Dict.set d.1 (i.loc : Int) (.value (draws d.2))) (l : Int) = _
        rw [Dict.get?_set_ne _ _ (hcast l hli)]
        simp only [hli, if_false]
        obtain ⟨j, hj, hjl⟩ := hl
        have hjQ : j ∈ Q := by
          rcases List.mem_append.mp hj with hj | hj
          · exact hj
          · rw [List.mem_singleton] at hj; subst hj; exact absurd hjl.symm hli
        exact h.val l ⟨j, hjQ, hjl⟩ (fun k hk => hall k (List.mem_append_left _ hk))
    · intro l hl
      show (if l = i.loc then d.2 else g l) < d.2 + 1
      by_cases hli : l = i.loc
      · simp [hli]
      · simp only [hli, if_false]
        have := h.lt l (key l hli hl)
        omega
    · intro l l' hl hl' hg
      by_cases hli : l = i.loc <;> by_cases hli' : l' = i.loc
      · rw [hli, hli']
      · simp only [hli, hli', if_true, if_false] at hg
        have := h.lt l' (key l' hli' hl'); omega
      · simp only [hli, hli', if_true, if_false] at hg
        have := h.lt l (key l hli hl); omega
      · simp only [hli, hli', if_false] at hg
        exact h.inj l l' (key l hli hl) (key l' hli' hl') hg

theorem einv_loop [Mul K] {rom : Rom K} {draws : Nat → K} : ∀ (is Q : List Instr) (g : Nat → Nat)
    (d d' : List (Int × Res K) × Nat), (∀ i ∈ is, i.port.second = none ∧ i.port.trace = false) →
    EInv rom draws Q g d → is.foldlM (execOne rom draws) d = .ok d' → ∃ g', EInv rom draws (Q ++ is) g' d' := by
  intro is
  induction is with
  | nil =>
    intro Q g d d' _ h hs
    rw [FoldM.nil] at hs
    cases hs
    exact ⟨g, by rwa [List.append_nil]⟩
  | cons i is ih =>
    intro Q g d d' hp h hs
    obtain ⟨d1, h1, h2⟩ := (FoldM.ok_cons ..).mp hs
    obtain ⟨g1, h3⟩ := einv_step (hp i (List.mem_cons_self ..)) h h1
    obtain ⟨g2, h4⟩ := ih (Q ++ [i]) g1 d1 d' (fun j hj => hp j (List.mem_cons_of_mem _ hj)) h3 h2
    exact ⟨g2, by rwa [List.append_assoc] at h4⟩

theorem execute_ok [Mul K] {rom rom' : Rom K} {draws : Nat → K}
    (hp : ∀ i ∈ rom.instrs, i.port.second = none ∧ i.port.trace = false) (h : execute rom draws = .ok rom') :
    ∃ g d, EInv rom draws rom.instrs g d ∧ rom' = { rom with data := d.1 } := by
  unfold execute at h
  split at h
  · cases h
  split at h
  · cases h
  rename_i d hd
  obtain ⟨g, hg⟩ := einv_loop rom.instrs [] (fun _ => 0) ([], 0) d hp
    (by constructor <;> simp) hd
  exact ⟨g, d, by simpa using hg, (Except.ok.inj h).symm⟩

/-! ### Retrieval -/

theorem traces_loop {data : List (Int × Res K)} {acq : List (Ch × Data U)} : ∀ (l : List (Ch × Nat))
    (ds ds' : DS Ch U K), (Dict.keys l).Nodup → l.foldlM (getTrace data acq) ds = .ok ds' →
    ds'.bins = ds.bins ∧ (∀ ch, ch ∉ Dict.keys l → Dict.get? ds'.traces ch = Dict.get? ds.traces ch) ∧
    ∀ e ∈ l, ∃ x y rest, Dict.get? data (e.2 : Int) = some (.traces (x :: y :: rest)) ∧
      Dict.get? ds'.traces e.1 = some (x.zip y, none) := by
  intro l
  induction l with
  | nil => intro ds ds' _ h; rw [FoldM.nil] at h; cases h; simp
  | cons e l ih =>
    intro ds ds' hn h
    obtain ⟨d1, h1, h2⟩ := (FoldM.ok_cons ..).mp h
    have hn' : e.1 ∉ Dict.keys l ∧ (Dict.keys l).Nodup := by
      simpa [Dict.keys, List.nodup_cons] using hn
    obtain ⟨i1, i2, i3⟩ := ih d1 ds' hn'.2 h2
    have hd : ∃ x y rest, Dict.get? data (e.2 : Int) = some (.traces (x :: y :: rest)) ∧
        d1 = { ds with traces := Dict.set ds.traces e.1 (x.zip y, none) } := by
      unfold getTrace at h1
      cases ha : Dict.get? acq e.1 with
      | none => rw [ha] at h1; cases h1
      | some a =>
        rw [ha] at h1
        simp only at h1
        split at h1
        · cases h1
        cases hg : Dict.get? data (e.2 : Int) with
        | none => rw [hg] at h1; cases h1
        | some r =>
          rw [hg] at h1
          cases r with
          | value v => cases h1
          | traces t =>
            cases t with
            | nil => cases h1
            | cons x t =>
              cases t with
              | nil => cases h1
              | cons y rest =>
                simp only at h1
                cases hc : a.coords with
                | list l => rw [hc] at h1; cases h1
                | dict u =>
                  rw [hc] at h1
                  exact ⟨x, y, rest, rfl, (Except.ok.inj h1).symm⟩
    obtain ⟨x, y, rest, hx, rfl⟩ := hd
    refine ⟨i1, ?_, ?_⟩
    · intro ch hch
      have : ch ≠ e.1 ∧ ch ∉ Dict.keys l := by simpa [Dict.keys] using hch
      rw [i2 ch this.2]
      exact Dict.get?_set_ne _ _ this.1
    · intro e' he'
      rcases List.mem_cons.mp he' with rfl | he'
      · refine ⟨x, y, rest, hx, ?_⟩
        rw [i2 _ hn'.1]
        exact Dict.get?_set_self ..
      · exact i3 e' he'

theorem bins_loop {data : List (Int × Res K)} {acq : List (Ch × Data U)} : ∀ (l : List ((Ch × Nat) × Nat))
    (ds ds' : DS Ch U K), (Dict.keys l).Nodup → l.foldlM (getBin data acq) ds = .ok ds' →
    ds'.traces = ds.traces ∧ (∀ k, k ∉ Dict.keys l → Dict.get? ds'.bins k = Dict.get? ds.bins k) ∧
    ∀ e ∈ l, ∃ v a m c, Dict.get? data (e.2 : Int) = some (.value v) ∧ Dict.get? acq e.1.1 = some a ∧
      a.coords = .list m ∧ m[e.1.2]? = some c ∧ Dict.get? ds'.bins e.1 = some (v, c) := by
  intro l
  induction l with
  | nil => intro ds ds' _ h; rw [FoldM.nil] at h; cases h; simp
  | cons e l ih =>
    intro ds ds' hn h
    obtain ⟨d1, h1, h2⟩ := (FoldM.ok_cons ..).mp h
    have hn' : e.1 ∉ Dict.keys l ∧ (Dict.keys l).Nodup := by
      simpa [Dict.keys, List.nodup_cons] using hn
    obtain ⟨i1, i2, i3⟩ := ih d1 ds' hn'.2 h2
    have hd : ∃ v a m c, Dict.get? data (e.2 : Int) = some (.value v) ∧ Dict.get? acq e.1.1 = some a ∧
        a.coords = .list m ∧ m[e.1.2]? = some c ∧
        d1 = { ds with bins := Dict.set ds.bins e.1 (v, c) } := by
      unfold getBin at h1
      cases ha : Dict.get? acq e.1.1 with
      | none => rw [ha] at h1; cases h1
      | some a =>
        rw [ha] at h1
        simp only at h1
        split at h1
        · cases h1
        cases hg : Dict.get? data (e.2 : Int) with
        | none => rw [hg] at h1; cases h1
        | some r =>
          rw [hg] at h1
          cases r with
          | traces t => cases h1
          | value v =>
            simp only at h1
            cases hc : a.coords with
            | dict l => rw [hc] at h1; cases h1
            | list m =>
              rw [hc] at h1
              simp only at h1
              cases hm : m[e.1.2]? with
              | none => rw [hm] at h1; cases h1
              | some c =>
                rw [hm] at h1
                exact ⟨v, a, m, c, rfl, rfl, hc, hm, (Except.ok.inj h1).symm⟩
    obtain ⟨v, a, m, c, hx, ha, hc, hm, rfl⟩ := hd
    refine ⟨i1, ?_, ?_⟩
    · intro k hk
      have : k ≠ e.1 ∧ k ∉ Dict.keys l := by simpa [Dict.keys] using hk
      rw [i2 k this.2]
      exact Dict.get?_set_ne _ _ this.1
    · intro e' he'
      rcases List.mem_cons.mp he' with rfl | he'
      · refine ⟨v, a, m, c, hx, ha, hc, hm, ?_⟩
        rw [i2 _ hn'.1]
        exact Dict.get?_set_self ..
      · exact i3 e' he'

/-- Everything about a successful measurement at once. -/
theorem measured [DecidableEq K] [One K] [Mul K] {cfg : Config K} {items : List (Item Ch U K)}
    {s : Settings Ch U K} {st : AcqIndices.St Ch U} {c : Comp Ch U K} {draws : Nat → K} {ds : DS Ch U K}
    (hp : PlainPorts cfg) (hst : AcqIndices.generate (.sched (toItems items)) = .ok st)
    (hs : compile cfg items = .ok s) (h : measure c s draws = .ok ds) :
    ∃ (j : Ch × Nat → Nat),
      (∀ k k', k ∈ Dict.keys ds.bins → k' ∈ Dict.keys ds.bins → j k = j k' → k = k') ∧
      (∀ ch n, (ch, n) ∈ Dict.keys ds.bins ↔ ∃ i ∈ items, ∃ a, Measures i a ∧ a.ch = ch ∧
        Dict.get? st.map ([some i.name], 0) = some (.one n)) ∧
      (∀ ch n v co, Dict.get? ds.bins (ch, n) = some (v, co) → v = draws (j (ch, n)) ∧
        ∃ a m, Dict.get? st.chans ch = some a ∧ a.coords = .list m ∧ m[n]? = some co) ∧
      (∀ ch, ch ∈ Dict.keys ds.traces ↔ ∃ i ∈ items, ∃ b, Traces i b ∧ b.info.ch = ch) ∧
      (∀ ch t u, Dict.get? ds.traces ch = some (t, u) → u = none ∧ ∃ x y rest,
        traceWaves (stride s.rate) s.gain (s.waves.map Prod.snd) = .ok (x :: y :: rest) ∧ t = x.zip y) := by
  obtain ⟨ps, hps, hne, hpp⟩ := readoutPorts_plain hp
  obtain ⟨st', cs, h1, h2, h3, h4⟩ := compile_ok hs
  rw [hst] at h1
  cases h1
  have hci := cinv_loop hps hne items [] _ cs (cinv_init cfg ps st.map) h3
  rw [List.nil_append] at hci
  unfold measure at h
  split at h
  · cases h
  rename_i c' hc'
  unfold start at hc'
  split at hc'
  · cases hc'
  rename_i rom' hrom'
  have hc'' := (Except.ok.inj hc').symm
  have hports : ∀ i ∈ (prepare c s).rom.instrs, i.port.second = none ∧ i.port.trace = false := by
    intro i hi
    have hi' : i ∈ cs.instrs := by
      have : (prepare c s).rom.instrs = s.instrs := rfl
      rw [this, h4] at hi
      exact hi
    exact hpp _ (hci.instr i hi').2
  obtain ⟨g, d, he, hr⟩ := execute_ok hports hrom'
  have hinst : (prepare c s).rom.instrs = cs.instrs := by
    have : (prepare c s).rom.instrs = s.instrs := rfl
    rw [this, h4]
  rw [hinst] at he
  have hdata : c'.rom.data = d.1 := by rw [hc'', hr]
  have htm : c'.tmap = cs.tmap := by
    rw [hc'']; show s.tmap = _; rw [h4]
  have hbm : c'.bmap = cs.bmap := by
    rw [hc'']; show s.bmap = _; rw [h4]
  have hac : c'.acq = some st.chans := by
    rw [hc'']; show some s.acq = _; rw [h4]
  unfold retrieve at h
  rw [hac, htm, hbm, hdata] at h
  simp only at h
  split at h
  · cases h
  rename_i ds1 hds1
  obtain ⟨t1, t2, t3⟩ := traces_loop cs.tmap _ ds1 hci.tnodup hds1
  obtain ⟨b1, b2, b3⟩ := bins_loop cs.bmap ds1 ds hci.bnodup h
  have hbk : ∀ k, k ∈ Dict.keys ds.bins ↔ k ∈ Dict.keys cs.bmap := by
    intro k
    constructor
    · intro hk
      by_contra hno
      have := b2 k hno
      rw [t1] at this
      rw [← Dict.get?_isSome_iff, this] at hk
      simp [Dict.get?_nil] at hk
    · intro hk
      obtain ⟨e, he', rfl⟩ := List.mem_map.mp hk
      obtain ⟨v, a, m, co, _, _, _, _, h6⟩ := b3 e he'
      rw [← Dict.get?_isSome_iff, h6]; rfl
  have htk : ∀ k, k ∈ Dict.keys ds.traces ↔ k ∈ Dict.keys cs.tmap := by
    intro k
    rw [b1]
    constructor
    · intro hk
      by_contra hno
      have := t2 k hno
      rw [← Dict.get?_isSome_iff, this] at hk
      simp [Dict.get?_nil] at hk
    · intro hk
      obtain ⟨e, he', rfl⟩ := List.mem_map.mp hk
      obtain ⟨x, y, rest, _, h6⟩ := t3 e he'
      rw [← Dict.get?_isSome_iff, h6]; rfl
  have hloc : ∀ k, k ∈ Dict.keys cs.bmap → ∃ l, Dict.get? cs.bmap k = some l ∧ (k, l) ∈ cs.bmap := by
    intro k hk
    rw [← Dict.get?_isSome_iff] at hk
    obtain ⟨l, hl⟩ := Option.isSome_iff_exists.mp hk
    exact ⟨l, hl, Dict.mem_of_get? hl⟩
  have hnt : ∀ k l, (k, l) ∈ cs.bmap → ∃ i ∈ cs.instrs, i.loc = l ∧ i.trace = false := by
    intro k l hkl
    obtain ⟨⟨i, h5, h6⟩, h7⟩ := hci.bloc _ hkl
    exact ⟨i, h5, h6, h7 i h5 h6⟩
  refine ⟨fun k => match Dict.get? cs.bmap k with | some l => g l | none => 0, ?_, ?_, ?_, ?_, ?_⟩
  · intro k k' hk hk' hj
    obtain ⟨l, hl, hm⟩ := hloc k ((hbk k).mp hk)
    obtain ⟨l', hl', hm'⟩ := hloc k' ((hbk k').mp hk')
    simp only [hl, hl'] at hj
    have hll := he.inj l l' (hnt k l hm) (hnt k' l' hm') hj
    exact hci.binj _ hm _ hm' hll
  · intro ch n
    rw [hbk]; exact hci.bkeys ch n
  · intro ch n v co hv
    have hk : (ch, n) ∈ Dict.keys ds.bins := by rw [← Dict.get?_isSome_iff, hv]; rfl
    obtain ⟨l, hl, hm⟩ := hloc _ ((hbk _).mp hk)
    obtain ⟨v', a, m, co', h5, h6, h7, h8, h9⟩ := b3 _ hm
    simp only at h5 h6 h7 h8 h9
    rw [hv] at h9
    simp only [Option.some.injEq, Prod.mk.injEq] at h9
    obtain ⟨rfl, rfl⟩ := h9
    obtain ⟨q1, q2⟩ := hci.bloc _ hm
    have := he.val l q1 q2
    rw [h5] at this
    simp only [Option.some.injEq, Res.value.injEq] at this
    exact ⟨by simp only [hl]; exact this, a, m, h6, h7, h8⟩
  · intro ch
    rw [htk]; exact hci.tkeys ch
  · intro ch t u ht
    have hk : ch ∈ Dict.keys ds.traces := by rw [← Dict.get?_isSome_iff, ht]; rfl
    have hk' := (htk ch).mp hk
    obtain ⟨e, he', rfl⟩ := List.mem_map.mp hk'
    obtain ⟨x, y, rest, h5, h6⟩ := t3 e he'
    rw [b1] at ht
    rw [ht] at h6
    simp only [Option.some.injEq, Prod.mk.injEq] at h6
    obtain ⟨rfl, rfl⟩ := h6
    refine ⟨rfl, x, y, rest, ?_, rfl⟩
    obtain ⟨q1, q2⟩ := hci.tloc _ he'
    obtain ⟨t', q3, q4⟩ := he.tr e.2 q1 q2
    rw [h5] at q4
    simp only [Option.some.injEq, Res.traces.injEq] at q4
    rw [q4]
    exact q3

end Verif.MockRom
