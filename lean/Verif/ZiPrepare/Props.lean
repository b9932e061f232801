/-
Preparing, starting and stopping devices of Zurich Instruments.
-/
import Verif.ZiPrepare.UhNodes

set_option linter.unusedSimpArgs false
set_option linter.unusedVariables false

namespace Verif.ZiPrepare
open Spec

/-! ### The values that are sent -/

/-- What a setting sends: its node and value, unless its function does nothing. -/
def Sends (s : Settings) (n : Node) (v : Val) : Prop := Last (sent s.daq) n v

theorem reflects_apply (h : Hw) (s : Settings) (hn : (Dict.keys s.awg).Nodup) : Reflects s (doAll h s.acts) ∧
    ∀ a src, Dict.get? s.awg a = some src → Dict.get? (doAll h s.acts).progs a = some ⟨src, h.waves⟩ := by
  have hp : ∀ a src, Dict.get? s.awg a = some src → Dict.get? (doAll h s.acts).progs a = some ⟨src, h.waves⟩ := by
    intro a src ha
    rw [acts_progs]
    have hm := Dict.mem_of_get? ha
    obtain ⟨x, v, y, e1, e2⟩ := last_split s.awg a (List.mem_map_of_mem (f := Prod.fst) hm)
    have : v = src := by
      have := Dict.get?_of_mem hn (k := a) (v := v) (by rw [e1]; simp)
      rw [ha] at this
      exact (Option.some.inj this).symm
    subst this
    exact foldl_set_last s.awg h.progs (fun src => (⟨src, h.waves⟩ : Prog)) e1 e2
  refine ⟨⟨?_, fun a src ha => ⟨_, hp a src ha, rfl⟩⟩, hp⟩
  intro n v hl
  show Last (doAll h s.acts).writes n v
  rw [acts_writes]
  exact last_append hl

theorem build_nodup (b : Builder) : (Dict.keys b.build.awg).Nodup := foldl_nodup b.awg [] List.nodup_nil

/-- What is left after `prepare` returned that the device was configured. -/
theorem prepare_configured {f : Fault} {s : Settings} {c c' : Comp} (h : prepare f s c = (.configured, c')) :
    c'.hw = doAll c.hw s.acts ∧ c'.settings = some s ∧ c'.name = c.name ∧ c'.data = writeAll c.data (filesOf c.name s) := by
  unfold prepare at h
  by_cases hs : sameAs s c.settings = true
  · rw [if_pos hs] at h; cases h
  · rw [if_neg hs] at h
    simp only at h
    by_cases hw : (writeUntil f.file c.data (filesOf c.name s)).1 = true
    · rw [if_pos hw] at h; cases h
    · rw [if_neg hw] at h
      have hd : (writeUntil f.file c.data (filesOf c.name s)).2 = writeAll c.data (filesOf c.name s) := by
        unfold writeUntil at hw ⊢
        cases hf : f.file with
        | none => rfl
        | some k =>
          rw [hf] at hw
          simp only at hw ⊢
          by_cases hk : k < (filesOf c.name s).length
          · rw [if_pos hk] at hw; simp at hw
          · rw [if_neg hk]
      simp only [Prod.mk.injEq] at h
      obtain ⟨h1, h2⟩ := h
      by_cases hr : (doUntil f.apply c.hw s.acts).1 = true
      · rw [if_pos hr] at h1; cases h1
      · subst h2
        refine ⟨?_, rfl, rfl, hd⟩
        show (doUntil f.apply c.hw s.acts).2 = _
        unfold doUntil at hr ⊢
        cases hf : f.apply with
        | none => rfl
        | some k =>
          rw [hf] at hr
          simp only at hr ⊢
          by_cases hk : k < s.acts.length
          · rw [if_pos hk] at hr; simp at hr
          · rw [if_neg hk]

theorem prepare_skipped {f : Fault} {s : Settings} {c c' : Comp} (h : prepare f s c = (.skipped, c')) :
    c' = c ∧ ∃ old, c.settings = some old ∧ s.same old = true := by
  unfold prepare at h
  by_cases hs : sameAs s c.settings = true
  · rw [if_pos hs] at h
    cases h
    cases ho : c.settings with
    | none => rw [ho] at hs; cases hs
    | some old => rw [ho] at hs; exact ⟨rfl, old, rfl, hs⟩
  · rw [if_neg hs] at h
    simp only at h
    by_cases hw : (writeUntil f.file c.data (filesOf c.name s)).1 = true
    · rw [if_pos hw] at h; cases h
    · rw [if_neg hw] at h
      simp only [Prod.mk.injEq] at h
      obtain ⟨h1, h2⟩ := h
      split at h1 <;> cases h1

/-- Every node that the settings give a value has this value after the device was configured, all other nodes have the
values that they had; each AWG has its program, all others have the programs that they had. -/
theorem configured_values {f : Fault} {b : Builder} {c c' : Comp} (h : prepare f b.build c = (.configured, c')) :
    (∀ n v, Last ((b.daq.filter (fun d => d.fn ≠ .void)).map (fun d => (d.node, d.value))) n v → Shows c'.hw n v) ∧
    (∀ n, (∀ d ∈ b.daq, d.fn ≠ .void → ¬ Covers d.node n) → ∀ v, Shows c'.hw n v ↔ Shows c.hw n v) ∧
    (∀ x a src y, b.awg = x ++ (a, src) :: y → (∀ e ∈ y, e.1 ≠ a) → ∃ p, Runs c'.hw a p ∧ p.source = src) ∧
    (∀ a, (∀ e ∈ b.awg, e.1 ≠ a) → ∀ p, Runs c'.hw a p ↔ Runs c.hw a p) := by
  obtain ⟨h1, h2, h3, h4⟩ := prepare_configured h
  have hr := reflects_apply c.hw b.build (build_nodup b)
  rw [h1]
  refine ⟨hr.1.nodes, ?_, ?_, ?_⟩
  · intro n hn v
    unfold Shows
    rw [acts_writes]
    apply last_append_left
    intro e he
    obtain ⟨d, hd, h5, h6, _⟩ := mem_sent.1 he
    rw [← h6]
    exact hn d hd h5
  · intro x a src y hx hy
    apply hr.1.progs
    show Dict.get? (b.awg.foldl (fun d e => Dict.set d e.1 e.2) []) a = some src
    rw [foldl_set_get]
    refine ⟨x, y, hx, ?_⟩
    intro hm
    obtain ⟨e, he, e2⟩ := List.mem_map.1 hm
    exact hy e he e2
  · intro a ha p
    unfold Runs
    rw [acts_progs]
    have hk : a ∉ Dict.keys b.build.awg := by
      show a ∉ Dict.keys (b.awg.foldl (fun d e => Dict.set d e.1 e.2) [])
      rw [foldl_keys]
      rintro (hk | hk)
      · cases hk
      · obtain ⟨e, he, e2⟩ := List.mem_map.1 hk
        exact ha e he e2
    rw [foldl_set_of_not_mem b.build.awg c.hw.progs (fun src => (⟨src, c.hw.waves⟩ : Prog)) a hk]

/-! ### HDAWG -/

/-- Each AWG is used by one output, and each waveform has its own index. -/
structure HdValid (c : HdCfg) : Prop where
  outs : (c.outs.map HdOut.awg).Nodup
  waves : ∀ o ∈ c.outs, (o.waves.map Prod.fst).Nodup

/-- Whatever happened before, an HDAWG is configured if `prepare` returns that it configured it. -/
theorem hd_prepared {f : Fault} {cfg : HdCfg} {b : Builder} (hb : hdBuilder cfg = .ok b) (hv : HdValid cfg) {c c' : Comp}
    (h : prepare f b.build c = (.configured, c')) : HdConfigured cfg c'.hw := by
  obtain ⟨h1, _⟩ := prepare_configured h
  rw [h1]
  exact hd_configured hb (reflects_apply c.hw b.build (build_nodup b)).1 hv.outs hv.waves

/-- Histories of an HDAWG in which no `prepare` raises an exception (after the last one that configured the device), and
nothing else writes to the device. -/
inductive HdReach : Comp → Prop
  | fresh {c} : c.settings = none → HdReach c
  | configured {f cfg b c c'} : hdBuilder cfg = .ok b → prepare f b.build c = (.configured, c') → HdReach c'
  | prepare {f cfg b c c'} {o : Outcome} : HdReach c → hdBuilder cfg = .ok b → prepare f b.build c = (o, c') → o ≠ .raised →
      HdReach c'
  | start {c c'} : HdReach c → startHd c = some c' → HdReach c'
  | stop {c c'} : HdReach c → stopHd c = some c' → HdReach c'
  | files {c} (d : Dir) : HdReach c → HdReach { c with data := d }

theorem reflects_same {uh : Bool} {s t : Settings} (hs : Regular uh s) (ht : Regular uh t) (h : s.same t = true) {hw : Hw}
    (hr : Reflects t hw) : Reflects s hw :=
  ⟨fun n v hl => hr.nodes n v ((same_last hs ht h).1 hl), fun a src ha => hr.progs a src (by rw [← same_awg h a]; exact ha)⟩

theorem hdReach_inv {c : Comp} (h : HdReach c) : ∀ s, c.settings = some s → Regular false s ∧ Reflects s c.hw := by
  induction h with
  | fresh h => intro s hs; rw [h] at hs; cases hs
  | configured hb hp =>
    rename_i f cfg b c c'
    intro s hs
    obtain ⟨h1, h2, _⟩ := prepare_configured hp
    rw [h2] at hs
    cases hs
    exact ⟨hd_regular hb, by rw [h1]; exact (reflects_apply c.hw b.build (build_nodup b)).1⟩
  | prepare hr hb hp ho ih =>
    rename_i f cfg b c c' o
    intro s hs
    cases o with
    | raised => exact absurd rfl ho
    | skipped =>
      obtain ⟨rfl, _⟩ := prepare_skipped hp
      exact ih s hs
    | configured =>
      obtain ⟨h1, h2, _⟩ := prepare_configured hp
      rw [h2] at hs
      cases hs
      exact ⟨hd_regular hb, by rw [h1]; exact (reflects_apply c.hw b.build (build_nodup b)).1⟩
  | start hr hs ih =>
    intro s h
    unfold startHd at hs
    rw [Option.map_eq_some_iff] at hs
    obtain ⟨t, ht, rfl⟩ := hs
    obtain ⟨i1, i2⟩ := ih s h
    exact ⟨i1, ⟨i2.nodes, i2.progs⟩⟩
  | stop hr hs ih =>
    intro s h
    unfold stopHd at hs
    rw [Option.map_eq_some_iff] at hs
    obtain ⟨t, ht, rfl⟩ := hs
    obtain ⟨i1, i2⟩ := ih s h
    exact ⟨i1, ⟨i2.nodes, i2.progs⟩⟩
  | files d hr ih => exact ih

/-- After any such history, an HDAWG is configured when `prepare` returns, also if it skipped the configuration.  Missing:
histories in which a `prepare` failed (`retry_skipped`), or something else wrote to the device (`outside_kept`). -/
theorem hd_history_partial {c : Comp} (hc : HdReach c) {f : Fault} {cfg : HdCfg} {b : Builder} (hb : hdBuilder cfg = .ok b)
    (hv : HdValid cfg) {o : Outcome} {c' : Comp} (h : prepare f b.build c = (o, c')) (ho : o ≠ .raised) :
    HdConfigured cfg c'.hw := by
  cases o with
  | raised => exact absurd rfl ho
  | configured => exact hd_prepared hb hv h
  | skipped =>
    obtain ⟨rfl, old, h1, h2⟩ := prepare_skipped h
    obtain ⟨i1, i2⟩ := hdReach_inv hc old h1
    exact hd_configured hb (reflects_same (hd_regular hb) i1 h2 i2) hv.outs hv.waves

/-- A configuration that is accepted has gains of at least -1 and a valid divisor of the clock. -/
theorem hd_accepted {cfg : HdCfg} {b : Builder} (hb : hdBuilder cfg = .ok b) :
    (∀ o ∈ cfg.outs, -1 ≤ o.gain1 ∧ -1 ≤ o.gain2) ∧ (0 < cfg.awgs → cfg.clock ≤ 13) := by
  unfold hdBuilder at hb
  cases h1 : withTimes cfg.clock (List.range cfg.awgs) with
  | error e => rw [h1] at hb; cases hb
  | ok times =>
    rw [h1] at hb
    simp only at hb
    cases h2 : outputDaqs cfg.outs with
    | error e => rw [h2] at hb; cases hb
    | ok outs =>
      constructor
      · clear hb h1
        generalize cfg.outs = l at h2
        induction l generalizing outs with
        | nil => simp
        | cons o l ih =>
          rw [outputDaqs] at h2
          unfold withGain at h2
          by_cases hg : o.gain1 < -1 ∨ o.gain2 < -1
          · rw [if_pos hg] at h2; cases h2
          · rw [if_neg hg] at h2
            simp only at h2
            cases hr : outputDaqs l with
            | error e => rw [hr] at h2; cases h2
            | ok m =>
              intro p hp
              rcases List.mem_cons.1 hp with rfl | hp
              · exact ⟨not_lt.1 (fun h => hg (Or.inl h)), not_lt.1 (fun h => hg (Or.inr h))⟩
              · exact ih m hr p hp
      · intro ha
        obtain ⟨n, hn⟩ : ∃ n, cfg.awgs = n + 1 := ⟨cfg.awgs - 1, by omega⟩
        rw [hn, List.range_succ_eq_map, withTimes] at h1
        unfold withTime at h1
        by_cases h14 : 14 ≤ cfg.clock
        · rw [if_pos h14] at h1; cases h1
        · omega

theorem hd_indexes {cfg : HdCfg} {b : Builder} (hb : hdBuilder cfg = .ok b) (hv : HdValid cfg) :
    b.build.indexes = cfg.outs.map HdOut.awg := by
  obtain ⟨C, _, _, h3⟩ := hdBuilder_daq hb
  show Dict.keys (b.awg.foldl (fun d e => Dict.set d e.1 e.2) []) = _
  rw [h3]
  have gen : ∀ (l : List HdOut) (d : List (Nat × String)), (l.map HdOut.awg).Nodup → (∀ o ∈ l, o.awg ∉ Dict.keys d) →
      Dict.keys ((l.map (fun o => (o.awg, o.seqc))).foldl (fun d e => Dict.set d e.1 e.2) d) = Dict.keys d ++ l.map HdOut.awg := by
    intro l
    induction l with
    | nil => simp
    | cons o l ih =>
      intro d hn hd
      rw [List.map_cons, List.nodup_cons] at hn
      rw [List.map_cons, List.foldl_cons, ih _ hn.2]
      · rw [Dict.keys_set, if_neg (hd o (List.mem_cons_self ..))]
        simp
      · intro p hp
        rw [Dict.mem_keys_set]
        rintro (h | h)
        · have h' : p.awg = o.awg := h
          exact hn.1 (by rw [← h']; exact List.mem_map_of_mem hp)
        · exact hd p (List.mem_cons_of_mem _ hp) h
  have := gen cfg.outs [] hv.outs (by simp [Dict.keys])
  simpa [Dict.keys] using this

theorem start_running (l : List Nat) (r : List Nat) (hl : l.Nodup) (hr : ∀ a ∈ l, a ∉ r) :
    l.foldl (fun r a => r.erase a ++ [a]) r = r ++ l := by
  induction l generalizing r with
  | nil => simp
  | cons a l ih =>
    rw [List.nodup_cons] at hl
    rw [List.foldl_cons, List.erase_of_not_mem (hr a (List.mem_cons_self ..)), ih _ hl.2]
    · simp
    · intro b hb hm
      rcases List.mem_append.1 hm with hm | hm
      · exact hr b (List.mem_cons_of_mem _ hb) hm
      · simp at hm
        subst hm
        exact hl.1 hb

/-- `start` runs exactly the AWGs that are used, the first one last. -/
theorem start_order {cfg : HdCfg} {b : Builder} (hb : hdBuilder cfg = .ok b) (hv : HdValid cfg) {c c' : Comp}
    (hc : c.settings = some b.build) (hr : c.hw.running = []) (h : startHd c = some c') :
    c'.hw.running = (cfg.outs.map HdOut.awg).reverse := by
  unfold startHd at h
  rw [hc] at h
  simp only [Option.map_some, Option.some.injEq] at h
  subst h
  show b.build.indexes.reverse.foldl _ c.hw.running = _
  rw [hr, hd_indexes hb hv, start_running _ _ (List.nodup_reverse.2 hv.outs) (by simp)]
  simp

/-- `stop` stops all AWGs of the configuration. -/
theorem stop_stops {cfg : HdCfg} {b : Builder} (hb : hdBuilder cfg = .ok b) (hv : HdValid cfg) {c c' : Comp}
    (hc : c.settings = some b.build) (h : stopHd c = some c') :
    (∀ o ∈ cfg.outs, o.awg ∉ c'.hw.running) ∧ (∀ a, a ∈ c'.hw.running ↔ a ∈ c.hw.running ∧ ∀ o ∈ cfg.outs, o.awg ≠ a) := by
  unfold stopHd at h
  rw [hc] at h
  simp only [Option.map_some, Option.some.injEq] at h
  subst h
  have hk : ∀ a, a ∈ c.hw.running.filter (fun a => a ∉ b.build.indexes) ↔
      a ∈ c.hw.running ∧ ∀ o ∈ cfg.outs, o.awg ≠ a := by
    intro a
    rw [List.mem_filter, hd_indexes hb hv]
    simp only [decide_eq_true_eq, List.mem_map, not_exists, not_and]
  refine ⟨?_, hk⟩
  intro o ho hm
  exact ((hk _).1 hm).2 o ho rfl

/-- `prepare` neither starts nor stops an AWG. -/
theorem prepare_running (f : Fault) (s : Settings) (c : Comp) : (prepare f s c).2.hw.running = c.hw.running := by
  unfold prepare
  split
  · rfl
  · simp only
    split
    · rfl
    · show (doUntil f.apply c.hw s.acts).2.running = _
      unfold doUntil
      split
      · split
        · exact (acts_rest _ _).2
        · exact (acts_rest _ _).2
      · exact (acts_rest _ _).2

end Verif.ZiPrepare
