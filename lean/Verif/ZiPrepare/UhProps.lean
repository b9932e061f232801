/-
Preparing a UHFQA.
-/
import Verif.ZiPrepare.Props

set_option linter.unusedSimpArgs false
set_option linter.unusedVariables false

namespace Verif.ZiPrepare
open Spec

/-- The node that enables results. -/
abbrev enableNode : Node := [.name "qas", .index 0, .name "result", .name "enable"]

/-- The node that resets results. -/
abbrev resetNode : Node := [.name "qas", .index 0, .name "result", .name "reset"]

/-- The settings of a UHFQA leave results enabled and reset. -/
theorem uh_enable {c : UhCfg} {b : Builder} (hb : uhBuilder c = .ok b) {v : Val} :
    (Last (sent b.daq) enableNode v → v = .num 1) ∧ (Last (sent b.daq) resetNode v → v = .num 1) ∧
    (c.acq = none → Misses (sent b.daq) enableNode) := by
  obtain ⟨h1, _, _, _⟩ := uhBuilder_sent hb
  have hm : Misses (uhWild ++ (uhOuts c.clock ++ (uhZeros ++ (uhOffsets c.offI c.offQ ++
        (sent (c.monitors.flatMap monitorDaqs) ++ uhWeights c.weights))))) enableNode := by
    simp only [misses_append]
    refine ⟨?_, ?_, ?_, ?_, ?_, ?_⟩
    · simp [uhWild, misses_cons, misses_nil, covers_cons, covers_nil]
    all_goals far
  have e1 : sent b.daq = (uhWild ++ (uhOuts c.clock ++ (uhZeros ++ (uhOffsets c.offI c.offQ ++
        (sent (c.monitors.flatMap monitorDaqs) ++ uhWeights c.weights))))) ++ (uhAcq c.acq ++ uhResets) := by
    rw [h1]; simp only [List.append_assoc]
  have hn : c.acq = none → Misses (sent b.daq) enableNode := by
    intro hq
    rw [e1, hq]
    refine misses_append.2 ⟨hm, ?_⟩
    simp [uhAcq, uhResets, misses_cons, misses_nil, covers_cons, covers_nil]
  refine ⟨?_, ?_, hn⟩
  · intro hl
    cases hq : c.acq with
    | none =>
      obtain ⟨p, h2, h3⟩ := last_mem hl
      exact absurd h3 (hn hq _ h2)
    | some q =>
      obtain ⟨x, y, z⟩ := q
      refine last_unique hl ?_
      rw [e1, hq]
      apply last_append
      apply last_left (by far)
      iterate 8 apply last_cons_right
      exact last_cons_left (by far) rfl (covers_self _)
  · intro hl
    refine last_unique hl ?_
    rw [e1]
    apply last_append
    apply last_append
    exact last_cons_right (last_cons_left (by far) rfl (covers_self _))

/-! ### Files -/

theorem waveOf_eq {n : Node} {a w : Nat} (h : waveOf n = some (a, w)) : n = waveNode a w := by
  unfold waveOf at h
  split at h
  · cases h; rfl
  · cases h

/-- The file of a waveform has its samples. -/
theorem files_written {name : String} {s : Settings} {d : Dir} {a w : Nat} {v : Val}
    (h : Dict.get? s.dict (waveNode a w) = some v) : Dict.get? (writeAll d (filesOf name s)) ⟨name, a, w⟩ = some (csv v) := by
  have hd : s.dict = (s.daq.map (fun d => (d.node, d.value))).foldl (fun d e => Dict.set d e.1 e.2) [] := by
    unfold Settings.dict; rw [List.foldl_map]
  rw [hd, foldl_set_get] at h
  obtain ⟨x, y, h1, h2⟩ := h
  have hf : filesOf name s = (s.daq.map (fun d => (d.node, d.value))).filterMap
      (fun e => (waveOf e.1).map (fun p => ((⟨name, p.1, p.2⟩ : File), csv e.2))) := by
    unfold filesOf; rw [List.filterMap_map]; rfl
  rw [hf, h1, List.filterMap_append, List.filterMap_cons]
  unfold writeAll
  refine foldl_set_last (V := List (Rat × Rat)) (W := List (Rat × Rat)) _ d id (a := x.filterMap (fun e => (waveOf e.1).map (fun p => ((⟨name, p.1, p.2⟩ : File), csv e.2)))) (b := y.filterMap (fun e => (waveOf e.1).map (fun p => ((⟨name, p.1, p.2⟩ : File), csv e.2)))) (k := ⟨name, a, w⟩) (v := csv v) rfl ?_
  intro hm
  obtain ⟨e, he, e2⟩ := List.mem_map.1 hm
  obtain ⟨z, hz, hz2⟩ := List.mem_filterMap.1 he
  rw [Option.map_eq_some_iff] at hz2
  obtain ⟨p, hp, rfl⟩ := hz2
  simp only [File.mk.injEq, true_and] at e2
  apply h2
  have : waveOf z.1 = some (a, w) := by rw [hp]; obtain ⟨p1, p2⟩ := p; simp only at e2; rw [e2.1, e2.2]
  rw [← waveOf_eq this]
  exact List.mem_map_of_mem hz

theorem writeAll_nodup {d : Dir} (l : Dir) (h : (Dict.keys d).Nodup) : (Dict.keys (writeAll d l)).Nodup := by
  unfold writeAll; exact foldl_nodup l d h

/-- Files of the instrument are copied. -/
theorem copied {c : Comp} (hn : (Dict.keys c.data).Nodup) {f : File} {v : List (Rat × Rat)} (hf : f.instr = c.name)
    (h : Dict.get? c.data f = some v) : Dict.get? (copyFiles c).hw.waves f = some v := by
  have hm := Dict.mem_of_get? h
  have hm2 : (f, v) ∈ c.data.filter (fun e => c.name.toList.isPrefixOf e.1.instr.toList) := by
    rw [List.mem_filter]
    refine ⟨hm, ?_⟩
    simp only [hf]
    rw [List.isPrefixOf_iff_prefix]
    exact List.prefix_refl _
  show Dict.get? (writeAll c.hw.waves _) f = some v
  obtain ⟨x, w, y, e1, e2⟩ := last_split _ f (List.mem_map_of_mem (f := Prod.fst) hm2)
  have : w = v := by
    have hw : (f, w) ∈ c.data := (List.mem_filter.1 (by rw [e1]; simp : (f, w) ∈ c.data.filter _)).1
    have := Dict.get?_of_mem hn hw
    rw [h] at this
    exact (Option.some.inj this).symm
  subst this
  unfold writeAll
  exact foldl_set_last (V := List (Rat × Rat)) (W := List (Rat × Rat)) _ c.hw.waves id e1 e2

/-! ### Preparing -/

theorem copyFiles_rest (c : Comp) : (copyFiles c).settings = c.settings ∧ (copyFiles c).name = c.name ∧
    (copyFiles c).data = c.data ∧ (copyFiles c).hw.writes = c.hw.writes := ⟨rfl, rfl, rfl, rfl⟩

theorem writeUntil_none {d l : Dir} : writeUntil none d l = (false, writeAll d l) := rfl

theorem doUntil_ok {k : Option Nat} {h : Hw} {l : List Act} (hr : (doUntil k h l).1 = false) : (doUntil k h l).2 = doAll h l := by
  unfold doUntil at hr ⊢
  cases k with
  | none => rfl
  | some k =>
    simp only at hr ⊢
    by_cases hk : k < l.length
    · rw [if_pos hk] at hr; simp at hr
    · rw [if_neg hk]

/-- Some of the settings are written if there is a fault. -/
theorem doUntil_writes (k : Option Nat) (h : Hw) (s : Settings) :
    ∃ m, (doUntil k h s.acts).2.writes = h.writes ++ m ∧ ∀ e ∈ m, e ∈ sent s.daq := by
  have sub : ∀ l : List Act, (∀ a ∈ l, a ∈ s.acts) → ∃ m, (doAll h l).writes = h.writes ++ m ∧ ∀ e ∈ m, e ∈ sent s.daq := by
    intro l hl
    rw [doAll_writes]
    refine ⟨_, rfl, ?_⟩
    intro e he
    rw [List.mem_flatMap] at he
    obtain ⟨a, ha, he⟩ := he
    have hs : e ∈ s.acts.flatMap Act.writes :=
      List.mem_flatMap.2 ⟨a, hl a ha, he⟩
    unfold Settings.acts at hs
    rw [List.flatMap_append, groups_sent] at hs
    rcases List.mem_append.1 hs with hs | hs
    · rw [List.mem_flatMap] at hs
      obtain ⟨a, ha, he⟩ := hs
      obtain ⟨x, _, rfl⟩ := List.mem_map.1 ha
      cases he
    · exact hs
  unfold doUntil
  cases k with
  | none => exact sub _ (fun a ha => ha)
  | some k =>
    simp only
    split
    · exact sub _ (fun a ha => List.mem_of_mem_take ha)
    · exact sub _ (fun a ha => ha)

/-- What is left after a UHFQA was configured: the device had some state `h` to which some of the settings had been
written, the files of the waveforms are there, and all settings were applied. -/
theorem prepareUh_configured {f : Fault} {k : Option Nat} {s : Settings} {c c' : Comp} (hf : f.file = none)
    (hn : (Dict.keys c.data).Nodup) (h : prepareUh f k s c = (.configured, c')) :
    ∃ h0 : Hw, c'.hw = doAll h0 s.acts ∧ c'.settings = some s ∧ c'.name = c.name ∧ (Dict.keys c'.data).Nodup ∧
      (∃ m, h0.writes = (resetUh c.hw).writes ++ m ∧ ∀ e ∈ m, e ∈ sent s.daq) ∧
      ∀ a w v, Dict.get? s.dict (waveNode a w) = some v → Dict.get? h0.waves ⟨c.name, a, w⟩ = some (csv v) := by
  unfold prepareUh at h
  generalize hp : prepare f s { c with hw := resetUh c.hw } = r at h
  obtain ⟨o, c1⟩ := r
  -- the first application
  have first : o = .skipped ∨ (c1.settings = some s ∧ c1.name = c.name ∧ c1.data = writeAll c.data (filesOf c.name s) ∧
      ∃ m, c1.hw.writes = (resetUh c.hw).writes ++ m ∧ ∀ e ∈ m, e ∈ sent s.daq) := by
    unfold prepare at hp
    by_cases hs : sameAs s c.settings = true
    · rw [if_pos hs] at hp; cases hp; exact Or.inl rfl
    · rw [if_neg hs] at hp
      simp only [hf, writeUntil_none] at hp
      rw [if_neg (by simp)] at hp
      simp only [Prod.mk.injEq] at hp
      obtain ⟨_, rfl⟩ := hp
      exact Or.inr ⟨rfl, rfl, rfl, doUntil_writes _ _ _⟩
  rcases first with rfl | ⟨h1, h2, h3, h4⟩
  · cases h
  · have e : prepareUh f k s c = (let c := copyFiles c1
        let r := doUntil k c.hw s.acts
        (if r.1 then .raised else .configured, { c with hw := r.2 })) ∨ o = .skipped := by
      unfold prepareUh
      rw [hp]
      cases o with
      | skipped => exact Or.inr rfl
      | configured => left; simp only [(copyFiles_rest c1).1, h1]
      | raised => left; simp only [(copyFiles_rest c1).1, h1]
    rcases e with e | rfl
    · have h' : prepareUh f k s c = (.configured, c') := by unfold prepareUh; rw [hp]; exact h
      rw [e] at h'
      simp only [Prod.mk.injEq] at h'
      obtain ⟨g1, rfl⟩ := h'
      have hr : (doUntil k (copyFiles c1).hw s.acts).1 = false := by
        by_contra hc
        rw [Bool.not_eq_false] at hc
        rw [if_pos hc] at g1; cases g1
      refine ⟨(copyFiles c1).hw, doUntil_ok hr, by rw [(copyFiles_rest c1).1]; exact h1, by rw [(copyFiles_rest c1).2.1]; exact h2, ?_, ?_, ?_⟩
      · show (Dict.keys (copyFiles c1).data).Nodup
        rw [(copyFiles_rest c1).2.2.1, h3]
        exact writeAll_nodup _ hn
      · rw [(copyFiles_rest c1).2.2.2]; exact h4
      · intro a w v hv
        apply copied
        · rw [h3]; exact writeAll_nodup _ hn
        · exact h2.symm
        · rw [h3]; exact files_written hv
    · cases h

theorem prepareUh_skipped {f : Fault} {k : Option Nat} {s : Settings} {c c' : Comp} (h : prepareUh f k s c = (.skipped, c')) :
    c' = { c with hw := resetUh c.hw } ∧ ∃ old, c.settings = some old ∧ s.same old = true := by
  unfold prepareUh at h
  generalize hp : prepare f s { c with hw := resetUh c.hw } = r at h
  obtain ⟨o, c1⟩ := r
  have no : ∀ {r : Outcome × Comp}, (match (copyFiles c1).settings with
      | none => (Outcome.configured, copyFiles c1)
      | some s => (if (doUntil k (copyFiles c1).hw s.acts).1 then .raised else .configured,
          { copyFiles c1 with hw := (doUntil k (copyFiles c1).hw s.acts).2 })) = (.skipped, c') → False := by
    intro r h
    cases hs : (copyFiles c1).settings with
    | none => rw [hs] at h; cases h
    | some t =>
      rw [hs] at h
      simp only [Prod.mk.injEq] at h
      obtain ⟨h1, _⟩ := h
      split at h1 <;> cases h1
  cases o with
  | skipped =>
    simp only [Prod.mk.injEq, true_and] at h
    subst h
    obtain ⟨rfl, h1⟩ := prepare_skipped hp
    exact ⟨rfl, h1⟩
  | configured => exact (no (r := (.skipped, c')) h).elim
  | raised => exact (no (r := (.skipped, c')) h).elim

/-- Each waveform has its own index. -/
def UhValid (c : UhCfg) : Prop := (c.waves.map Prod.fst).Nodup

/-- The dictionary has the waveforms. -/
theorem uh_wave_dict {cfg : UhCfg} {b : Builder} (hb : uhBuilder cfg = .ok b) (hv : UhValid cfg) {w : Nat × List (Int × Int)}
    (hw : w ∈ cfg.waves) : Dict.get? b.build.dict (waveNode 0 w.1) = some (.wave w.2) := by
  have hfil := (uhBuilder_sent hb).2.2.2
  have hd : b.build.dict = (b.daq.map (fun d => (d.node, d.value))).foldl (fun d e => Dict.set d e.1 e.2) [] := by
    unfold Settings.dict; rw [List.foldl_map]; rfl
  have hmem : (⟨waveNode 0 w.1, .wave w.2, .void⟩ : Daq) ∈ b.daq := by
    have : (⟨waveNode 0 w.1, .wave w.2, .void⟩ : Daq) ∈ b.daq.filter (fun d => (waveOf d.node).isSome) := by
      rw [hfil]; exact List.mem_map_of_mem (f := fun w : Nat × List (Int × Int) => (⟨waveNode 0 w.1, .wave w.2, .void⟩ : Daq)) hw
    exact (List.mem_filter.1 this).1
  have hk : waveNode 0 w.1 ∈ Dict.keys (b.daq.map (fun d => (d.node, d.value))) := by
    unfold Dict.keys
    rw [List.map_map]
    exact List.mem_map_of_mem (f := Prod.fst ∘ fun d : Daq => (d.node, d.value)) hmem
  obtain ⟨x, v, y, e1, e2⟩ := last_split _ _ hk
  have hv2 : (waveNode 0 w.1, v) ∈ b.daq.map (fun d => (d.node, d.value)) := by rw [e1]; simp
  obtain ⟨d, hd1, hd2⟩ := List.mem_map.1 hv2
  simp only [Prod.mk.injEq] at hd2
  have hd3 : d ∈ b.daq.filter (fun d => (waveOf d.node).isSome) := by
    rw [List.mem_filter]
    refine ⟨hd1, ?_⟩
    rw [hd2.1]; rfl
  rw [hfil] at hd3
  obtain ⟨u, hu, rfl⟩ := List.mem_map.1 hd3
  have e3 : u.1 = w.1 := by
    have := hd2.1
    simp [waveNode] at this
    exact this
  have e4 : u = w := by
    obtain ⟨u1, u2⟩ := u
    obtain ⟨w1, w2⟩ := w
    simp only at e3
    subst e3
    rw [nodup_fst hv hu hw]
  subst e4
  rw [hd, foldl_set_get]
  exact ⟨x, y, by rw [e1, ← hd2.2], e2⟩

/-- The programs of a UHFQA were compiled with the waveforms of its settings. -/
def Compiled (name : String) (s : Settings) (h : Hw) : Prop :=
  ∀ src, Dict.get? s.awg 0 = some src → ∃ p, Runs h 0 p ∧ p.source = src ∧
    ∀ w v, Dict.get? s.dict (waveNode 0 w) = some v → Dict.get? p.files ⟨name, 0, w⟩ = some (csv v)

theorem csv_eq (l : List (Int × Int)) :
    csv (.wave l) = l.map (fun s : Int × Int => ((s.1 : Rat) / 32767, (s.2 : Rat) / 32767)) := by
  have : (2 ^ 15 - 1 : Rat) = 32767 := by decide +kernel
  simp only [csv, this]

theorem uh_of_compiled {cfg : UhCfg} {b : Builder} (hb : uhBuilder cfg = .ok b) (hv : UhValid cfg) {name : String} {h : Hw}
    (hr : Reflects b.build h) (hc : Compiled name b.build h) (hen : Shows h enableNode (.num 1)) : UhConfigured name cfg h := by
  refine uh_nodes hb hr (fun _ => hen) ?_
  have ha : Dict.get? b.build.awg 0 = some cfg.seqc := by
    show Dict.get? (b.awg.foldl (fun d e => Dict.set d e.1 e.2) []) 0 = some cfg.seqc
    rw [(uhBuilder_sent hb).2.2.1]; rfl
  obtain ⟨p, h1, h2, h3⟩ := hc _ ha
  refine ⟨p, h1, h2, ?_⟩
  intro w hw
  rw [h3 w.1 _ (uh_wave_dict hb hv hw), csv_eq]

theorem resetUh_writes (h : Hw) : (resetUh h).writes = h.writes ++ [(enableNode, .num 0), (resetNode, .num 1), (enableNode, .num 1)] :=
  rfl

theorem reset_enable (h : Hw) : Shows (resetUh h) enableNode (.num 1) := by
  unfold Shows
  rw [resetUh_writes]
  apply last_append
  exact last_cons_right (last_cons_right (last_cons_left (by simp [misses_nil]) rfl (covers_self _)))

theorem uh_configured_all {f : Fault} {k : Option Nat} {cfg : UhCfg} {b : Builder} (hb : uhBuilder cfg = .ok b)
    {c c' : Comp} (hf : f.file = none) (hn : (Dict.keys c.data).Nodup)
    (h : prepareUh f k b.build c = (.configured, c')) :
    Reflects b.build c'.hw ∧ Compiled c.name b.build c'.hw ∧ Shows c'.hw enableNode (.num 1) ∧ c'.settings = some b.build ∧
      c'.name = c.name ∧ (Dict.keys c'.data).Nodup := by
  obtain ⟨h0, h1, h2, h3, h4, ⟨m, h5, h6⟩, h7⟩ := prepareUh_configured hf hn h
  have hr := reflects_apply h0 b.build (build_nodup b)
  rw [h1]
  refine ⟨hr.1, ?_, ?_, h2, h3, h4⟩
  · intro src hs
    exact ⟨_, hr.2 0 src hs, rfl, fun w v hv => h7 0 w v hv⟩
  · cases hq : cfg.acq with
    | none =>
      have hmiss := (uh_enable hb (v := .num 1)).2.2 hq
      unfold Shows
      rw [acts_writes]
      refine last_left hmiss ?_
      rw [h5]
      refine last_left (fun e he => hmiss e (h6 e he)) ?_
      exact reset_enable c.hw
    | some q =>
      apply hr.1.nodes
      have hex : ∃ v, Last (sent b.daq) enableNode v := by
        apply last_exists
        refine ⟨(enableNode, .num 1), ?_, covers_self _⟩
        rw [(uhBuilder_sent hb).1, hq]
        obtain ⟨x, y, z⟩ := q
        simp [uhAcq]
      obtain ⟨v, hv⟩ := hex
      have := (uh_enable hb (v := v)).1 hv
      subst this
      exact hv

/-- A UHFQA is configured if `prepare` returns that it configured it, also if the first application of the settings failed,
provided that the files of the waveforms could be written.  Missing: failures to write these files (`stale_waves`). -/
theorem uh_prepared_partial {f : Fault} {k : Option Nat} {cfg : UhCfg} {b : Builder} (hb : uhBuilder cfg = .ok b)
    (hv : UhValid cfg) {c c' : Comp} (hf : f.file = none) (hn : (Dict.keys c.data).Nodup)
    (h : prepareUh f k b.build c = (.configured, c')) : UhConfigured c.name cfg c'.hw := by
  obtain ⟨h1, h2, h3, _⟩ := uh_configured_all hb hf hn h
  exact uh_of_compiled hb hv h1 h2 h3

/-- Histories of a UHFQA in which no `prepare` raises an exception (after the last one that configured the device), the
files of waveforms can be written, and nothing else writes to the device. -/
inductive UhReach : Comp → Prop
  | fresh {c} : c.settings = none → (Dict.keys c.data).Nodup → UhReach c
  | configured {f k cfg b c c'} : uhBuilder cfg = .ok b → f.file = none → (Dict.keys c.data).Nodup →
      prepareUh f k b.build c = (.configured, c') → UhReach c'
  | prepare {f k cfg b c c'} {o : Outcome} : UhReach c → uhBuilder cfg = .ok b → f.file = none →
      prepareUh f k b.build c = (o, c') → o ≠ .raised → UhReach c'
  | start {c} : UhReach c → UhReach (startUh c)
  | stop {c} : UhReach c → UhReach (stopUh c)
  | files {c} (d : Dir) : UhReach c → (Dict.keys d).Nodup → UhReach { c with data := d }

/-- Resetting changes nothing that the settings determine. -/
theorem reflects_reset {cfg : UhCfg} {b : Builder} (hb : uhBuilder cfg = .ok b) {h : Hw} (hr : Reflects b.build h) :
    Reflects b.build (resetUh h) := by
  refine ⟨?_, hr.progs⟩
  intro n v hl
  have hl' : Last (sent b.daq) n v := hl
  unfold Shows
  by_cases h1 : n = enableNode
  · subst h1
    have := (uh_enable hb (v := v)).1 hl'
    subst this
    exact reset_enable h
  · by_cases h2 : n = resetNode
    · subst h2
      have := (uh_enable hb (v := v)).2.1 hl'
      subst this
      rw [resetUh_writes]
      apply last_append
      exact last_cons_right (last_cons_left (by simp [misses_cons, misses_nil, covers_cons, covers_nil]) rfl (covers_self _))
    · rw [resetUh_writes]
      refine last_left ?_ (hr.nodes n v hl)
      have e1 : Real enableNode := by simp [Real]
      have e2 : Real resetNode := by simp [Real]
      simp only [misses_cons, misses_nil, and_true]
      refine ⟨fun hc => h1 (covers_real hc e1).symm, fun hc => h2 (covers_real hc e2).symm, fun hc => h1 (covers_real hc e1).symm⟩

theorem uhReach_inv {c : Comp} (h : UhReach c) : (Dict.keys c.data).Nodup ∧ ∀ s, c.settings = some s →
    ∃ cfg b, uhBuilder cfg = .ok b ∧ s = b.build ∧ Reflects s c.hw ∧ Compiled c.name s c.hw := by
  induction h with
  | fresh h hn => exact ⟨hn, fun s hs => by rw [h] at hs; cases hs⟩
  | configured hb hf hn hp =>
    obtain ⟨h1, h2, h3, h4, h5, h6⟩ := uh_configured_all hb hf hn hp
    refine ⟨h6, ?_⟩
    intro s hs
    rw [h4] at hs
    cases hs
    exact ⟨_, _, hb, rfl, h1, by rw [h5]; exact h2⟩
  | prepare hr hb hf hp ho ih =>
    rename_i f k cfg b c c' o
    cases o with
    | raised => exact absurd rfl ho
    | skipped =>
      obtain ⟨rfl, _⟩ := prepareUh_skipped hp
      refine ⟨ih.1, ?_⟩
      intro s hs
      obtain ⟨cfg, b, i1, rfl, i3, i4⟩ := ih.2 s hs
      exact ⟨cfg, b, i1, rfl, reflects_reset i1 i3, i4⟩
    | configured =>
      obtain ⟨h1, h2, h3, h4, h5, h6⟩ := uh_configured_all hb hf ih.1 hp
      refine ⟨h6, ?_⟩
      intro s hs
      rw [h4] at hs
      cases hs
      exact ⟨_, _, hb, rfl, h1, by rw [h5]; exact h2⟩
  | start hr ih =>
    refine ⟨ih.1, ?_⟩
    intro s hs
    obtain ⟨cfg, b, i1, i2, i3, i4⟩ := ih.2 s hs
    exact ⟨cfg, b, i1, i2, ⟨i3.nodes, i3.progs⟩, i4⟩
  | stop hr ih =>
    refine ⟨ih.1, ?_⟩
    intro s hs
    obtain ⟨cfg, b, i1, i2, i3, i4⟩ := ih.2 s hs
    exact ⟨cfg, b, i1, i2, ⟨i3.nodes, i3.progs⟩, i4⟩
  | files d hr hn ih => exact ⟨hn, ih.2⟩

/-- After any such history, a UHFQA is configured when `prepare` returns, also if it skipped the configuration.  Missing:
histories in which a `prepare` failed, files could not be written, or something else wrote to the device. -/
theorem uh_history_partial {c : Comp} (hc : UhReach c) {f : Fault} {k : Option Nat} {cfg : UhCfg} {b : Builder}
    (hb : uhBuilder cfg = .ok b) (hv : UhValid cfg) (hf : f.file = none) {o : Outcome} {c' : Comp}
    (h : prepareUh f k b.build c = (o, c')) (ho : o ≠ .raised) : UhConfigured c.name cfg c'.hw := by
  obtain ⟨i1, i2⟩ := uhReach_inv hc
  cases o with
  | raised => exact absurd rfl ho
  | configured => exact uh_prepared_partial hb hv hf i1 h
  | skipped =>
    obtain ⟨rfl, old, h1, h2⟩ := prepareUh_skipped h
    obtain ⟨cfg', b', j1, rfl, j3, j4⟩ := i2 old h1
    have hr := reflects_same (uh_regular hb) (uh_regular j1) h2 (reflects_reset j1 j3)
    refine uh_of_compiled hb hv hr ?_ (reset_enable c.hw)
    intro src hs
    rw [same_awg h2] at hs
    obtain ⟨p, p1, p2, p3⟩ := j4 src hs
    exact ⟨p, p1, p2, fun w v hw => p3 w v (by rw [← same_dict h2]; exact hw)⟩

/-- `prepare` stops the AWG of a UHFQA, and `start` runs it. -/
theorem uh_running {f : Fault} {k : Option Nat} {s : Settings} {c : Comp} :
    0 ∉ (prepareUh f k s c).2.hw.running ∧ 0 ∈ (startUh c).hw.running ∧ 0 ∉ (stopUh c).hw.running := by
  refine ⟨?_, by simp [startUh], by simp [stopUh]⟩
  have hrun : ∀ k h (l : List Act), (doUntil k h l).2.running = h.running := by
    intro k h l
    unfold doUntil
    split
    · split
      · exact (acts_rest _ _).2
      · exact (acts_rest _ _).2
    · exact (acts_rest _ _).2
  have h1 : (prepare f s { c with hw := resetUh c.hw }).2.hw.running = (resetUh c.hw).running := prepare_running _ _ _
  have h2 : 0 ∉ (resetUh c.hw).running := by simp [resetUh]
  unfold prepareUh
  generalize hp : prepare f s { c with hw := resetUh c.hw } = r at h1
  obtain ⟨o, c1⟩ := r
  rw [← h1] at h2
  have main : 0 ∉ (match (copyFiles c1).settings with
      | none => (Outcome.configured, copyFiles c1)
      | some s => (if (doUntil k (copyFiles c1).hw s.acts).1 then .raised else .configured,
          { copyFiles c1 with hw := (doUntil k (copyFiles c1).hw s.acts).2 })).2.hw.running := by
    cases hs : (copyFiles c1).settings with
    | none => exact h2
    | some t =>
      show 0 ∉ (doUntil k (copyFiles c1).hw t.acts).2.running
      rw [hrun]; exact h2
  cases o with
  | skipped => exact h2
  | configured => exact main
  | raised => exact main

/-- Whatever acquisitions there are, the monitor is off after the device was configured; it is needed for traces. -/
theorem monitor_off {f : Fault} {k : Option Nat} {cfg : UhCfg} {b : Builder} (hb : uhBuilder cfg = .ok b)
    {c c' : Comp} (hf : f.file = none) (hn : (Dict.keys c.data).Nodup) (hq : cfg.acq.isSome)
    (h : prepareUh f k b.build c = (.configured, c')) : ¬ Monitors c'.hw := by
  obtain ⟨h1, _⟩ := uh_configured_all hb hf hn h
  obtain ⟨⟨x, y, z⟩, hq⟩ := Option.isSome_iff_exists.1 hq
  have hl : Last (sent b.build.daq) [.name "qas", .index 0, .name "monitor", .name "enable"] (.num 0) := by
    show Last (sent b.daq) _ _
    rw [(uhBuilder_sent hb).1, hq]
    iterate 6 apply last_append
    apply last_left (by far)
    iterate 3 apply last_cons_right
    exact last_cons_left (by far) rfl (covers_self _)
  intro hm
  have := last_unique (h1.nodes _ _ hl) hm
  simp at this

/-! ### What is refused -/

theorem withWeights_ok {l : List (Bool × Nat × List Rat)} :
    (∃ m, withWeights l = .ok m) ↔ ∀ w ∈ l, w.2.1 < 10 ∧ w.2.2.length ≤ 4096 := by
  induction l with
  | nil => simp [withWeights]
  | cons e l ih =>
    obtain ⟨im, k, w⟩ := e
    rw [withWeights, List.forall_mem_cons, ← ih]
    by_cases h1 : 4096 < w.length
    · rw [if_pos h1]; simp [Nat.not_le.2 h1]
    · rw [if_neg h1]
      by_cases h2 : 10 ≤ k
      · rw [if_pos h2]; simp [Nat.not_lt.2 h2]
      · rw [if_neg h2]
        cases withWeights l <;> simp <;> omega

/-- A UHFQA is configured if, and only if, the divisor of the clock, the weights and the integration are in range. -/
theorem uh_accepted {cfg : UhCfg} : (∃ b, uhBuilder cfg = .ok b) ↔
    cfg.clock ≤ 13 ∧ (∀ w ∈ cfg.weights, w.2.1 < 10 ∧ w.2.2.length ≤ 4096) ∧ (∀ q ∈ cfg.acq, q.1 ≤ 4096) := by
  rw [← withWeights_ok]
  unfold uhBuilder withTime
  by_cases h14 : 14 ≤ cfg.clock
  · rw [if_pos h14]; simp; omega
  · rw [if_neg h14]
    have : cfg.clock ≤ 13 := by omega
    cases withWeights cfg.weights with
    | error e => simp
    | ok m =>
      cases hq : cfg.acq with
      | none => simp [withAcq, this]
      | some q =>
        obtain ⟨n, r, a⟩ := q
        by_cases hn : 4096 < n
        · simp [withAcq, this, hn]
        · simp [withAcq, this, hn, Nat.not_lt.1 hn]

end Verif.ZiPrepare
