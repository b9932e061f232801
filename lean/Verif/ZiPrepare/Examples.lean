/-
Examples, and where the code does not do what is expected.
-/
import Verif.ZiPrepare.UhProps

set_option linter.unusedSimpArgs false
set_option linter.unusedVariables false

namespace Verif.ZiPrepare.Examples
open Verif.ZiPrepare Verif.ZiPrepare.Spec

/-- Two outputs, on the first and the third AWG. -/
def two : HdCfg := ⟨4, 0, 0, [⟨0, 1, 1 / 2, 0, 1 / 10, "table0", "seqc0", [(0, [(1, 2), (3, 4)]), (1, [(5, 6)])]⟩,
  ⟨2, 1, 1, 0, 0, "table2", "seqc2", []⟩]⟩

/-- One output, on the first AWG. -/
def one : HdCfg := ⟨4, 0, 0, [⟨0, 1, 1, 0, 0, "table", "seqc", []⟩]⟩

/-- The builder of a configuration (empty if it is refused). -/
def built (c : HdCfg) : Builder := match hdBuilder c with | .ok b => b | .error _ => {}

theorem two_ok : hdBuilder two = .ok (built two) := by decide +kernel
theorem one_ok : hdBuilder one = .ok (built one) := by decide +kernel

theorem two_valid : HdValid two := ⟨by decide, by decide⟩

/-- A new component. -/
def new : Comp := { name := "hd" }

/-- After `prepare` (twice: the second one is skipped) the device is configured. -/
theorem good : (prepare {} (built two).build new).1 = .configured ∧
    (prepare {} (built two).build (prepare {} (built two).build new).2).1 = .skipped ∧
    HdConfigured two (prepare {} (built two).build (prepare {} (built two).build new).2).2.hw := by
  have h1 : (prepare {} (built two).build new).1 = .configured := by decide +kernel
  have h2 : (prepare {} (built two).build (prepare {} (built two).build new).2).1 = .skipped := by decide +kernel
  refine ⟨h1, h2, ?_⟩
  exact hd_history_partial (HdReach.prepare (HdReach.fresh (c := new) rfl) two_ok (Prod.ext h1 rfl) (by simp)) two_ok two_valid
    (Prod.ext h2 rfl) (by simp)

/-- The third AWG is started first. -/
theorem good_start : ((startHd (prepare {} (built two).build new).2).map (fun c => c.hw.running)) = some [2, 0] := by
  decide +kernel

/-- VIOLATION: if `prepare` fails, `prepare` with the same configuration does nothing, and the device has neither program nor
settings. -/
theorem retry_skipped : ∃ c1 c2, prepare { apply := some 0 } (built two).build new = (.raised, c1) ∧
    prepare {} (built two).build c1 = (.skipped, c2) ∧ ¬ HdConfigured two c2.hw := by
  refine ⟨(prepare { apply := some 0 } (built two).build new).2,
    (prepare {} (built two).build (prepare { apply := some 0 } (built two).build new).2).2, ?_, ?_, ?_⟩
  · exact Prod.ext (by decide +kernel) rfl
  · exact Prod.ext (by decide +kernel) rfl
  · intro h
    obtain ⟨p, hp, _⟩ := h.program _ (List.mem_cons_self ..)
    unfold Runs at hp
    have : (prepare {} (built two).build (prepare { apply := some 0 } (built two).build new).2).2.hw.progs = [] := by
      decide +kernel
    rw [this] at hp
    cases hp

/-- VIOLATION: the same after the file system failed. -/
theorem retry_skipped_files : ∃ c1 c2, prepare { file := some 1 } (built two).build new = (.raised, c1) ∧
    prepare {} (built two).build c1 = (.skipped, c2) ∧ ¬ HdConfigured two c2.hw := by
  refine ⟨(prepare { file := some 1 } (built two).build new).2,
    (prepare {} (built two).build (prepare { file := some 1 } (built two).build new).2).2, ?_, ?_, ?_⟩
  · exact Prod.ext (by decide +kernel) rfl
  · exact Prod.ext (by decide +kernel) rfl
  · intro h
    obtain ⟨p, hp, _⟩ := h.program _ (List.mem_cons_self ..)
    unfold Runs at hp
    have : (prepare {} (built two).build (prepare { file := some 1 } (built two).build new).2).2.hw.progs = [] := by
      decide +kernel
    rw [this] at hp
    cases hp

/-- The device after somebody switched off an output. -/
def touched : Comp :=
  let c := (prepare {} (built one).build new).2
  { c with hw := { c.hw with writes := c.hw.writes ++ [([.name "sigouts", .index 0, .name "on"], .num 0)] } }

/-- VIOLATION: what was changed by hand stays changed. -/
theorem outside_kept : ∃ c', prepare {} (built one).build touched = (.skipped, c') ∧ ¬ HdConfigured one c'.hw := by
  refine ⟨(prepare {} (built one).build touched).2, Prod.ext (by decide +kernel) rfl, ?_⟩
  intro h
  have h1 := h.on _ (List.mem_cons_self ..) 0 rfl
  have h2 : (prepare {} (built one).build touched).2.hw.writes =
      (prepare {} (built one).build new).2.hw.writes ++ [([.name "sigouts", .index 0, .name "on"], .num 0)] := by
    decide +kernel
  have h3 : Shows (prepare {} (built one).build touched).2.hw [.name "sigouts", .index 0, .name "on"] (.num 0) := by
    unfold Shows
    rw [h2]
    exact last_append (last_cons_left misses_nil rfl (covers_self _))
  have := last_unique h1 h3
  simp at this

/-- VIOLATION: AWGs that were started stay running if another configuration is prepared before `stop`. -/
theorem left_running : ((startHd (prepare {} (built two).build new).2).bind
    (fun c => stopHd (prepare {} (built one).build c).2)).map (fun c => c.hw.running) = some [2] := by decide +kernel

/-- VIOLATION: gains above 1 are accepted. -/
theorem gain_accepted : ∃ b, hdBuilder ⟨4, 0, 0, [⟨0, 5, 1, 0, 0, "", "", []⟩]⟩ = .ok b := by
  exact ⟨_, rfl⟩

/-! ### UHFQA -/

/-- A trace. -/
def trace : UhCfg := ⟨0, 0, 0, "seqc", [(0, [(32767, 0), (-32767, 16)])], [(1024, 1800)], [(false, 0, [1, 1]), (true, 0, [1])],
  some (1800, 1, 1024)⟩

theorem trace_ok : ∃ b, uhBuilder trace = .ok b := by
  have h1 : withTime 0 trace.clock = .ok [setNum (awgNode (.index 0) "time") 0] := rfl
  have h2 : ∃ w, withWeights trace.weights = .ok w := ⟨_, rfl⟩
  have h3 : ∃ a, withAcq trace.acq = .ok a := ⟨_, rfl⟩
  obtain ⟨w, h2⟩ := h2
  obtain ⟨a, h3⟩ := h3
  unfold uhBuilder
  rw [h1, h2, h3]
  exact ⟨_, rfl⟩

/-- A new component. -/
def newUh : Comp := { name := "uh" }

theorem prepareUh_new (f : Fault) (s : Settings) : ∃ c, prepareUh f none s newUh = (.configured, c) := by
  unfold prepareUh
  have hp : (prepare f s { newUh with hw := resetUh newUh.hw }).1 ≠ .skipped := by
    unfold prepare
    rw [if_neg (by simp [sameAs, newUh])]
    simp only
    split
    · simp
    · simp only
      split <;> simp
  generalize prepare f s { newUh with hw := resetUh newUh.hw } = r at hp
  obtain ⟨o, c⟩ := r
  have main : ∃ c', (match (copyFiles c).settings with
      | none => (Outcome.configured, copyFiles c)
      | some s => (if (doUntil none (copyFiles c).hw s.acts).1 then .raised else .configured,
          { copyFiles c with hw := (doUntil none (copyFiles c).hw s.acts).2 })) = (.configured, c') := by
    cases (copyFiles c).settings with
    | none => exact ⟨_, rfl⟩
    | some t => exact ⟨_, rfl⟩
  cases o with
  | skipped => exact absurd rfl hp
  | configured => exact main
  | raised => exact main

/-- A UHFQA is configured although the first application failed (as it does with a new device).  VIOLATION: its monitor is
off, although there is a trace. -/
theorem trace_unmonitored (k : Nat) : ∃ b c, uhBuilder trace = .ok b ∧
    prepareUh { apply := some k } none b.build newUh = (.configured, c) ∧ UhConfigured "uh" trace c.hw ∧ ¬ Monitors c.hw := by
  obtain ⟨b, hb⟩ := trace_ok
  obtain ⟨c, hc⟩ := prepareUh_new { apply := some k } b.build
  exact ⟨b, c, hb, hc, uh_prepared_partial hb (by unfold UhValid; decide) rfl (by simp [newUh, Dict.keys]) hc,
    monitor_off hb rfl (by simp [newUh, Dict.keys]) rfl hc⟩

/-- VIOLATION: if a file of a waveform cannot be written, `prepare` of a UHFQA says that the device was configured, but its
program was compiled without the waveform. -/
theorem stale_waves : ∃ b c, uhBuilder trace = .ok b ∧
    prepareUh { file := some 0 } none b.build newUh = (.configured, c) ∧ ¬ UhConfigured "uh" trace c.hw := by
  obtain ⟨b, hb⟩ := trace_ok
  obtain ⟨c, hc⟩ := prepareUh_new { file := some 0 } b.build
  refine ⟨b, c, hb, hc, ?_⟩
  have hfil := (uhBuilder_sent hb).2.2.2
  have hlen : 0 < (filesOf newUh.name b.build).length := by
    have hm : (⟨waveNode 0 0, .wave [(32767, 0), (-32767, 16)], .void⟩ : Daq) ∈ b.daq := by
      have : (⟨waveNode 0 0, .wave [(32767, 0), (-32767, 16)], .void⟩ : Daq) ∈ b.daq.filter (fun d => (waveOf d.node).isSome) := by
        rw [hfil]; simp [trace]
      exact (List.mem_filter.1 this).1
    apply List.length_pos_of_mem (a := ((⟨newUh.name, 0, 0⟩ : File), csv (.wave [(32767, 0), (-32767, 16)])))
    unfold filesOf
    rw [List.mem_filterMap]
    exact ⟨_, hm, rfl⟩
  have hp : prepare { file := some 0 } b.build { newUh with hw := resetUh newUh.hw } =
      (.raised, { newUh with hw := resetUh newUh.hw, settings := some b.build }) := by
    unfold prepare
    rw [if_neg (by simp [sameAs, newUh])]
    have hw : writeUntil (some 0) newUh.data (filesOf newUh.name b.build) = (true, newUh.data) := by
      unfold writeUntil
      simp only
      rw [if_pos hlen]; rfl
    simp only [hw]
    rw [if_pos trivial]
  unfold prepareUh at hc
  rw [hp] at hc
  simp only [copyFiles, newUh, writeAll, List.filter_nil, List.foldl_nil, doUntil, Prod.mk.injEq] at hc
  obtain ⟨_, rfl⟩ := hc
  intro h
  obtain ⟨p, h1, h2, h3⟩ := h.program
  unfold Runs at h1
  have := (reflects_apply ({ writes := (resetUh {}).writes, progs := [], waves := [], running := [] } : Hw) b.build (build_nodup b)).2 0 "seqc"
    (by show Dict.get? (b.awg.foldl (fun d e => Dict.set d e.1 e.2) []) 0 = _
        rw [(uhBuilder_sent hb).2.2.1]; rfl)
  have e : some p = some (⟨"seqc", []⟩ : Prog) := by rw [← h1]; exact this
  cases e
  have := h3 _ (List.mem_cons_self ..)
  cases this

/-- VIOLATION: a `prepare` that is skipped resets the results but not the monitor. -/
theorem monitor_not_reset {f : Fault} {k : Option Nat} {s : Settings} {c c' : Comp} (h : prepareUh f k s c = (.skipped, c')) :
    c'.hw.writes = c.hw.writes ++ [([.name "qas", .index 0, .name "result", .name "enable"], .num 0),
      ([.name "qas", .index 0, .name "result", .name "reset"], .num 1),
      ([.name "qas", .index 0, .name "result", .name "enable"], .num 1)] := by
  obtain ⟨rfl, _⟩ := prepareUh_skipped h
  rfl

end Verif.ZiPrepare.Examples
