/-
From a schedule to the operations of the sequencers (qblox_backend.py:735-752): the compilation
configurations of the instruments, `assign_pulse_and_acq_info_to_devices` (C31) and `prepare`.
-/
import Verif.Connect.Props

set_option linter.unusedSimpArgs false
set_option linter.unusedVariables false
set_option autoLift false

namespace Verif.Connect

open Verif.Connect.Spec

variable {D : Type}

/-- `hardware_compile` from `CompilerContainer.from_hardware_cfg` to `container.prepare()`
(qblox_backend.py:743-751). -/
def compileSchedule (k : Kind (Flatten.Info D)) (v01 : Bool) (env : Env) (cs : List Cluster)
    (used : List PC) (idx : Flatten.Label × Nat → Option (List Int)) (root : Flatten.Op D) :
    Except (Err ⊕ Flatten.Err) (List (Module × List (Nat × Seq (Flatten.Info D)))) :=
  match extract v01 env cs used with
  | .error e => .error (.inl e)
  | .ok ms =>
    match Flatten.assign (deviceMap ms) idx root with
    | .error e => .error (.inr e)
    | .ok log =>
      match prepareAll k log ms with
      | .error e => .error (.inl e)
      | .ok out => .ok out

theorem compileSchedule_ok {k : Kind (Flatten.Info D)} {v01 : Bool} {env : Env} {cs : List Cluster}
    {used : List PC} {idx : Flatten.Label × Nat → Option (List Int)} {root : Flatten.Op D}
    {out : List (Module × List (Nat × Seq (Flatten.Info D)))}
    (h : compileSchedule k v01 env cs used idx root = .ok out) : ∃ log,
      Flatten.assign (deviceMap (out.map Prod.fst)) idx root = .ok log ∧
      compile k v01 env cs used log = .ok out := by
  unfold compileSchedule at h
  split at h
  · simp at h
  · rename_i ms hms
    split at h
    · simp at h
    · rename_i log hlog
      split at h
      · simp at h
      · rename_i out' hout
        simp only [Except.ok.injEq] at h
        subst h
        refine ⟨log, ?_, ?_⟩
        · rw [(prepareAll_ok hout).1]; exact hlog
        · unfold compile; rw [hms]; exact hout

/-! ### The device of an operation -/

theorem assignPulse_dev {m : Flatten.Mapping} {name : String} {n : Int} {wrap : D → Flatten.Data D}
    {q : Flatten.Piece D} {l : List (Flatten.Call D)} (h : Flatten.assignPulse m name n wrap q = .ok l)
    {c : Flatten.Call D} (hc : c ∈ l) : (c.2.1, c.1) ∈ m := by
  unfold Flatten.assignPulse at h
  split at h
  · simp at h
  · simp only at h
    split at h
    · simp only [Except.ok.injEq] at h
      subst h
      obtain ⟨e, he, rfl⟩ := List.mem_map.mp hc
      exact (List.mem_filter.mp he).1
    · split at h
      · simp at h
      · split at h
        · simp at h
        · rename_i dev hdev
          simp only [Except.ok.injEq] at h
          subst h
          simp only [List.mem_singleton] at hc
          subst hc
          exact Dict.mem_of_get? hdev

theorem assignPulses_dev {m : Flatten.Mapping} {name : String} {n : Int}
    {wrap : D → Flatten.Data D} : ∀ {qs : List (Flatten.Piece D)} {l : List (Flatten.Call D)},
    Flatten.assignPulses m name n wrap qs = .ok l → ∀ {c : Flatten.Call D}, c ∈ l →
    (c.2.1, c.1) ∈ m
  | [], l, h, c, hc => by
    simp only [Flatten.assignPulses, Except.ok.injEq] at h; subst h; simp at hc
  | q :: qs, l, h, c, hc => by
    rw [Flatten.assignPulses] at h
    split at h
    · simp at h
    · rename_i a ha
      split at h
      · simp at h
      · rename_i b hb
        simp only [Except.ok.injEq] at h
        subst h
        rcases List.mem_append.mp hc with hc | hc
        · exact assignPulse_dev ha hc
        · exact assignPulses_dev hb hc

theorem assignAcqs_dev {m : Flatten.Mapping} {idx : Flatten.Label × Nat → Option (List Int)}
    {name : String} {n : Int} {label : Flatten.Label} : ∀ {qs : List (Flatten.Piece D)} {i : Nat}
    {l : List (Flatten.Call D)},
    Flatten.assignAcqs m idx name n label i qs = .ok l → ∀ {c : Flatten.Call D}, c ∈ l →
    (c.2.1, c.1) ∈ m
  | [], i, l, h, c, hc => by
    simp only [Flatten.assignAcqs, Except.ok.injEq] at h; subst h; simp at hc
  | q :: qs, i, l, h, c, hc => by
    rw [Flatten.assignAcqs] at h
    split at h
    · simp at h
    · rename_i a ha
      split at h
      · simp at h
      · rename_i b hb
        simp only [Except.ok.injEq] at h
        subst h
        rcases List.mem_append.mp hc with hc | hc
        · unfold Flatten.assignAcq at ha
          split at ha
          · simp only [Except.ok.injEq] at ha; subst ha; simp at hc
          · split at ha
            · simp at ha
            · split at ha
              · simp at ha
              · rename_i dev hdev
                simp only [Except.ok.injEq] at ha
                subst ha
                simp only [List.mem_singleton] at hc
                subst hc
                exact Dict.mem_of_get? hdev
        · exact assignAcqs_dev hb hc

theorem assignStop_dev {m : Flatten.Mapping} {n : Int} : ∀ {pcs : List PC}
    {l : List (Flatten.Call D)}, Flatten.assignStop m n pcs = .ok l → ∀ {c : Flatten.Call D},
    c ∈ l → (c.2.1, c.1) ∈ m
  | [], l, h, c, hc => by
    simp only [Flatten.assignStop, Except.ok.injEq] at h; subst h; simp at hc
  | pc :: pcs, l, h, c, hc => by
    rw [Flatten.assignStop] at h
    split at h
    · simp at h
    · rename_i dev hdev
      split at h
      · simp at h
      · rename_i b hb
        simp only [Except.ok.injEq] at h
        subst h
        rcases List.mem_cons.mp hc with rfl | hc
        · exact Dict.mem_of_get? hdev
        · exact assignStop_dev hb hc

theorem assignEntry_dev {m : Flatten.Mapping} {idx : Flatten.Label × Nat → Option (List Int)}
    {e : Flatten.Entry D} {l : List (Flatten.Call D)} (h : Flatten.assignEntry m idx e = .ok l)
    {c : Flatten.Call D} (hc : c ∈ l) : (c.2.1, c.1) ∈ m := by
  unfold Flatten.assignEntry at h
  simp only at h
  split at h
  · split at h
    · simp only [Except.ok.injEq] at h; subst h; simp at hc
    · split at h
      · simp at h
      · obtain ⟨x, y, hx, hy, rfl⟩ := Flatten.both_ok h
        obtain ⟨z, w, hz, hw, rfl⟩ := Flatten.both_ok hy
        rcases List.mem_append.mp hc with hc | hc
        · split at hx
          · simp only [Except.ok.injEq] at hx; subst hx; simp at hc
          · unfold Flatten.assignAsm at hx
            split at hx
            · simp at hx
            · rename_i dev hdev
              simp only [Except.ok.injEq] at hx
              subst hx
              simp only [List.mem_singleton] at hc
              subst hc
              exact Dict.mem_of_get? hdev
        · rcases List.mem_append.mp hc with hc | hc
          · exact assignPulses_dev hz hc
          · exact assignAcqs_dev hw hc
  · split at h
    · simp at h
    · exact assignPulses_dev h hc
  · split at h
    · simp at h
    · exact assignStop_dev h hc

theorem assignAll_dev {m : Flatten.Mapping} {idx : Flatten.Label × Nat → Option (List Int)} :
    ∀ {es : List (Flatten.Entry D)} {l : List (Flatten.Call D)},
    Flatten.assignAll m idx es = .ok l → ∀ {c : Flatten.Call D}, c ∈ l → (c.2.1, c.1) ∈ m
  | [], l, h, c, hc => by
    simp only [Flatten.assignAll, Except.ok.injEq] at h; subst h; simp at hc
  | e :: es, l, h, c, hc => by
    obtain ⟨x, y, hx, hy, rfl⟩ := Flatten.both_ok h
    rcases List.mem_append.mp hc with hc | hc
    · exact assignEntry_dev hx hc
    · exact assignAll_dev hy hc

theorem assign_dev {m : Flatten.Mapping} {idx : Flatten.Label × Nat → Option (List Int)}
    {root : Flatten.Op D} {l : List (Flatten.Call D)} (h : Flatten.assign m idx root = .ok l)
    {c : Flatten.Call D} (hc : c ∈ l) : (c.2.1, c.1) ∈ m := by
  unfold Flatten.assign at h
  simp only at h
  split at h
  · simp at h
  · exact assignAll_dev h hc

/-- What is known of the whole list of one port-clock. -/
theorem assign_content {m : Flatten.Mapping} (hnd : (Dict.keys m).Nodup)
    {idx : Flatten.Label × Nat → Option (List Int)} {root : Flatten.Op D}
    {log : List (Flatten.Call D)} (h : Flatten.assign m idx root = .ok log) {pc : PC}
    (hpc : pc ∈ Dict.keys m) :
    (Flatten.opInfos pc log).Perm (Flatten.content idx pc root 0 [] .nil).flatten := by
  unfold Flatten.assign at h
  simp only at h
  split at h
  · simp at h
  · rename_i u hu
    have hlog := Flatten.assignAll_infos m hnd idx pc hpc _ log (fun e he =>
      Flatten.entries_nodup root 0 [] e (StableSort.mem_sortBy.mp he)) h
    rw [hlog, Flatten.content_flatten]
    simp only [Flatten.Forest.flatten, List.append_nil]
    exact (StableSort.sortBy_perm _ _).flatMap_right _

theorem deviceMap_nodup (ms : List Module) : (Dict.keys (deviceMap ms)).Nodup := by
  unfold deviceMap
  exact keys_foldl_set _ _ (by simp [Dict.keys])

theorem deviceMap_mem {ms : List Module} {pc : PC} {dev : String}
    (h : (pc, dev) ∈ deviceMap ms) : ∃ m ∈ ms, m.cluster = dev ∧ pc ∈ m.pcs.map Prod.fst := by
  unfold deviceMap at h
  rcases mem_foldl_set _ _ _ h with h | h
  · simp at h
  · obtain ⟨m, hm, h⟩ := List.mem_flatMap.mp h
    obtain ⟨e, he, h⟩ := List.mem_map.mp h
    simp only [Prod.mk.injEq] at h
    exact ⟨m, hm, h.2, List.mem_map.mpr ⟨e, he, h.1⟩⟩

theorem deviceMap_keys {ms : List Module} {m : Module} (hm : m ∈ ms) {pc : PC}
    (h : pc ∈ m.pcs.map Prod.fst) : pc ∈ Dict.keys (deviceMap ms) := by
  unfold deviceMap
  rw [mem_keys_foldl_set]
  refine Or.inr ?_
  obtain ⟨e, he, rfl⟩ := List.mem_map.mp h
  exact List.mem_map.mpr ⟨(e.1, m.cluster), List.mem_flatMap.mpr ⟨m, hm, List.mem_map.mpr ⟨e, he, rfl⟩⟩, rfl⟩

/-- The operations of a port-clock in a cluster are all of its operations or none. -/
theorem opsOf_assign {m : Flatten.Mapping} (hnd : (Dict.keys m).Nodup)
    {idx : Flatten.Label × Nat → Option (List Int)} {root : Flatten.Op D}
    {log : List (Flatten.Call D)} (h : Flatten.assign m idx root = .ok log) (cl : String) (pc : PC) :
    opsOf log cl pc = if Dict.get? m pc = some cl then Flatten.opInfos pc log else [] := by
  have hdev : ∀ c ∈ log, c.2.1 = pc → Dict.get? m pc = some c.1 := by
    intro c hc he
    rw [← he]
    exact Dict.get?_of_mem hnd (assign_dev h hc)
  unfold opsOf Flatten.opInfos
  split
  · rename_i hg
    apply List.filterMap_congr
    intro c hc
    by_cases he : c.2.1 = pc
    · have := hdev c hc he
      rw [hg, Option.some.injEq] at this
      simp [he, this]
    · simp [he]
  · rename_i hg
    rw [List.filterMap_eq_nil_iff]
    intro c hc
    have : ¬(c.1 = cl ∧ c.2.1 = pc) := by
      rintro ⟨h1, h2⟩
      exact hg (by rw [hdev c hc h2, h1])
    simp [this]

/-- **C54, from the schedule.** The operations of every sequencer are, each once, those of the
content of the schedule for the port-clock of the sequencer: nothing is lost and nothing is added. -/
theorem sequencer_content {k : Kind (Flatten.Info D)} {v01 : Bool} {env : Env} {cs : List Cluster}
    {used : List PC} {idx : Flatten.Label × Nat → Option (List Int)} {root : Flatten.Op D}
    {out : List (Module × List (Nat × Seq (Flatten.Info D)))}
    (h : compileSchedule k v01 env cs used idx root = .ok out) {m : Module}
    {ss : List (Nat × Seq (Flatten.Info D))} (hm : (m, ss) ∈ out) {n : Nat}
    {s : Seq (Flatten.Info D)} (hs : (n, s) ∈ ss) :
    s.ops.Perm (Flatten.content idx s.pc root 0 [] .nil).flatten ∧
    Flatten.ordered s.ops =
      Flatten.sequencerOps (deviceMap (out.map Prod.fst)) idx root s.pc := by
  obtain ⟨log, hlog, hcomp⟩ := compileSchedule_ok h
  obtain ⟨st, h1, h2, h3⟩ := compile_ok hcomp
  obtain ⟨_, res, hres, hss⟩ := prepareModule_ok (h3 _ hm)
  simp only at hres hss
  rw [hss, construct_eq] at hs
  rcases mem_foldl_set _ _ _ hs with hs | hs
  · simp at hs
  obtain ⟨i, P, a1, a2, a3, a4, a5, a6⟩ := mem_entries.mp hs
  have hmem : m ∈ out.map Prod.fst := List.mem_map.mpr ⟨_, hm, rfl⟩
  have hkey : s.pc ∈ m.pcs.map Prod.fst :=
    List.mem_map.mpr ⟨_, Dict.mem_of_get? a2, rfl⟩
  have hnd := deviceMap_nodup (out.map Prod.fst)
  have hops := opsOf_assign hnd hlog m.cluster s.pc
  have hall : s.ops = Flatten.opInfos s.pc log := by
    rw [a6, hops]
    split
    · rfl
    · rename_i hg
      rw [if_neg hg] at hops
      unfold hasData at a3
      rw [hops] at a3
      simp at a3
  refine ⟨by rw [hall]; exact assign_content hnd hlog (deviceMap_keys hmem hkey), ?_⟩
  rw [hall]
  unfold Flatten.sequencerOps
  rw [hlog]

/-- **C54, from the schedule, in order.** If on this port-clock the loops and conditionals overlap
nothing else, the program of the sequencer is generated from the nested structure of the schedule,
every body in order of time. -/
theorem sequencer_nested {k : Kind (Flatten.Info D)} {v01 : Bool} {env : Env} {cs : List Cluster}
    {used : List PC} {idx : Flatten.Label × Nat → Option (List Int)} {root : Flatten.Op D}
    {out : List (Module × List (Nat × Seq (Flatten.Info D)))}
    (h : compileSchedule k v01 env cs used idx root = .ok out) {m : Module}
    {ss : List (Nat × Seq (Flatten.Info D))} (hm : (m, ss) ∈ out) {n : Nat}
    {s : Seq (Flatten.Info D)} (hs : (n, s) ∈ ss) {L : List (Flatten.Info D)}
    (hL : Flatten.ordered s.ops = .ok L)
    (hap : (Flatten.content idx s.pc root 0 [] .nil).Apart Flatten.Info.key) :
    L = ((Flatten.content idx s.pc root 0 [] .nil).order Flatten.Info.key).flatten := by
  have hcont := sequencer_content h hm hs
  rw [hcont.2] at hL
  obtain ⟨log, hlog, hcomp⟩ := compileSchedule_ok h
  obtain ⟨st, h1, h2, h3⟩ := compile_ok hcomp
  obtain ⟨_, res, hres, hss⟩ := prepareModule_ok (h3 _ hm)
  simp only at hres hss
  rw [hss, construct_eq] at hs
  rcases mem_foldl_set _ _ _ hs with hs | hs
  · simp at hs
  obtain ⟨i, P, a1, a2, a3, a4, a5, a6⟩ := mem_entries.mp hs
  exact Flatten.ops_nested _ (deviceMap_nodup _) idx s.pc
    (deviceMap_keys (List.mem_map.mpr ⟨_, hm, rfl⟩) (List.mem_map.mpr ⟨_, Dict.mem_of_get? a2, rfl⟩))
    root L hL hap

/-- **C52 and C54, from the schedule.** A pulse of the schedule on a port that is wired to channels of
a module is played by a sequencer of that module, at the time it has in the schedule, and that
sequencer uses precisely the channels the port is wired to. -/
theorem pulse_played {k : Kind (Flatten.Info D)} {env : Env} {cs : List Cluster}
    {used : List PC} {idx : Flatten.Label × Nat → Option (List Int)} {root : Flatten.Op D}
    {out : List (Module × List (Nat × Seq (Flatten.Info D)))}
    (hcs : (cs.map Cluster.name).Nodup) (hms : ∀ c ∈ cs, (c.modules.map Prod.fst).Nodup)
    (hu : used.Nodup) (h : compileSchedule k false env cs used idx root = .ok out)
    (huniq : Flatten.Unique root) {l : Flatten.Label} {t : Rat} {p : Flatten.Plain D}
    (hf : root.find l = some (t, p)) (hw : p.window = false) {q : Flatten.Piece D}
    (hq : q ∈ p.pulses) {port clock : String} (hport : q.port = some port)
    (hclock : q.clock = some clock) (hpc : (port, clock) ∈ used)
    (hreset : k.isReset ⟨p.name, .pulse q.data, Flatten.startAt (Flatten.ns t) q.t0, Flatten.ns t⟩ = false)
    (hd : Direct env.graph (cs.map Cluster.name) port) {cl : String} {i : Nat} {ch0 : Chan}
    (hwire : Wired env.graph port cl i ch0)
    (hqtm : ∀ d ∈ cs, d.name = cl → (i, ModType.qtm) ∉ d.modules) :
    ∃ m ss n s, (m, ss) ∈ out ∧ m.cluster = cl ∧ m.idx = i ∧ (n, s) ∈ ss ∧ s.pc = (port, clock) ∧
      (∀ ch, Uses s.path ch ↔ Wired env.graph port cl i ch) ∧
      (⟨p.name, .pulse q.data, Flatten.startAt (Flatten.ns t) q.t0, Flatten.ns t⟩ : Flatten.Info D)
        ∈ s.ops := by
  obtain ⟨log, hlog, hcomp⟩ := compileSchedule_ok h
  obtain ⟨_, m, ss, P, g1, g2, g3, g4, ⟨d, g5, g6, g7⟩, g8, g9, _, g11⟩ :=
    wiring_sound hcs hms hu hcomp hpc hd hwire
  have hkey : (port, clock) ∈ m.pcs.map Prod.fst := List.mem_map.mpr ⟨_, g2, rfl⟩
  have hmem : m ∈ out.map Prod.fst := List.mem_map.mpr ⟨_, g1, rfl⟩
  have hnd := deviceMap_nodup (out.map Prod.fst)
  have hkm := deviceMap_keys hmem hkey
  -- the device of the port-clock
  obtain ⟨dev, hdev⟩ : ∃ dev, Dict.get? (deviceMap (out.map Prod.fst)) (port, clock) = some dev := by
    obtain ⟨e, he, hee⟩ := List.mem_map.mp hkm
    exact ⟨e.2, by rw [← hee]; exact Dict.get?_of_mem hnd he⟩
  have hdevcl : dev = m.cluster := by
    obtain ⟨m', hm', e1, e2⟩ := deviceMap_mem (Dict.mem_of_get? hdev)
    obtain ⟨⟨m'', ss''⟩, hm'', rfl⟩ := List.mem_map.mp hm'
    rw [← e1, g3]
    exact (g11 m'' ss'' hm'' e2).1
  -- the operation is in the log
  have hcontent := assign_content hnd hlog hkm
  have hin : (⟨p.name, .pulse q.data, Flatten.startAt (Flatten.ns t) q.t0, Flatten.ns t⟩ :
      Flatten.Info D) ∈ Flatten.opInfos (port, clock) log := by
    rw [hcontent.mem_iff, Flatten.content_flatten]
    simp only [Flatten.Forest.flatten, List.append_nil, List.mem_flatMap]
    refine ⟨⟨t, .op p, l⟩, (Flatten.operations_located root huniq t p l).mpr hf, ?_⟩
    simp only [Flatten.entryInfos, Flatten.plainInfos, hw, Bool.false_eq_true, if_false,
      List.mem_append, List.mem_map, List.mem_filter]
    refine Or.inl (Or.inr ⟨q, ⟨hq, ?_⟩, rfl⟩)
    simp [Flatten.pulseFor, hport, hclock]
  have hlogmem : (m.cluster, (port, clock),
      (⟨p.name, .pulse q.data, Flatten.startAt (Flatten.ns t) q.t0, Flatten.ns t⟩ :
        Flatten.Info D)) ∈ log := by
    unfold Flatten.opInfos at hin
    obtain ⟨c, hc, hcc⟩ := List.mem_filterMap.mp hin
    simp only [Option.ite_none_right_eq_some, Option.some.injEq] at hcc
    have := Dict.get?_of_mem hnd (assign_dev hlog hc)
    rw [hcc.1, hdev, Option.some.injEq] at this
    obtain ⟨a, b, x⟩ := c
    simp only at hcc this
    rw [← hcc.1, ← hcc.2, ← hdevcl, this]
    exact hc
  have hnq : m.type ≠ .qtm := by
    intro e
    rw [e] at g7
    exact hqtm d g5 g6 g7
  obtain ⟨_, f2, f3, _⟩ := operations_delivered hcomp g1 (fun e => absurd e hnq)
  obtain ⟨n, s, hs, hspc⟩ := f2 _ hkey ⟨_, hlogmem, hreset⟩
  refine ⟨m, ss, n, s, g1, g3, g4, hs, hspc, ?_, ?_⟩
  · -- the path of the sequencer is that of the port-clock
    obtain ⟨_, f, _, _, r3⟩ := sequencers_sound hcomp g1
    obtain ⟨Q, hQ, hsQ, _⟩ := r3 n s hs
    obtain ⟨st, h1, h2, h3⟩ := compile_ok hcomp
    have hv := allPaths_used _ _ _ h1
    obtain ⟨d', hd1', k1, k2, k3, k4, k5⟩ := module_known hv.1 h2 hmem
    have c1 := Dict.get?_of_mem (d := m.pcs) k3 hQ
    have c2 := Dict.get?_of_mem (d := m.pcs) k3 g2
    rw [hspc, c2, Option.some.injEq] at c1
    rw [hsQ, ← c1]
    intro ch
    constructor
    · intro hch
      rcases g9 ch hch with hh | ⟨hh, _⟩
      · exact hh
      · simp at hh
    · exact g8 ch
  · rw [f3 n s hs, hspc]
    exact List.mem_map.mpr ⟨_, List.mem_filter.mpr ⟨hlogmem, by simp⟩, rfl⟩

end Verif.Connect
