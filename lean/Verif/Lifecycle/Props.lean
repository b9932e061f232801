/-
C59: what runs, and what is synchronised.
-/
import Verif.Lifecycle.Steps

set_option linter.unusedSimpArgs false
set_option linter.unusedVariables false
set_option linter.unusedSectionVars false

namespace Verif.Lifecycle

open Verif.Connect (ModType)
open Verif.Prepare (Dev Val)
open Verif.Prepare.Spec (Coherent CalOk sequencers TraceOn)
open Spec

variable {σ : Type} [DecidableEq σ]

/-! ### All calls keep the coordinator well-formed -/

theorem comp_start_keeps {c : Comp σ} (h : CompOk c) : CompOk c.start.1 := by
  cases c with
  | cluster c => exact start_keeps h
  | generic f => trivial
  | other r e => trivial

theorem cluster_stop_keeps {c : Cluster σ} (h : CompOk (.cluster c)) : CompOk (.cluster c.stop) := by
  refine ⟨?_, ?_⟩
  · simp only [Cluster.stop]; rw [onAll_names]; exact h.1
  · exact onAll_all (f := fun m => m.disableSync.halt) (Q := fun m => Coherent m.dev)
      (fun m hm => (disableSync_hw hm).1) h.2

theorem comp_stop_keeps {c : Comp σ} (allow : Bool) (h : CompOk c) : CompOk (demote allow c.stop).1 := by
  have : CompOk c.stop.1 := by
    cases c with
    | cluster c => exact cluster_stop_keeps h
    | generic f => trivial
    | other r e => cases e <;> trivial
  unfold demote
  split <;> exact this

theorem module_wait_dev {env : Env σ} {sec : Nat} (m : Module σ) : (m.wait env sec).1.dev = m.dev := by
  unfold Module.wait; split <;> rfl

theorem comp_wait_keeps {env : Env σ} {sec : Nat} {c : Comp σ} (h : CompOk c) : CompOk (c.wait env sec).1 := by
  cases c with
  | cluster c =>
    refine ⟨?_, ?_⟩
    · simp only [Comp.wait]; rw [forEach_names]; exact h.1
    · exact forEach_keeps (fun _ (m : Module σ) => m.wait env sec) (Q := fun (m : Module σ) => Coherent m.dev)
        (fun _ m hm => by simp only [module_wait_dev]; exact hm) _ h.2
  | generic f => trivial
  | other r e => trivial

theorem start_ok {x : Coord σ} (h : Ok x) : Ok x.start.1 := by
  unfold Coord.start
  cases x.compiled with
  | none => exact h
  | some s =>
    refine ⟨?_, ?_⟩
    · simp only; rw [forEach_names]; exact h.names
    · refine forEach_keeps _ (Q := CompOk (σ := σ)) (fun n c hc => ?_) _ h.comps
      split
      · exact comp_start_keeps hc
      · exact hc

theorem stop_ok {x : Coord σ} (allow : Bool) (h : Ok x) : Ok (x.stop allow).1 := by
  unfold Coord.stop
  refine ⟨?_, ?_⟩
  · simp only; rw [forEach_names]; exact h.names
  · exact forEach_keeps _ (Q := CompOk (σ := σ)) (fun n c hc => comp_stop_keeps allow hc) _ h.comps

theorem wait_ok {env : Env σ} {sec : Nat} {x : Coord σ} (h : Ok x) : Ok (x.wait env sec).1 := by
  unfold Coord.wait
  refine ⟨?_, ?_⟩
  · simp only; rw [forEach_names]; exact h.names
  · exact forEach_keeps _ (Q := CompOk (σ := σ)) (fun n c hc => comp_wait_keeps hc) _ h.comps

theorem retrieve_fst {env : Env σ} {sec : Nat} {x : Coord σ} :
    (x.retrieve env sec).1 = x ∨ (x.retrieve env sec).1 = (x.wait env sec).1 := by
  unfold Coord.retrieve
  cases x.compiled with
  | none => exact .inl rfl
  | some s =>
    right
    rcases h : x.wait env sec with ⟨x', _ | e⟩ <;> simp [h]

theorem retrieve_ok {env : Env σ} {sec : Nat} {x : Coord σ} (h : Ok x) : Ok (x.retrieve env sec).1 := by
  rcases retrieve_fst (env := env) (sec := sec) (x := x) with e | e <;> rw [e]
  · exact h
  · exact wait_ok h

theorem after_ok {env : Env σ} (he : EnvOk env) {x : Coord σ} (h : Ok x) (call : Call σ)
    (hs : ∀ s, call = .prepare s → CompiledOk s) : Ok (after env x call) := by
  cases call with
  | prepare s => exact coord_prepare_keeps he (hs s rfl) h
  | start => exact start_ok h
  | stop a => exact stop_ok a h
  | wait sec => exact wait_ok h
  | retrieve sec => exact retrieve_ok h

/-- **C59, histories.** After any calls, some of which may have failed, what the driver remembers of the
modules is right, so that all of the following applies. -/
theorem history_ok {env : Env σ} (he : EnvOk env) : ∀ (calls : List (Call σ)) {x : Coord σ}, Ok x →
    (∀ s, .prepare s ∈ calls → CompiledOk s) → Ok (calls.foldl (after env) x)
  | [], x, h, _ => h
  | call :: rest, x, h, hs =>
    history_ok he rest (after_ok he h call (fun s e => hs s (by simp [e])))
      (fun s e => hs s (List.mem_cons_of_mem _ e))

/-! ### Prepare -/

/-- **C59, preparing.** A schedule is accepted exactly if there is a component for all of its instructions,
of the right kind, and the programs fit the modules. -/
theorem prepare_iff {env : Env σ} (he : EnvOk env) {s : Compiled σ} (hs : CompiledOk s) {x : Coord σ}
    (hx : Ok x) : (x.prepare env s).2 = none ↔ Preparable x s := by
  rw [coord_prepare_snd, updateEach_iff _ _ _ hs.names]
  constructor
  · intro h c i hi
    obtain ⟨comp, h1, h2⟩ := h c i hi
    exact ⟨comp, h1, (comp_prepare_iff he hs hi (hx.comps _ (Dict.mem_of_get? h1))).mp h2⟩
  · intro h c i hi
    obtain ⟨comp, h1, h2⟩ := h c i hi
    exact ⟨comp, h1, (comp_prepare_iff he hs hi (hx.comps _ (Dict.mem_of_get? h1))).mpr h2⟩

/-- Nothing is started or stopped by `prepare`. -/
theorem prepare_running {env : Env σ} {s : Compiled σ} (hs : CompiledOk s) {x : Coord σ}
    (h : (x.prepare env s).2 = none) (c n : String) (k : Nat) :
    Running (x.prepare env s).1 c n k ↔ Running x c n k := by
  by_cases hp : ∃ p, InSchedule s c n p
  · obtain ⟨p, hp⟩ := hp
    obtain ⟨m, d, h1, h2, h3⟩ := prepared_module hs h hp
    constructor
    · rintro ⟨m', h4, h5⟩
      rw [at_unique h4 h3] at h5
      exact ⟨m, h1, h5⟩
    · rintro ⟨m', h4, h5⟩
      rw [at_unique h4 h1] at h5
      exact ⟨_, h3, h5⟩
  · have := unprepared_module hs h (c := c) (n := n) (fun p hp' => hp ⟨p, hp'⟩)
    unfold Running
    simp only [this]

/-- **C59, synchronisation after `prepare`.** The modules of the schedule are synchronised as it says; the
others stay as they were. -/
theorem prepare_synced {env : Env σ} (he : EnvOk env) {s : Compiled σ} (hs : CompiledOk s) {x : Coord σ}
    (hx : Ok x) (h : (x.prepare env s).2 = none) (c n : String) (k : Nat) :
    Synced (x.prepare env s).1 c n k ↔
      (∃ z, Plays s c n k true z) ∨ ((∀ p, ¬InSchedule s c n p) ∧ Synced x c n k) := by
  by_cases hp : ∃ p, InSchedule s c n p
  · obtain ⟨p, hp⟩ := hp
    obtain ⟨m, d, h1, h2, h3⟩ := prepared_module hs h hp
    have hpo := hs.progs c n p hp
    have hco := at_coherent hx h1
    constructor
    · rintro ⟨m', h4, h5, h6⟩
      obtain rfl := at_unique h4 h3
      left
      simp only at h5 h6
      by_cases hk : k ∈ p.seqs
      · obtain ⟨b, z, hz⟩ := mem_seqs.mp hk
        have := (load_seq he hpo hco h2 hz).2.1
        rw [this] at h6
        simp only [Prepare.Val.bool.injEq] at h6
        exact ⟨z, p, hp, h6 ▸ hz⟩
      · rw [load_unused he hpo hco h2 hk h5] at h6
        simp at h6
    · rintro (⟨z, p', hp', hz⟩ | ⟨hno, _⟩)
      · obtain rfl := prog_unique hs hp hp'
        obtain ⟨h7, h8, _⟩ := load_seq he hpo hco h2 hz
        exact ⟨_, h3, h7, h8⟩
      · exact absurd hp (hno p)
  · have hno : ∀ p, ¬InSchedule s c n p := fun p hp' => hp ⟨p, hp'⟩
    have := unprepared_module hs h (c := c) (n := n) hno
    constructor
    · rintro ⟨m', h4, h5⟩
      exact .inr ⟨hno, m', (this m').mp h4, h5⟩
    · rintro (⟨z, p', hp', hz⟩ | ⟨_, m', h4, h5⟩)
      · exact absurd hp' (hno p')
      · exact ⟨m', (this m').mpr h4, h5⟩

/-! ### Start -/

theorem coord_start_none {x : Coord σ} (h : x.compiled = none) : x.start = (x, some .valueError) := by
  unfold Coord.start; rw [h]

/-- **C59.** `start` and `retrieve_acquisition` before any `prepare` are refused. -/
theorem start_unprepared {x : Coord σ} (h : x.compiled = none) : x.start = (x, some .valueError) ∧
    ∀ env sec, x.retrieve env sec = (x, .error .valueError) := by
  refine ⟨coord_start_none h, ?_⟩
  intro env sec
  unfold Coord.retrieve; rw [h]

/-- A component after `start`. -/
theorem coord_start_get {x : Coord σ} {s : Compiled σ} (hc : x.compiled = some s) (h : x.start.2 = none)
    (c : String) : Dict.get? x.start.1.comps c =
      (Dict.get? x.comps c).map (fun m => if c ∈ s.instrs.map Prod.fst then m.start.1 else m) ∧
    ∀ comp, Dict.get? x.comps c = some comp → Uses s c → comp.start.2 = none := by
  have e : x.start = ({ x with comps := (forEach (fun n c => if n ∈ s.instrs.map Prod.fst then c.start else (c, none)) x.comps).1 },
      (forEach (fun n c => if n ∈ s.instrs.map Prod.fst then c.start else (c, none)) x.comps).2) := by
    unfold Coord.start; rw [hc]
  rw [e] at h ⊢
  simp only at h ⊢
  refine ⟨?_, ?_⟩
  · rw [forEach_get _ _ h]
    congr 1
    funext m
    split <;> rfl
  · intro comp hg hu
    have := (forEach_ok _ _).mp h _ (Dict.mem_of_get? hg)
    simp only at this
    rw [if_pos (show c ∈ s.instrs.map Prod.fst from hu)] at this
    exact this

theorem coord_start_compiled (x : Coord σ) : x.start.1.compiled = x.compiled := by
  unfold Coord.start
  cases h : x.compiled <;> simp [h]

/-- The program of a prepared cluster. -/
theorem prepared_prog {env : Env σ} {s : Compiled σ} (hs : CompiledOk s) {x : Coord σ} (hx : Ok x)
    (he : EnvOk env) (h : (x.prepare env s).2 = none) {c : String} {cp : ClusterProg σ}
    (hc : (c, .cluster cp) ∈ s.instrs) : ∃ cl, Dict.get? (x.prepare env s).1.comps c = some (.cluster cl) ∧
      cl.prog = some (cp.mods.map Prod.fst, cp.trigger) ∧ CompOk (.cluster cl) := by
  obtain ⟨cl, h1, h2, h3⟩ := coord_prepare_cluster hs h hc
  refine ⟨_, h3, rfl, ?_⟩
  exact cluster_prepare_keeps he (fun n q hq => hs.progs c n q ⟨cp, hc, hq⟩) (hx.comps _ (Dict.mem_of_get? h1))

section started
variable {env : Env σ} {s : Compiled σ} {x : Coord σ}

/-- A module of the schedule after `prepare` and `start`. -/
theorem started_module (he : EnvOk env) (hs : CompiledOk s) (hx : Ok x) (h : (x.prepare env s).2 = none)
    (hst : (x.prepare env s).1.start.2 = none) {c n : String} {p : ModProg σ} (hp : InSchedule s c n p) :
    ∃ m d m', At x c n m ∧ loadDev env p m = .ok d ∧ At (x.prepare env s).1.start.1 c n m' ∧
      Started { m with dev := d, prog := p.seqs, manager := managerOf m.type s.chans s.reps p } m' := by
  obtain ⟨m, d, h1, h2, h3⟩ := prepared_module hs h hp
  obtain ⟨cp, hc, hn⟩ := hp
  obtain ⟨cl, h4, h5, h6⟩ := prepared_prog hs hx he h hc
  obtain ⟨cl', h7, h8⟩ := h3
  rw [h4] at h7
  obtain rfl := (Comp.cluster.injEq ..).mp (Option.some.inj h7)
  have hu : Uses s c := List.mem_map.mpr ⟨_, hc, rfl⟩
  obtain ⟨g1, g2⟩ := coord_start_get (x := (x.prepare env s).1) (s := s) rfl hst c
  have g3 : cl.start.2 = none := g2 _ h4 hu
  rw [h4] at g1
  simp only [Option.map_some, if_pos (show c ∈ s.instrs.map Prod.fst from hu)] at g1
  obtain ⟨m', h9, h10, _⟩ := (start_module h6.1 h5 g3 n).2 _ h8
  exact ⟨m, d, m', h1, h2, ⟨cl.start.1, g1, h9⟩, h10 (List.mem_map.mpr ⟨_, hn, rfl⟩)⟩

/-- A module of a cluster of the schedule that is not itself in it. -/
theorem idle_module (he : EnvOk env) (hs : CompiledOk s) (hx : Ok x) (h : (x.prepare env s).2 = none)
    (hst : (x.prepare env s).1.start.2 = none) {c n : String} (hu : Uses s c) (hp : ∀ p, ¬InSchedule s c n p)
    {m' : Module σ} (hm : At (x.prepare env s).1.start.1 c n m') :
    ∃ m, At x c n m ∧ (∀ k, m'.state k = .stopped) ∧ m'.type = m.type ∧ m'.data = m.data ∧
      ∀ k q, m'.dev.hw (.seq k q) = m.dev.hw (.seq k q) := by
  obtain ⟨cl', h1, h2⟩ := hm
  obtain ⟨g1, g2⟩ := coord_start_get (x := (x.prepare env s).1) (s := s) rfl hst c
  rw [g1] at h1
  cases hcomp : Dict.get? (x.prepare env s).1.comps c with
  | none => simp [hcomp] at h1
  | some comp =>
    simp only [hcomp, Option.map_some, if_pos (show c ∈ s.instrs.map Prod.fst from hu), Option.some.injEq] at h1
    cases comp with
    | generic f => simp [Comp.start] at h1
    | other r e => simp [Comp.start] at h1
    | cluster cl =>
      have h3 : cl.start.1 = cl' := (Comp.cluster.injEq ..).mp h1
      subst h3
      obtain ⟨e, hem, rfl⟩ := List.mem_map.mp hu
      obtain ⟨c, i⟩ := e
      cases i with
      | cluster cp =>
        obtain ⟨cl2, h4, h5, h6⟩ := prepared_prog hs hx he h hem
        rw [hcomp] at h4
        obtain rfl := (Comp.cluster.injEq ..).mp (Option.some.inj h4)
        have g3 : cl.start.2 = none := g2 _ hcomp (List.mem_map.mpr ⟨_, hem, rfl⟩)
        obtain ⟨s1, s2⟩ := start_module h6.1 h5 g3 n
        cases hm1 : Dict.get? cl.modules n with
        | none => rw [s1 hm1] at h2; simp at h2
        | some m =>
          obtain ⟨m2, h7, _, h8⟩ := s2 m hm1
          rw [h7] at h2
          obtain rfl := Option.some.inj h2
          obtain ⟨a1, a2, a3, a4⟩ := h8 (fun hm => by
            obtain ⟨e, he', rfl⟩ := List.mem_map.mp hm
            exact hp e.2 ⟨cp, hem, he'⟩)
          exact ⟨m, (unprepared_module hs h hp m).mp ⟨cl, hcomp, hm1⟩, a1, a2, a3, a4⟩
      | generic l =>
        obtain ⟨comp, h4, h5, h6⟩ := (updateEach_ok _ s.instrs x.comps hs.names h).1 c _ hem
        rw [← coord_prepare_comps, hcomp] at h6
        cases comp <;> simp [Comp.prepare] at h5 h6
      | other =>
        obtain ⟨comp, h4, h5, h6⟩ := (updateEach_ok _ s.instrs x.comps hs.names h).1 c _ hem
        rw [← coord_prepare_comps, hcomp] at h6
        cases comp <;> simp [Comp.prepare] at h5 h6

/-- **C59, what runs.** After `prepare` and `start`, the sequencers that run in the instruments of the
schedule are exactly those that the schedule uses, whatever ran or was loaded before. -/
theorem start_runs (he : EnvOk env) (hs : CompiledOk s) (hx : Ok x) (h : (x.prepare env s).2 = none)
    (hst : (x.prepare env s).1.start.2 = none) {c : String} (hu : Uses s c) (n : String) (k : Nat) :
    Running (x.prepare env s).1.start.1 c n k ↔ ∃ b z, Plays s c n k b z := by
  by_cases hp : ∃ p, InSchedule s c n p
  · obtain ⟨p, hp⟩ := hp
    obtain ⟨m, d, m', h1, h2, h3, h4⟩ := started_module he hs hx h hst hp
    have hpo := hs.progs c n p hp
    have hco := at_coherent hx h1
    constructor
    · rintro ⟨m2, h5, h6⟩
      obtain rfl := at_unique h5 h3
      rw [h4.state] at h6
      split at h6
      · rename_i hk
        obtain ⟨b, z, hz⟩ := mem_seqs.mp hk.1
        exact ⟨b, z, p, hp, hz⟩
      · simp at h6
    · rintro ⟨b, z, p', hp', hz⟩
      obtain rfl := prog_unique hs hp hp'
      refine ⟨m', h3, ?_⟩
      rw [h4.state, if_pos ⟨mem_seqs.mpr ⟨b, z, hz⟩, (load_seq he hpo hco h2 hz).1⟩]
  · have hno : ∀ p, ¬InSchedule s c n p := fun p hp' => hp ⟨p, hp'⟩
    constructor
    · rintro ⟨m', h1, h2⟩
      obtain ⟨m, _, h3, _⟩ := idle_module he hs hx h hst hu hno h1
      rw [h3 k] at h2
      simp at h2
    · rintro ⟨b, z, p, hp', _⟩
      exact absurd hp' (hno p)

/-- **C59, what is played.** A sequencer runs what the schedule has for it, and synchronises as it says; no
sequencer stays armed. -/
theorem start_plays (he : EnvOk env) (hs : CompiledOk s) (hx : Ok x) (h : (x.prepare env s).2 = none)
    (hst : (x.prepare env s).1.start.2 = none) {c n : String} {k : Nat} {b : Bool} {z : σ}
    (hpl : Plays s c n k b z) : ∃ m, At (x.prepare env s).1.start.1 c n m ∧
      m.dev.hw (.seq k .sequence) = .program z ∧ m.dev.hw (.seq k .sync) = .bool b ∧
      m.state k = .running := by
  obtain ⟨p, hp, hz⟩ := hpl
  obtain ⟨m, d, m', h1, h2, h3, h4⟩ := started_module he hs hx h hst hp
  have hl := load_seq he (hs.progs c n p hp) (at_coherent hx h1) h2 hz
  refine ⟨m', h3, ?_, ?_, ?_⟩
  · rw [h4.seq]; exact hl.2.2
  · rw [h4.seq]; exact hl.2.1
  · rw [h4.state, if_pos ⟨mem_seqs.mpr ⟨b, z, hz⟩, hl.1⟩]

theorem start_not_armed (he : EnvOk env) (hs : CompiledOk s) (hx : Ok x) (h : (x.prepare env s).2 = none)
    (hst : (x.prepare env s).1.start.2 = none) {c n : String} (hu : Uses s c) {m : Module σ}
    (hm : At (x.prepare env s).1.start.1 c n m) (k : Nat) : m.state k ≠ .armed := by
  by_cases hp : ∃ p, InSchedule s c n p
  · obtain ⟨p, hp⟩ := hp
    obtain ⟨_, _, m', _, _, h3, h4⟩ := started_module he hs hx h hst hp
    obtain rfl := at_unique hm h3
    rw [h4.state]
    split <;> simp
  · obtain ⟨m', _, h3, _⟩ := idle_module he hs hx h hst hu (fun p hp' => hp ⟨p, hp'⟩) hm
    rw [h3 k]; simp

/-- **C59.** Instruments that the schedule does not use are not touched, neither by `prepare` nor by
`start`. -/
theorem start_others (hs : CompiledOk s) (h : (x.prepare env s).2 = none)
    (hst : (x.prepare env s).1.start.2 = none) {c : String} (hu : ¬Uses s c) :
    Dict.get? (x.prepare env s).1.start.1.comps c = Dict.get? x.comps c := by
  obtain ⟨g1, _⟩ := coord_start_get (x := (x.prepare env s).1) (s := s) rfl hst c
  rw [g1, coord_prepare_other hs h hu]
  simp [if_neg (show c ∉ s.instrs.map Prod.fst from hu)]

/-- `start` changes no synchronisation. -/
theorem start_synced (he : EnvOk env) (hs : CompiledOk s) (hx : Ok x) (h : (x.prepare env s).2 = none)
    (hst : (x.prepare env s).1.start.2 = none) (c n : String) (k : Nat) :
    Synced (x.prepare env s).1.start.1 c n k ↔
      (∃ z, Plays s c n k true z) ∨ ((∀ p, ¬InSchedule s c n p) ∧ Synced x c n k) := by
  by_cases hu : Uses s c
  · by_cases hp : ∃ p, InSchedule s c n p
    · obtain ⟨p, hp⟩ := hp
      obtain ⟨m, d, m', h1, h2, h3, h4⟩ := started_module he hs hx h hst hp
      have hpo := hs.progs c n p hp
      have hco := at_coherent hx h1
      constructor
      · rintro ⟨m2, h5, h6, h7⟩
        obtain rfl := at_unique h5 h3
        left
        rw [h4.seq] at h7
        rw [h4.type] at h6
        simp only at h6 h7
        by_cases hk : k ∈ p.seqs
        · obtain ⟨b, z, hz⟩ := mem_seqs.mp hk
          rw [(load_seq he hpo hco h2 hz).2.1] at h7
          simp only [Prepare.Val.bool.injEq] at h7
          exact ⟨z, p, hp, h7 ▸ hz⟩
        · rw [load_unused he hpo hco h2 hk h6] at h7
          simp at h7
      · rintro (⟨z, p', hp', hz⟩ | ⟨hno, _⟩)
        · obtain rfl := prog_unique hs hp hp'
          obtain ⟨h7, h8, _⟩ := load_seq he hpo hco h2 hz
          exact ⟨m', h3, h4.type ▸ h7, by rw [h4.seq]; exact h8⟩
        · exact absurd hp (hno p)
    · have hno : ∀ p, ¬InSchedule s c n p := fun p hp' => hp ⟨p, hp'⟩
      constructor
      · rintro ⟨m', h1, h2, h3⟩
        obtain ⟨m, h4, _, h5, _, h6⟩ := idle_module he hs hx h hst hu hno h1
        exact .inr ⟨hno, m, h4, h5 ▸ h2, by rw [← h6]; exact h3⟩
      · rintro (⟨z, p', hp', hz⟩ | ⟨_, m, h1, h2, h3⟩)
        · exact absurd hp' (hno p')
        · -- the module is still there
          obtain ⟨g1, g2⟩ := coord_start_get (x := (x.prepare env s).1) (s := s) rfl hst c
          obtain ⟨cl, h4, h5⟩ := (unprepared_module hs h hno m).mpr h1
          rw [h4] at g1
          simp only [Option.map_some, if_pos (show c ∈ s.instrs.map Prod.fst from hu)] at g1
          have g3 : cl.start.2 = none := g2 _ h4 hu
          have hcl : CompOk (.cluster cl) :=
            (coord_prepare_keeps he hs hx).comps _ (Dict.mem_of_get? h4)
          have : ∃ m', Dict.get? cl.start.1.modules n = some m' := by
            cases hpr : cl.prog with
            | none =>
              have : cl.start.1.modules = onAll Module.halt cl.modules := by
                unfold Cluster.start; rw [hpr]
              rw [this, onAll_get, h5]
              exact ⟨_, rfl⟩
            | some q =>
              obtain ⟨m', h6, _⟩ := (start_module (names := q.1) (trig := q.2) hcl.1 hpr g3 n).2 m h5
              exact ⟨m', h6⟩
          obtain ⟨m', h6⟩ := this
          have hat : At (x.prepare env s).1.start.1 c n m' := ⟨_, g1, h6⟩
          obtain ⟨m2, h7, _, h8, _, h9⟩ := idle_module he hs hx h hst hu hno hat
          obtain rfl := at_unique h7 h1
          exact ⟨m', hat, h8 ▸ h2, by rw [h9]; exact h3⟩
  · have hno : ∀ p, ¬InSchedule s c n p := by
      rintro p ⟨cp, h1, _⟩
      exact hu (List.mem_map.mpr ⟨_, h1, rfl⟩)
    have hsame := start_others hs h hst hu
    constructor
    · rintro ⟨m, ⟨cl, h1, h2⟩, h3⟩
      rw [hsame] at h1
      exact .inr ⟨hno, m, ⟨cl, h1, h2⟩, h3⟩
    · rintro (⟨z, p', hp', hz⟩ | ⟨_, m, ⟨cl, h1, h2⟩, h3⟩)
      · exact absurd hp' (hno p')
      · exact ⟨m, ⟨cl, by rw [hsame]; exact h1, h2⟩, h3⟩

end started

/-! ### Stop -/

/-- **C59.** `stop` fails exactly if a component does, where with `allow_failure` an `AttributeError` is
only a warning.  Clusters and the generic component do not fail. -/
theorem stop_iff {x : Coord σ} {allow : Bool} : (x.stop allow).2 = none ↔
    ∀ n r e, (n, Comp.other r (some e)) ∈ x.comps → allow = true ∧ e = .attributeError := by
  have : (x.stop allow).2 = (forEach (fun _ c => demote allow c.stop) x.comps).2 := rfl
  rw [this, forEach_ok]
  constructor
  · intro h n r e hm
    have := h _ hm
    simp only [Comp.stop, demote, Option.some.injEq] at this
    split at this
    · assumption
    · simp at this
  · rintro h ⟨n, c⟩ hm
    cases c with
    | cluster c => simp [Comp.stop, demote]
    | generic f => simp [Comp.stop, demote]
    | other r e =>
      cases e with
      | none => simp [Comp.stop, demote]
      | some e =>
        obtain ⟨h1, h2⟩ := h n r e hm
        simp [Comp.stop, demote, h1, h2]

theorem demote_fst {M : Type} (allow : Bool) (r : M × Option Err) : (demote allow r).1 = r.1 := by
  unfold demote
  split <;> rfl

theorem stop_get {x : Coord σ} {allow : Bool} (h : (x.stop allow).2 = none) (c : String) :
    Dict.get? (x.stop allow).1.comps c = (Dict.get? x.comps c).map (fun m => (demote allow m.stop).1) := by
  have h' : (forEach (fun _ c => demote allow c.stop) x.comps).2 = none := h
  exact forEach_get _ _ h' c

theorem stop_at {x : Coord σ} {allow : Bool} (h : (x.stop allow).2 = none) {c n : String} {m' : Module σ}
    (hm : At (x.stop allow).1 c n m') : ∃ m, At x c n m ∧ m' = m.disableSync.halt := by
  obtain ⟨cl', h1, h2⟩ := hm
  rw [stop_get h] at h1
  cases hc : Dict.get? x.comps c with
  | none => simp [hc] at h1
  | some comp =>
    simp only [hc, Option.map_some, Option.some.injEq] at h1
    cases comp with
    | cluster cl =>
      simp only [Comp.stop, demote] at h1
      simp only [reduceCtorEq, and_false, if_false, Comp.cluster.injEq] at h1
      subst h1
      simp only [Cluster.stop] at h2
      rw [onAll_get] at h2
      cases hmm : Dict.get? cl.modules n with
      | none => simp [hmm] at h2
      | some m =>
        simp only [hmm, Option.map_some, Option.some.injEq] at h2
        exact ⟨m, ⟨cl, hc, hmm⟩, h2.symm⟩
    | generic f => simp [Comp.stop, demote] at h1
    | other r e =>
      cases e with
      | none => simp [Comp.stop, demote] at h1
      | some e =>
        rw [demote_fst] at h1
        simp [Comp.stop] at h1

theorem at_stop {x : Coord σ} {allow : Bool} (h : (x.stop allow).2 = none) {c n : String} {m : Module σ}
    (hm : At x c n m) : At (x.stop allow).1 c n m.disableSync.halt := by
  obtain ⟨cl, h1, h2⟩ := hm
  refine ⟨cl.stop, ?_, ?_⟩
  · rw [stop_get h, h1]
    simp [Comp.stop, demote]
  · simp only [Cluster.stop]
    rw [onAll_get, h2]
    rfl

/-- **C59, stopping.** After `stop` no sequencer runs, none is armed and none synchronises; what was loaded
and measured stays. -/
theorem stop_all {x : Coord σ} (hx : Ok x) {allow : Bool} (h : (x.stop allow).2 = none) (c n : String) :
    (∀ k, ¬Running (x.stop allow).1 c n k) ∧ (∀ k, ¬Synced (x.stop allow).1 c n k) ∧
    ∀ m', At (x.stop allow).1 c n m' → ∃ m, At x c n m ∧ (∀ k, m'.state k = .stopped) ∧ m'.data = m.data ∧
      m'.prog = m.prog ∧ m'.manager = m.manager ∧ m'.type = m.type ∧
      ∀ p, (∀ k, p ≠ .seq k .sync) → m'.dev.hw p = m.dev.hw p := by
  refine ⟨?_, ?_, ?_⟩
  · rintro k ⟨m', h1, h2⟩
    obtain ⟨m, _, rfl⟩ := stop_at h h1
    simp [Module.halt] at h2
  · rintro k ⟨m', h1, h2, h3⟩
    obtain ⟨m, h4, rfl⟩ := stop_at h h1
    have := (disableSync_hw (at_coherent hx h4)).2.1 k h2
    simp only [Module.halt] at h3
    rw [this] at h3
    simp at h3
  · intro m' h1
    obtain ⟨m, h4, rfl⟩ := stop_at h h1
    exact ⟨m, h4, fun k => rfl, rfl, rfl, rfl, rfl, fun p hp => (disableSync_hw (at_coherent hx h4)).2.2 p hp⟩

/-- **C59, no deadlock.** After `stop`, `prepare` and `start`, exactly the sequencers of the schedule run, in
all instruments, exactly those that it synchronises wait for each other, and no one waits for a sequencer
that does not run. -/
theorem stop_prepare_start {env : Env σ} (he : EnvOk env) {s : Compiled σ} (hs : CompiledOk s) {x : Coord σ}
    (hx : Ok x) {allow : Bool} (h0 : (x.stop allow).2 = none) (h : ((x.stop allow).1.prepare env s).2 = none)
    (hst : ((x.stop allow).1.prepare env s).1.start.2 = none) :
    (∀ c n k, Running ((x.stop allow).1.prepare env s).1.start.1 c n k ↔ ∃ b z, Plays s c n k b z) ∧
    (∀ c n k, Synced ((x.stop allow).1.prepare env s).1.start.1 c n k ↔ ∃ z, Plays s c n k true z) ∧
    ¬Hangs ((x.stop allow).1.prepare env s).1.start.1 := by
  have hx' := stop_ok allow hx
  have hrun : ∀ c n k, Running ((x.stop allow).1.prepare env s).1.start.1 c n k ↔ ∃ b z, Plays s c n k b z := by
    intro c n k
    by_cases hu : Uses s c
    · exact start_runs he hs hx' h hst hu n k
    · have hsame := start_others hs h hst hu
      constructor
      · rintro ⟨m, ⟨cl, h1, h2⟩, h3⟩
        rw [hsame] at h1
        exact absurd ⟨m, ⟨cl, h1, h2⟩, h3⟩ ((stop_all hx h0 c n).1 k)
      · rintro ⟨b, z, p, ⟨cp, h1, _⟩, _⟩
        exact absurd (List.mem_map.mpr ⟨_, h1, rfl⟩) hu
  have hsync : ∀ c n k, Synced ((x.stop allow).1.prepare env s).1.start.1 c n k ↔ ∃ z, Plays s c n k true z := by
    intro c n k
    rw [start_synced he hs hx' h hst]
    constructor
    · rintro (h1 | ⟨_, h1⟩)
      · exact h1
      · exact absurd h1 ((stop_all hx h0 c n).2.1 k)
    · exact .inl
  refine ⟨hrun, hsync, ?_⟩
  rintro ⟨_, c, n, k, h1, h2⟩
  obtain ⟨z, hz⟩ := (hsync c n k).mp h1
  exact h2 ((hrun c n k).mpr ⟨true, z, hz⟩)

/-- **C59, finding.** `stop` also ends the synchronisation of what is loaded: if the schedule is started
again without `prepare`, no sequencer of a cluster synchronises, although the schedule says so. -/
theorem stop_start_unsynced {x : Coord σ} (hx : Ok x) {allow : Bool} (h0 : (x.stop allow).2 = none)
    (hst : (x.stop allow).1.start.2 = none) (c n : String) (k : Nat) :
    ¬Synced (x.stop allow).1.start.1 c n k := by
  have hcomp : ∀ cl, Dict.get? (x.stop allow).1.comps c = some (.cluster cl) → ∀ m, Dict.get? cl.modules n = some m →
      ¬(k < sequencers m.type ∧ m.dev.hw (.seq k .sync) = .bool true) :=
    fun cl h1 m h2 h3 => (stop_all hx h0 c n).2.1 k ⟨m, ⟨cl, h1, h2⟩, h3⟩
  rintro ⟨m', ⟨cl', h1, h2⟩, h3, h4⟩
  cases hc : (x.stop allow).1.compiled with
  | none =>
    rw [coord_start_none hc] at hst; simp at hst
  | some s =>
    obtain ⟨g1, g2⟩ := coord_start_get hc hst c
    rw [g1] at h1
    cases hg : Dict.get? (x.stop allow).1.comps c with
    | none => simp [hg] at h1
    | some comp =>
      simp only [hg, Option.map_some, Option.some.injEq] at h1
      by_cases hu : Uses s c
      · rw [if_pos (show c ∈ s.instrs.map Prod.fst from hu)] at h1
        cases comp with
        | generic f => simp [Comp.start] at h1
        | other r e => simp [Comp.start] at h1
        | cluster cl =>
          have h5 : cl.start.1 = cl' := (Comp.cluster.injEq ..).mp h1
          subst h5
          have g3 : cl.start.2 = none := g2 _ hg hu
          have hcl : CompOk (.cluster cl) := (stop_ok allow hx).comps _ (Dict.mem_of_get? hg)
          cases hpr : cl.prog with
          | none =>
            have : cl.start.1.modules = onAll Module.halt cl.modules := by
              unfold Cluster.start; rw [hpr]
            rw [this, onAll_get] at h2
            cases hm : Dict.get? cl.modules n with
            | none => simp [hm] at h2
            | some m =>
              simp only [hm, Option.map_some, Option.some.injEq] at h2
              subst h2
              exact hcomp cl hg m hm ⟨h3, h4⟩
          | some q =>
            obtain ⟨s1, s2⟩ := start_module (names := q.1) (trig := q.2) hcl.1 hpr g3 n
            cases hm : Dict.get? cl.modules n with
            | none => rw [s1 hm] at h2; simp at h2
            | some m =>
              obtain ⟨m2, h6, h7, h8⟩ := s2 m hm
              rw [h6] at h2
              obtain rfl := Option.some.inj h2
              by_cases hin : n ∈ q.1
              · have hs' := h7 hin
                exact hcomp cl hg m hm ⟨hs'.type ▸ h3, by rw [← hs'.seq]; exact h4⟩
              · obtain ⟨_, b2, _, b4⟩ := h8 hin
                exact hcomp cl hg m hm ⟨b2 ▸ h3, by rw [← b4]; exact h4⟩
      · rw [if_neg (show c ∉ s.instrs.map Prod.fst from hu)] at h1
        subst h1
        exact hcomp _ hg m' h2 ⟨h3, h4⟩

end Verif.Lifecycle
