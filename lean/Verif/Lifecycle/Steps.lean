/-
What each call does to the modules.
-/
import Verif.Lifecycle.Lemmas

set_option linter.unusedSimpArgs false
set_option linter.unusedVariables false
set_option linter.unusedSectionVars false

namespace Verif.Lifecycle

open Verif.Connect (ModType)
open Verif.Prepare (Dev Val)
open Verif.Prepare.Spec (Coherent CalOk sequencers TraceOn)
open Spec

variable {σ : Type} [DecidableEq σ]

/-! ### Prepare -/

theorem cluster_prepare_result {env : Env σ} {chans : Nat → Option Retrieve.Chan} {reps : Nat}
    {p : ClusterProg σ} {c : Cluster σ} (hn : (p.mods.map Prod.fst).Nodup)
    (h : (c.prepare env chans reps p).2 = none) :
    (∀ n q, (n, q) ∈ p.mods → ∃ m d, Dict.get? c.modules n = some m ∧ loadDev env q m = .ok d ∧
      Dict.get? (c.prepare env chans reps p).1.modules n =
        some { m with dev := d, prog := q.seqs, manager := managerOf m.type chans reps q }) ∧
    (∀ n, n ∉ p.mods.map Prod.fst →
      Dict.get? (c.prepare env chans reps p).1.modules n = Dict.get? c.modules n) := by
  have h' : (updateEach (fun p m => Module.prepare env chans reps p m) p.mods c.modules).2 = none := h
  obtain ⟨h1, h2⟩ := updateEach_ok _ p.mods c.modules hn h'
  refine ⟨?_, h2⟩
  intro n q hq
  obtain ⟨m, h3, h4, h5⟩ := h1 n q hq
  obtain ⟨d, h6, h7⟩ := module_result h4
  exact ⟨m, d, h3, h6, by rw [← h7]; exact h5⟩

theorem cluster_prepare_iff {env : Env σ} (he : EnvOk env) {chans : Nat → Option Retrieve.Chan} {reps : Nat}
    {p : ClusterProg σ} {c : Cluster σ} (hn : (p.mods.map Prod.fst).Nodup)
    (hp : ∀ n q, (n, q) ∈ p.mods → ProgOk q) (hc : ∀ e ∈ c.modules, Coherent e.2.dev) :
    (c.prepare env chans reps p).2 = none ↔
      ∀ n q, (n, q) ∈ p.mods → ∃ m, Dict.get? c.modules n = some m ∧ Fits m.type q := by
  have : (c.prepare env chans reps p).2 =
    (updateEach (fun p m => Module.prepare env chans reps p m) p.mods c.modules).2 := rfl
  rw [this, updateEach_iff _ _ _ hn]
  constructor
  · intro h n q hq
    obtain ⟨m, h1, h2⟩ := h n q hq
    exact ⟨m, h1, (load_iff he (hp n q hq) (hc _ (Dict.mem_of_get? h1))).mp (module_ok.mp h2)⟩
  · intro h n q hq
    obtain ⟨m, h1, h2⟩ := h n q hq
    exact ⟨m, h1, module_ok.mpr ((load_iff he (hp n q hq) (hc _ (Dict.mem_of_get? h1))).mpr h2)⟩

theorem cluster_prepare_keeps {env : Env σ} (he : EnvOk env) {chans : Nat → Option Retrieve.Chan} {reps : Nat}
    {p : ClusterProg σ} {c : Cluster σ} (hp : ∀ n q, (n, q) ∈ p.mods → ProgOk q)
    (hc : CompOk (.cluster c)) : CompOk (.cluster (c.prepare env chans reps p).1) := by
  exact updateEach_keeps (Q := fun m => Coherent m.dev) _ p.mods c.modules
    (fun n q m hm hq => module_keeps he (hp n q hm) hq) hc.1 hc.2

theorem comp_prepare_keeps {env : Env σ} (he : EnvOk env) {s : Compiled σ} {i : Instr σ} {c : Comp σ}
    (hp : ∀ cp, i = .cluster cp → ∀ n q, (n, q) ∈ cp.mods → ProgOk q) (hc : CompOk c) :
    CompOk (c.prepare env s i).1 := by
  cases c with
  | cluster c =>
    cases i with
    | cluster p => exact cluster_prepare_keeps he (hp p rfl) hc
    | generic l => exact hc
    | other => exact hc
  | generic f => cases i <;> exact trivial
  | other r e => cases i <;> exact trivial

theorem setGeneric_iff : ∀ (l : List (String × Rat)) (f : String → Option Rat),
    (setGeneric l f).2 = none ↔ ∀ e ∈ l, '.' ∈ e.1.toList
  | [], f => by simp [setGeneric]
  | (k, v) :: rest, f => by
    unfold setGeneric
    by_cases h : '.' ∈ k.toList
    · rw [if_pos h, setGeneric_iff rest]
      simp only [List.mem_cons, forall_eq_or_imp, h, true_and]
    · rw [if_neg h]
      simp only [List.mem_cons, forall_eq_or_imp, h, false_and]
      simp

theorem comp_prepare_iff {env : Env σ} (he : EnvOk env) {s : Compiled σ} (hs : CompiledOk s) {n : String}
    {i : Instr σ} (hi : (n, i) ∈ s.instrs) {c : Comp σ} (hc : CompOk c) :
    (c.prepare env s i).2 = none ↔ Prepares c i := by
  cases c with
  | cluster c =>
    cases i with
    | cluster p =>
      exact cluster_prepare_iff he (hs.mods n p hi) (fun n' q hq => hs.progs n n' q ⟨p, hi, hq⟩) hc.2
    | generic l => simp [Comp.prepare, Prepares]
    | other => simp [Comp.prepare, Prepares]
  | generic f =>
    cases i with
    | cluster p => simp [Comp.prepare, Prepares]
    | generic l => simp [Comp.prepare, Prepares, setGeneric_iff]
    | other => simp [Comp.prepare, Prepares]
  | other r e => cases i <;> simp [Comp.prepare, Prepares]

theorem coord_prepare_snd {env : Env σ} {s : Compiled σ} {x : Coord σ} : (x.prepare env s).2 =
    (updateEach (fun i c => Comp.prepare env s i c) s.instrs x.comps).2 := rfl

theorem coord_prepare_comps {env : Env σ} {s : Compiled σ} {x : Coord σ} : (x.prepare env s).1.comps =
    (updateEach (fun i c => Comp.prepare env s i c) s.instrs x.comps).1 := rfl

theorem coord_prepare_keeps {env : Env σ} (he : EnvOk env) {s : Compiled σ} (hs : CompiledOk s) {x : Coord σ}
    (hx : Ok x) : Ok (x.prepare env s).1 := by
  have := updateEach_keeps (Q := CompOk (σ := σ)) (fun i c => Comp.prepare env s i c) s.instrs x.comps
    (fun n i c hm hc => comp_prepare_keeps he
      (fun cp hcp n' q hq => hs.progs n n' q ⟨cp, hcp ▸ hm, hq⟩) hc) hx.names hx.comps
  exact ⟨this.1, this.2⟩

/-- A cluster of the schedule, before and after. -/
theorem coord_prepare_cluster {env : Env σ} {s : Compiled σ} (hs : CompiledOk s) {x : Coord σ}
    (h : (x.prepare env s).2 = none) {c : String} {cp : ClusterProg σ} (hc : (c, .cluster cp) ∈ s.instrs) :
    ∃ cl, Dict.get? x.comps c = some (.cluster cl) ∧ (cl.prepare env s.chans s.reps cp).2 = none ∧
      Dict.get? (x.prepare env s).1.comps c = some (.cluster (cl.prepare env s.chans s.reps cp).1) := by
  obtain ⟨comp, h1, h2, h3⟩ := (updateEach_ok _ s.instrs x.comps hs.names h).1 c _ hc
  cases comp with
  | cluster cl => exact ⟨cl, h1, h2, h3⟩
  | generic f => simp [Comp.prepare] at h2
  | other r e => simp [Comp.prepare] at h2

theorem coord_prepare_other {env : Env σ} {s : Compiled σ} (hs : CompiledOk s) {x : Coord σ}
    (h : (x.prepare env s).2 = none) {c : String} (hc : ¬Uses s c) :
    Dict.get? (x.prepare env s).1.comps c = Dict.get? x.comps c :=
  (updateEach_ok _ s.instrs x.comps hs.names h).2 c hc

/-- The instructions for a cluster are unique. -/
theorem instr_unique {s : Compiled σ} (hs : CompiledOk s) {c : String} {i j : Instr σ}
    (hi : (c, i) ∈ s.instrs) (hj : (c, j) ∈ s.instrs) : i = j := by
  have h1 := Dict.get?_of_mem hs.names hi
  have h2 := Dict.get?_of_mem hs.names hj
  rw [h1] at h2
  exact Option.some.inj h2

theorem prog_unique {s : Compiled σ} (hs : CompiledOk s) {c n : String} {p q : ModProg σ}
    (hp : InSchedule s c n p) (hq : InSchedule s c n q) : p = q := by
  obtain ⟨cp, h1, h2⟩ := hp
  obtain ⟨cq, h3, h4⟩ := hq
  have := instr_unique hs h1 h3
  obtain rfl := (Instr.cluster.injEq ..).mp this
  have h5 := Dict.get?_of_mem (hs.mods c cp h1) h2
  have h6 := Dict.get?_of_mem (hs.mods c cp h1) h4
  rw [h5] at h6
  exact Option.some.inj h6

/-- A module in the schedule. -/
theorem prepared_module {env : Env σ} {s : Compiled σ} (hs : CompiledOk s) {x : Coord σ}
    (h : (x.prepare env s).2 = none) {c n : String} {p : ModProg σ} (hp : InSchedule s c n p) :
    ∃ m d, At x c n m ∧ loadDev env p m = .ok d ∧ At (x.prepare env s).1 c n
      { m with dev := d, prog := p.seqs, manager := managerOf m.type s.chans s.reps p } := by
  obtain ⟨cp, h1, h2⟩ := hp
  obtain ⟨cl, h3, h4, h5⟩ := coord_prepare_cluster hs h h1
  obtain ⟨m, d, h6, h7, h8⟩ := (cluster_prepare_result (hs.mods c cp h1) h4).1 n p h2
  exact ⟨m, d, ⟨cl, h3, h6⟩, h7, ⟨_, h5, h8⟩⟩

/-- A module that is not in the schedule. -/
theorem unprepared_module {env : Env σ} {s : Compiled σ} (hs : CompiledOk s) {x : Coord σ}
    (h : (x.prepare env s).2 = none) {c n : String} (hp : ∀ p, ¬InSchedule s c n p) (m : Module σ) :
    At (x.prepare env s).1 c n m ↔ At x c n m := by
  by_cases hc : Uses s c
  · obtain ⟨e, he, rfl⟩ := List.mem_map.mp hc
    obtain ⟨c, i⟩ := e
    cases i with
    | cluster cp =>
      obtain ⟨cl, h3, h4, h5⟩ := coord_prepare_cluster hs h he
      have h6 := (cluster_prepare_result (hs.mods c cp he) h4).2 n (by
        intro hm
        obtain ⟨e, he', rfl⟩ := List.mem_map.mp hm
        exact hp e.2 ⟨cp, he, he'⟩)
      unfold At
      simp only [h5, h3, Option.some.injEq, Comp.cluster.injEq, exists_eq_left', h6]
    | generic l =>
      obtain ⟨comp, h1, h2, h3⟩ := (updateEach_ok _ s.instrs x.comps hs.names h).1 c _ he
      rw [← coord_prepare_comps] at h3
      unfold At
      simp only [h3, h1]
      cases comp with
      | cluster cl => simp [Comp.prepare] at h2
      | generic f => simp [Comp.prepare]
      | other r e => simp [Comp.prepare] at h2
    | other =>
      obtain ⟨comp, h1, h2, h3⟩ := (updateEach_ok _ s.instrs x.comps hs.names h).1 c _ he
      rw [← coord_prepare_comps] at h3
      unfold At
      simp only [h3, h1]
      cases comp with
      | cluster cl => simp [Comp.prepare] at h2
      | generic f => simp [Comp.prepare] at h2
      | other r e => simp [Comp.prepare]
  · unfold At
    rw [coord_prepare_other hs h hc]

theorem at_unique {x : Coord σ} {c n : String} {m m' : Module σ} (h : At x c n m) (h' : At x c n m') : m = m' := by
  obtain ⟨cl, h1, h2⟩ := h
  obtain ⟨cl', h3, h4⟩ := h'
  rw [h1] at h3
  obtain rfl := (Comp.cluster.injEq ..).mp (Option.some.inj h3)
  rw [h2] at h4
  exact Option.some.inj h4

theorem at_coherent {x : Coord σ} (hx : Ok x) {c n : String} {m : Module σ} (h : At x c n m) : Coherent m.dev := by
  obtain ⟨cl, h1, h2⟩ := h
  exact (hx.comps _ (Dict.mem_of_get? h1)).2 _ (Dict.mem_of_get? h2)

/-! ### Start -/

/-- A module of which only parameters of channels were changed. -/
structure Touched (m m' : Module σ) : Prop where
  type : m'.type = m.type
  slot : m'.slot = m.slot
  prog : m'.prog = m.prog
  manager : m'.manager = m.manager
  state : m'.state = m.state
  data : m'.data = m.data
  seq : ∀ k q, m'.dev.hw (.seq k q) = m.dev.hw (.seq k q)
  coherent : Coherent m.dev → Coherent m'.dev

theorem Touched.refl (m : Module σ) : Touched m m := ⟨rfl, rfl, rfl, rfl, rfl, rfl, fun _ _ => rfl, id⟩

theorem setParam_hw {force : Bool} {d : Dev σ} (hc : Coherent d) (p : Prepare.Param) (v : Val σ) :
    (Prepare.setParam force d (p, v)).hw = fun q => if q = p then v else d.hw q := by
  unfold Prepare.setParam
  by_cases hf : force = true
  · rw [if_pos hf]; rfl
  · rw [if_neg hf]
    split
    · rename_i h
      funext q
      by_cases hq : q = p
      · subst hq; rw [if_pos rfl]; exact hc _ _ h
      · rw [if_neg hq]
    · rfl

theorem setParam_seq {force : Bool} {d : Dev σ} {p : Prepare.Param} {v : Val σ} {k : Nat} {q : Prepare.SeqParam}
    (hp : p ≠ .seq k q) : (Prepare.setParam force d (p, v)).hw (.seq k q) = d.hw (.seq k q) := by
  unfold Prepare.setParam
  have : (d.put p v).hw (.seq k q) = d.hw (.seq k q) := by
    simp [Dev.put, Ne.symm hp]
  split
  · exact this
  · split
    · rfl
    · exact this

theorem setParam_coherent {force : Bool} {d : Dev σ} (hc : Coherent d) (e : Prepare.Param × Val σ) :
    Coherent (Prepare.setParam force d e) := by
  have hput : Coherent (d.put e.1 e.2) := by
    intro p v h
    simp only [Dev.put] at h ⊢
    split at h <;> rename_i hp
    · simp only [hp, if_true]; exact Option.some.inj h
    · simp only [hp, if_false]; exact hc p v h
  unfold Prepare.setParam
  split
  · exact hput
  · split
    · exact hc
    · exact hput

theorem touched_param {force : Bool} {m : Module σ} (ch : Nat) (q : Prepare.IoParam) (v : Val σ) :
    Touched m { m with dev := Prepare.setParam force m.dev (.io ch q, v) } :=
  ⟨rfl, rfl, rfl, rfl, rfl, rfl, fun k q' => setParam_seq (by simp), fun hc => setParam_coherent hc _⟩

theorem Touched.trans {a b c : Module σ} (h : Touched a b) (h' : Touched b c) : Touched a c :=
  ⟨h'.type.trans h.type, h'.slot.trans h.slot, h'.prog.trans h.prog, h'.manager.trans h.manager,
    h'.state.trans h.state, h'.data.trans h.data, fun k q => (h'.seq k q).trans (h.seq k q),
    fun hc => h'.coherent (h.coherent hc)⟩

/-- Clusters with the same modules, of which only parameters of channels were changed. -/
def Same (ms ms' : List (String × Module σ)) : Prop :=
  (ms.map Prod.fst).Nodup → (ms'.map Prod.fst).Nodup ∧
  ∀ n, (Dict.get? ms n = none → Dict.get? ms' n = none) ∧
    ∀ m, Dict.get? ms n = some m → ∃ m', Dict.get? ms' n = some m' ∧ Touched m m'

theorem same_refl (ms : List (String × Module σ)) : Same ms ms :=
  fun hn => ⟨hn, fun n => ⟨id, fun m h => ⟨m, h, Touched.refl m⟩⟩⟩

theorem same_set {ms : List (String × Module σ)} {n : String} {m m' : Module σ} (h : (n, m) ∈ ms)
    (ht : Touched m m') : Same ms (Dict.set ms n m') := by
  intro hn
  have hg := Dict.get?_of_mem hn h
  refine ⟨Dict.keys_set_nodup hn n m', fun n' => ?_⟩
  rw [Dict.get?_set]
  by_cases hnn : n' = n
  · subst hnn
    rw [if_pos rfl, hg]
    exact ⟨by simp, fun m1 h1 => ⟨m', rfl, Option.some.inj h1 ▸ ht⟩⟩
  · rw [if_neg hnn]
    exact ⟨id, fun m1 h1 => ⟨m1, h1, Touched.refl m1⟩⟩

theorem inSlot_mem {s : Nat} {ms : List (String × Module σ)} {e : String × Module σ} (h : inSlot s ms = some e) :
    e ∈ ms ∧ e.2.slot = s := by
  unfold inSlot at h
  exact ⟨List.mem_of_find?_eq_some h, by simpa using List.find?_some h⟩

theorem syncTrigger_same (t : Trigger) (c : Cluster σ) : Same c.modules (c.syncTrigger t).1.modules ∧
    (c.syncTrigger t).1.prog = c.prog := by
  unfold Cluster.syncTrigger
  by_cases hs : t.slot = 0
  · rw [if_pos hs]; exact ⟨same_refl _, rfl⟩
  · rw [if_neg hs]
    cases hi : inSlot t.slot c.modules with
    | none => exact ⟨same_refl _, rfl⟩
    | some e =>
      obtain ⟨n, m⟩ := e
      by_cases ht : m.type ≠ .qtm
      · simp only
        rw [if_pos ht]; exact ⟨same_refl _, rfl⟩
      · simp only
        rw [if_neg ht]
        cases t.threshold with
        | none => exact ⟨same_set (inSlot_mem hi).1 (touched_param _ _ _), rfl⟩
        | some q => exact ⟨same_set (inSlot_mem hi).1 ((touched_param _ _ _).trans (touched_param _ _ _)), rfl⟩

theorem external_same (t : Option Trigger) (c : Cluster σ) : Same c.modules (c.external t).1.modules ∧
    (c.external t).1.prog = c.prog := by
  cases t with
  | none => exact ⟨same_refl _, rfl⟩
  | some t => exact syncTrigger_same t c

theorem onAll_get (f : Module σ → Module σ) (ms : List (String × Module σ)) (n : String) :
    Dict.get? (onAll f ms) n = (Dict.get? ms n).map f := get?_map_pair (fun _ => f) ms n

theorem onProg_get (names : List String) (f : Module σ → Module σ) (ms : List (String × Module σ)) (n : String) :
    Dict.get? (onProg names f ms) n = (Dict.get? ms n).map (fun m => if n ∈ names then f m else m) :=
  get?_map_pair (fun n m => if n ∈ names then f m else m) ms n

theorem onAll_names (f : Module σ → Module σ) (ms : List (String × Module σ)) :
    (onAll f ms).map Prod.fst = ms.map Prod.fst := by simp [onAll, Function.comp_def]

theorem onProg_names (names : List String) (f : Module σ → Module σ) (ms : List (String × Module σ)) :
    (onProg names f ms).map Prod.fst = ms.map Prod.fst := by simp [onProg, Function.comp_def]

theorem onAll_all {f : Module σ → Module σ} {Q : Module σ → Prop} (hf : ∀ m, Q m → Q (f m))
    {ms : List (String × Module σ)} (h : ∀ e ∈ ms, Q e.2) : ∀ e ∈ onAll f ms, Q e.2 := by
  intro e he
  obtain ⟨e', h1, rfl⟩ := List.mem_map.mp he
  exact hf _ (h e' h1)

theorem onProg_all {names : List String} {f : Module σ → Module σ} {Q : Module σ → Prop} (hf : ∀ m, Q m → Q (f m))
    {ms : List (String × Module σ)} (h : ∀ e ∈ ms, Q e.2) : ∀ e ∈ onProg names f ms, Q e.2 := by
  intro e he
  obtain ⟨e', h1, rfl⟩ := List.mem_map.mp he
  show Q (if e'.1 ∈ names then f e'.2 else e'.2)
  split
  · exact hf _ (h e' h1)
  · exact h e' h1

theorem clear_dev (m : Module σ) : m.clear.dev = m.dev ∧ m.clear.type = m.type ∧ m.clear.prog = m.prog ∧
    m.clear.manager = m.manager ∧ m.clear.state = m.state ∧ m.clear.slot = m.slot := by
  unfold Module.clear
  cases hm : m.manager <;> simp [hm]

/-- What `start` does with the data of a sequencer. -/
def keptData (m : Module σ) (k : Nat) : List (Val σ) :=
  match m.manager with
  | none => m.data k
  | some g => if k ∈ g.map.map Prod.fst then [] else m.data k

theorem clear_data (m : Module σ) (k : Nat) : m.clear.data k = keptData m k := by
  unfold Module.clear keptData
  cases m.manager <;> rfl

/-- A module of the program after `start`. -/
structure Started (m m' : Module σ) : Prop where
  type : m'.type = m.type
  prog : m'.prog = m.prog
  manager : m'.manager = m.manager
  seq : ∀ k q, m'.dev.hw (.seq k q) = m.dev.hw (.seq k q)
  state : ∀ k, m'.state k = if k ∈ m.prog ∧ k < sequencers m.type then .running else .stopped
  data : ∀ k, m'.data k = if k ∈ m.prog ∧ k < sequencers m.type then
    keptData m k ++ [m.dev.hw (.seq k .sequence)] else keptData m k

theorem started_of_touched {m m1 : Module σ} (h : Touched m.halt.clear.arm m1) : Started m m1.go := by
  have h1 := clear_dev m.halt
  obtain ⟨a1, a2, a3, a4, a5, a6⟩ := h1
  have hst : ∀ k, m1.state k = if k ∈ m.prog ∧ k < sequencers m.type then SeqState.armed else .stopped := by
    intro k
    rw [h.state]
    simp only [Module.arm, a3, a2, a5, Prepare.numSeqs_eq]
    rfl
  have hseq : ∀ k q, m1.dev.hw (.seq k q) = m.dev.hw (.seq k q) := by
    intro k q
    rw [h.seq]
    simp only [Module.arm, a1]
    rfl
  have hdata : ∀ k, m1.data k = keptData m k := by
    intro k
    rw [h.data]
    exact clear_data m.halt k
  refine ⟨h.type.trans a2, h.prog.trans a3, h.manager.trans a4, hseq, ?_, ?_⟩
  · intro k
    simp only [Module.go, hst k]
    by_cases hk : k ∈ m.prog ∧ k < sequencers m.type
    · simp [if_pos hk]
    · simp [if_neg hk]
  · intro k
    simp only [Module.go, hst k, hdata, hseq]
    by_cases hk : k ∈ m.prog ∧ k < sequencers m.type
    · simp [if_pos hk]
    · simp [if_neg hk]

/-- A module after `start`. -/
theorem start_module {c : Cluster σ} {names : List String} {trig : Option Trigger}
    (hn : (c.modules.map Prod.fst).Nodup) (hp : c.prog = some (names, trig)) (h : c.start.2 = none) (n : String) :
    (Dict.get? c.modules n = none → Dict.get? c.start.1.modules n = none) ∧
    ∀ m, Dict.get? c.modules n = some m → ∃ m', Dict.get? c.start.1.modules n = some m' ∧
      (n ∈ names → Started m m') ∧
      (n ∉ names → (∀ k, m'.state k = .stopped) ∧ m'.type = m.type ∧ m'.data = m.data ∧
        ∀ k q, m'.dev.hw (.seq k q) = m.dev.hw (.seq k q)) := by
  have hget : ∀ n, Dict.get? (c.armed names).modules n =
      (Dict.get? c.modules n).map (fun m => if n ∈ names then m.halt.clear.arm else m.halt) := by
    intro n
    simp only [Cluster.armed]
    rw [onProg_get, onAll_get, Option.map_map]
    rfl
  have hnames : ((c.armed names).modules.map Prod.fst).Nodup := by
    simp only [Cluster.armed]
    rw [onProg_names, onAll_names]; exact hn
  have key : ∀ ms', Same (c.armed names).modules ms' →
      (Dict.get? c.modules n = none → Dict.get? (onAll Module.go ms') n = none) ∧
      ∀ m, Dict.get? c.modules n = some m → ∃ m', Dict.get? (onAll Module.go ms') n = some m' ∧
        (n ∈ names → Started m m') ∧
        (n ∉ names → (∀ k, m'.state k = .stopped) ∧ m'.type = m.type ∧ m'.data = m.data ∧
          ∀ k q, m'.dev.hw (.seq k q) = m.dev.hw (.seq k q)) := by
    intro ms' hsame
    obtain ⟨_, hs⟩ := hsame hnames
    obtain ⟨h1, h2⟩ := hs n
    rw [hget] at h1 h2
    constructor
    · intro hnone
      rw [onAll_get, h1 (by rw [hnone]; rfl)]; rfl
    · intro m hm
      obtain ⟨m1, h3, h4⟩ := h2 _ (by rw [hm]; rfl)
      refine ⟨m1.go, by rw [onAll_get, h3]; rfl, ?_, ?_⟩
      · intro hin
        simp only [if_pos hin] at h4
        exact started_of_touched h4
      · intro hin
        simp only [if_neg hin] at h4
        have hst : ∀ k, m1.state k = .stopped := fun k => by rw [h4.state]; rfl
        refine ⟨?_, h4.type, ?_, h4.seq⟩
        · intro k
          simp [Module.go, hst k]
        · funext k
          simp only [Module.go, hst k]
          rw [h4.data]
          rfl
  have hsame := (external_same trig (c.armed names)).1
  unfold Cluster.start at h ⊢
  rw [hp] at h ⊢
  simp only at h ⊢
  rcases hr : (c.armed names).external trig with ⟨c', _ | e⟩
  · rw [hr] at hsame
    exact key _ hsame
  · rw [hr] at h; simp at h

theorem start_keeps {c : Cluster σ} (hc : CompOk (.cluster c)) : CompOk (.cluster c.start.1) := by
  have hco : ∀ (m : Module σ), Coherent m.dev → Coherent m.clear.arm.dev := by
    intro m h
    have : m.clear.arm.dev = m.dev := by simp [Module.arm, clear_dev m]
    rw [this]; exact h
  have harm : ∀ names, CompOk (.cluster (c.armed names)) := by
    intro names
    refine ⟨?_, ?_⟩
    · simp only [Cluster.armed]; rw [onProg_names, onAll_names]; exact hc.1
    · exact onProg_all (Q := fun m => Coherent m.dev) hco
        (onAll_all (f := Module.halt) (Q := fun m => Coherent m.dev) (fun m h => h) hc.2)
  have hgo : ∀ c' : Cluster σ, CompOk (.cluster c') →
      CompOk (.cluster { c' with modules := onAll Module.go c'.modules }) := by
    intro c' h
    refine ⟨?_, ?_⟩
    · simp only; rw [onAll_names]; exact h.1
    · exact onAll_all (f := Module.go) (Q := fun m => Coherent m.dev) (fun m h => h) h.2
  unfold Cluster.start
  cases c.prog with
  | none =>
    refine ⟨?_, ?_⟩
    · simp only; rw [onAll_names]; exact hc.1
    · exact onAll_all (f := Module.halt) (Q := fun m => Coherent m.dev) (fun m h => h) hc.2
  | some q =>
    obtain ⟨names, t⟩ := q
    simp only
    have hsame := (external_same t (c.armed names)).1 (harm names).1
    have hok : CompOk (.cluster ((c.armed names).external t).1) := by
      refine ⟨hsame.1, ?_⟩
      intro e he
      have hg := Dict.get?_of_mem hsame.1 he
      cases hg' : Dict.get? (c.armed names).modules e.1 with
      | none => rw [(hsame.2 e.1).1 hg'] at hg; simp at hg
      | some m =>
        obtain ⟨m', h1, h2⟩ := (hsame.2 e.1).2 m hg'
        rw [h1] at hg
        rw [← Option.some.inj hg]
        exact h2.coherent ((harm names).2 _ (Dict.mem_of_get? hg'))
    rcases hr : (c.armed names).external t with ⟨c', _ | e⟩
    · rw [hr] at hok; exact hgo _ hok
    · rw [hr] at hok; exact hok

/-! ### Stop and wait -/

theorem disableSync_hw {m : Module σ} (hc : Coherent m.dev) :
    Coherent m.disableSync.dev ∧ (∀ k, k < sequencers m.type → m.disableSync.dev.hw (.seq k .sync) = .bool false) ∧
    ∀ p, (∀ k, p ≠ .seq k .sync) → m.disableSync.dev.hw p = m.dev.hw p := by
  have h := Prepare.step_all m.force (Prepare.syncOff (σ := σ) m.type) hc
  refine ⟨h.coherent, ?_, ?_⟩
  · intro k hk
    rw [← Prepare.numSeqs_eq] at hk
    have := h.hw (.seq k .sync)
    simp only [Module.disableSync]
    rw [this (by simp)]
    have hl : Prepare.last (Prepare.syncOff (σ := σ) m.type) (.seq k .sync) = some (.bool false) := by
      exact Prepare.last_eq (List.mem_map.mpr ⟨k, List.mem_range.mpr hk, rfl⟩) (by
        intro w hw
        obtain ⟨j, _, hj⟩ := List.mem_map.mp hw
        simp only [Prod.mk.injEq] at hj
        exact hj.2.symm)
    rw [hl]; rfl
  · intro p hp
    have := h.hw p
    simp only [Module.disableSync]
    rw [this (by simp)]
    have hl : Prepare.last (Prepare.syncOff (σ := σ) m.type) p = none := by
      rw [Prepare.last_none]
      intro v hv
      obtain ⟨j, _, hj⟩ := List.mem_map.mp hv
      simp only [Prod.mk.injEq] at hj
      exact hp j hj.1.symm
    rw [hl]; rfl

end Verif.Lifecycle
