/-
C59: gettables, external triggers and timeouts.
-/
import Verif.Lifecycle.Data

set_option linter.unusedSimpArgs false
set_option linter.unusedVariables false
set_option linter.unusedSectionVars false

namespace Verif.Lifecycle

open Verif.Connect (ModType)
open Verif.Prepare (Dev Val)
open Verif.Prepare.Spec (Coherent CalOk sequencers TraceOn)
open Verif.Retrieve (Arr Chan Out cellOf)
open Spec

variable {σ : Type} [DecidableEq σ]

/-- **C59, data of one run.** All values that are returned after `prepare`, `start` and
`retrieve_acquisition` were measured by a sequencer that the schedule has for this channel, in the run that
was started, and in no other. -/
theorem run_sound {env : Env σ} (he : EnvOk env) {s : Compiled σ} (hs : CompiledOk s) {x : Coord σ} (hx : Ok x)
    (h : (x.prepare env s).2 = none) (hst : (x.prepare env s).1.start.2 = none) {sec : Nat}
    {ds : List (Nat × Arr)} (hr : ((x.prepare env s).1.start.1.retrieve env sec).2 = .ok ds)
    {ch r a : Nat} {o : Out} (ho : cellOf ds ch r a = some o) :
    ∃ c n p m k f, InSchedule s c n p ∧ At x c n m ∧ Readout m.type ∧ Measures p k f ∧ f.1 = ch ∧
      MeasuredIn env m.type s p k f r a o :=
  (run_merged he hs hx h hst hr).1 ch r a o ho

/-- **C59, nothing lost.** Everything that the schedule measures is returned, from all modules of all
clusters. -/
theorem run_all {env : Env σ} (he : EnvOk env) {s : Compiled σ} (hs : CompiledOk s) {x : Coord σ} (hx : Ok x)
    (h : (x.prepare env s).2 = none) (hst : (x.prepare env s).1.start.2 = none) {sec : Nat}
    {ds : List (Nat × Arr)} (hr : ((x.prepare env s).1.start.1.retrieve env sec).2 = .ok ds)
    {c n : String} {p : ModProg σ} {m : Module σ} {k a : Nat} {f : Nat × Retrieve.Mapping}
    (hp : InSchedule s c n p) (hm : At x c n m) (hro : Readout m.type) (hk : Measures p k f)
    (ha : a ∈ Dict.keys f.2) : ∃ chan, s.chans f.1 = some chan ∧ ∀ r, r < chan.rows s.reps → ∃ v,
      MeasuredIn env m.type s p k f r a v ∧ (v ≠ .nan → cellOf ds f.1 r a = some v) :=
  (run_merged he hs hx h hst hr).2.1 c n p m k f a hp hm hro hk ha

/-- **C59, shape.** The arrays have a row per repetition in append mode, one row otherwise. -/
theorem run_shape {env : Env σ} (he : EnvOk env) {s : Compiled σ} (hs : CompiledOk s) {x : Coord σ} (hx : Ok x)
    (h : (x.prepare env s).2 = none) (hst : (x.prepare env s).1.start.2 = none) {sec : Nat}
    {ds : List (Nat × Arr)} (hr : ((x.prepare env s).1.start.1.retrieve env sec).2 = .ok ds)
    {ch : Nat} {arr : Arr} (ha : Dict.get? ds ch = some arr) : ∃ c, s.chans ch = some c ∧
      arr.rows.length = c.rows s.reps ∧ (arr.reps = if c.mode = .append then some s.reps else none) := by
  obtain ⟨c, h1, h2, h3, _⟩ := (run_merged he hs hx h hst hr).2.2 ch arr ha
  exact ⟨c, h1, h2, h3⟩

/-! ### Gettables -/

/-- The steps of a successful `get` that initialises. -/
theorem get_steps {env : Env σ} {sec : Nat} {make : Except Err (Compiled σ)} {g : Gettable} {x : Coord σ}
    {ds : List (Nat × Arr)} (hi : g.initialized = false ∨ g.always = true)
    (h : (g.get env sec make x).2.2 = .ok ds) : ∃ s, make = .ok s ∧ (x.stop true).2 = none ∧
      ((x.stop true).1.prepare env s).2 = none ∧ ((x.stop true).1.prepare env s).1.start.2 = none ∧
      (((x.stop true).1.prepare env s).1.start.1.retrieve env sec).2 = .ok ds ∧
      ((((x.stop true).1.prepare env s).1.start.1.retrieve env sec).1.stop false).2 = none ∧
      (g.get env sec make x).2.1 =
        ((((x.stop true).1.prepare env s).1.start.1.retrieve env sec).1.stop false).1 ∧ ds ≠ [] := by
  unfold Gettable.get at h ⊢
  rcases h1 : x.stop true with ⟨x1, _ | e⟩
  swap
  · rw [h1] at h; simp at h
  rw [h1] at h
  simp only [if_pos hi] at h ⊢
  cases hm : make with
  | error e => simp [hm] at h
  | ok s =>
    simp only [hm] at h ⊢
    rcases h2 : x1.prepare env s with ⟨x2, _ | e⟩
    swap
    · simp [h2] at h
    simp only [h2] at h ⊢
    rw [if_neg (by simp)] at h ⊢
    rcases h3 : x2.start with ⟨x3, _ | e⟩
    swap
    · simp [h3] at h
    simp only [h3] at h ⊢
    rcases h4 : x3.retrieve env sec with ⟨x4, e | d⟩
    · simp [h4] at h
    simp only [h4] at h ⊢
    rcases h5 : x4.stop false with ⟨x5, _ | e⟩
    swap
    · simp [h5] at h
    simp only [h5] at h ⊢
    by_cases hd : d = []
    · rw [if_pos hd] at h; simp at h
    · rw [if_neg hd] at h
      obtain rfl := Except.ok.inj h
      exact ⟨s, rfl, trivial, by rw [h2], by rw [h2]; simp [h3], by rw [h2]; simp [h3, h4], by rw [h2]; simp [h3, h4, h5],
        by rw [h2]; simp [h3, h4, h5], hd⟩

/-- **C59, `ScheduleGettable.get`.** A gettable that initialises always (or has not yet) runs the schedule
compiled in this call and nothing else, with the synchronisation of this schedule, from whatever state the
instruments were in; the data it returns are all and only what this run measured; afterwards nothing runs. -/
theorem get_fresh {env : Env σ} (he : EnvOk env) {sec : Nat} {make : Except Err (Compiled σ)}
    (hmake : ∀ s, make = .ok s → CompiledOk s) {g : Gettable} {x : Coord σ} (hx : Ok x)
    {ds : List (Nat × Arr)} (hi : g.initialized = false ∨ g.always = true)
    (h : (g.get env sec make x).2.2 = .ok ds) : ∃ s, make = .ok s ∧
      (∃ y, (∀ c n k, Running y c n k ↔ ∃ b z, Plays s c n k b z) ∧
        (∀ c n k, Synced y c n k ↔ ∃ z, Plays s c n k true z) ∧ ¬Hangs y ∧ (y.retrieve env sec).2 = .ok ds ∧
        (g.get env sec make x).2.1 = ((y.retrieve env sec).1.stop false).1) ∧
      (∀ ch r a o, cellOf ds ch r a = some o → ∃ c n p m k f, InSchedule s c n p ∧ At x c n m ∧ Readout m.type ∧
        Measures p k f ∧ f.1 = ch ∧ MeasuredIn env m.type s p k f r a o) ∧
      (∀ c n p m k f a, InSchedule s c n p → At x c n m → Readout m.type → Measures p k f → a ∈ Dict.keys f.2 →
        ∃ chan, s.chans f.1 = some chan ∧ ∀ r, r < chan.rows s.reps → ∃ v,
          MeasuredIn env m.type s p k f r a v ∧ (v ≠ .nan → cellOf ds f.1 r a = some v)) ∧
      ∀ c n k, ¬Running (g.get env sec make x).2.1 c n k ∧ ¬Synced (g.get env sec make x).2.1 c n k := by
  obtain ⟨s, hm, h1, h2, h3, h4, h5, h6, _⟩ := get_steps hi h
  have hs := hmake s hm
  have hx1 := stop_ok true hx
  obtain ⟨r1, r2, r3⟩ := stop_prepare_start he hs hx h1 h2 h3
  obtain ⟨d1, d2, _⟩ := run_merged he hs hx1 h2 h3 h4
  refine ⟨s, hm, ⟨_, r1, r2, r3, h4, h6⟩, ?_, ?_, ?_⟩
  · intro ch r a o ho
    obtain ⟨c, n, p, m, k, f, a1, a2, a3, a4, a5, a6⟩ := d1 ch r a o ho
    obtain ⟨m0, b1, _, _, _, _, b2, _⟩ := (stop_all hx h1 c n).2.2 m a2
    rw [b2] at a3 a6
    exact ⟨c, n, p, m0, k, f, a1, b1, a3, a4, a5, a6⟩
  · intro c n p m k f a a1 a2 a3 a4 a5
    exact d2 c n p m.disableSync.halt k f a a1 (at_stop h1 a2) a3 a4 a5
  · have hy : Ok (((x.stop true).1.prepare env s).1.start.1.retrieve env sec).1 :=
      retrieve_ok (start_ok (coord_prepare_keeps he hs hx1))
    intro c n k
    rw [h6]
    exact ⟨(stop_all hy h5 c n).1 k, (stop_all hy h5 c n).2.1 k⟩

/-- **C59, finding.** A gettable that does not initialise again starts what is loaded after all
synchronisation was switched off. -/
theorem get_again_unsynced {env : Env σ} {sec : Nat} {make : Except Err (Compiled σ)} {g : Gettable} {x : Coord σ}
    (hx : Ok x) {ds : List (Nat × Arr)} (hi : g.initialized = true) (ha : g.always = false)
    (h : (g.get env sec make x).2.2 = .ok ds) : ∃ y, (y.retrieve env sec).2 = .ok ds ∧
      y = (x.stop true).1.start.1 ∧ ∀ c n k, ¬Synced y c n k := by
  have hni : ¬(g.initialized = false ∨ g.always = true) := by simp [hi, ha]
  unfold Gettable.get at h
  rcases h1 : x.stop true with ⟨x1, _ | e⟩
  swap
  · rw [h1] at h; simp at h
  rw [h1] at h
  simp only [if_neg hni] at h
  by_cases hc : g.compiled = false
  · rw [if_pos hc] at h; simp at h
  rw [if_neg hc] at h
  rcases h3 : x1.start with ⟨x3, _ | e⟩
  swap
  · simp [h3] at h
  simp only [h3] at h
  rcases h4 : x3.retrieve env sec with ⟨x4, e | d⟩
  · simp [h4] at h
  simp only [h4] at h
  rcases h5 : x4.stop false with ⟨x5, _ | e⟩
  swap
  · simp [h5] at h
  simp only [h5] at h
  by_cases hd : d = []
  · rw [if_pos hd] at h; simp at h
  rw [if_neg hd] at h
  obtain rfl := Except.ok.inj h
  refine ⟨x3, by rw [h4], by simp [h3], ?_⟩
  intro c n k
  have := stop_start_unsynced hx (allow := true) (by rw [h1]) (by rw [h1]; simp [h3]) c n k
  rw [h1] at this
  simpa [h3] using this

/-! ### External triggers -/

/-- Different modules are in different slots. -/
def SlotsOk (cl : Cluster σ) : Prop := ∀ e ∈ cl.modules, ∀ e' ∈ cl.modules, e.2.slot = e'.2.slot → e = e'

theorem armed_mem {cl : Cluster σ} {names : List String} {P : Module σ → Prop} (hP : ∀ m, P m.halt ↔ P m)
    (hP2 : ∀ m, P m.clear.arm ↔ P m) (n : String) :
    (∃ m, (n, m) ∈ (cl.armed names).modules ∧ P m) ↔ ∃ m, (n, m) ∈ cl.modules ∧ P m := by
  simp only [Cluster.armed, onProg, onAll, List.map_map, List.mem_map, Prod.mk.injEq, Function.comp_apply]
  constructor
  · rintro ⟨m, ⟨e, h1, h2, h3⟩, h4⟩
    subst h2
    refine ⟨e.2, h1, ?_⟩
    rw [← h3] at h4
    split at h4
    · rw [hP2, hP] at h4; exact h4
    · rw [hP] at h4; exact h4
  · rintro ⟨m, h1, h2⟩
    refine ⟨_, ⟨(n, m), h1, rfl, rfl⟩, ?_⟩
    simp only
    split
    · rw [hP2, hP]; exact h2
    · rw [hP]; exact h2

theorem armed_modules {cl : Cluster σ} {names : List String} : (cl.armed names).modules =
    cl.modules.map (fun e => (e.1, if e.1 ∈ names then e.2.halt.clear.arm else e.2.halt)) := by
  simp only [Cluster.armed, onProg, onAll, List.map_map]
  rfl

theorem armed_one (names : List String) (e : String × Module σ) :
    (if e.1 ∈ names then e.2.halt.clear.arm else e.2.halt).slot = e.2.slot ∧
    (if e.1 ∈ names then e.2.halt.clear.arm else e.2.halt).type = e.2.type := by
  split
  · have := clear_dev e.2.halt
    exact ⟨by simp only [Module.arm]; exact this.2.2.2.2.2, by simp only [Module.arm]; exact this.2.1⟩
  · exact ⟨rfl, rfl⟩

/-- **C59, external triggers.** A prepared cluster starts exactly if synchronisation with its trigger is
possible: a trigger at the cluster itself always; one at a module only if this is a QTM and a threshold is
known. -/
theorem cluster_start_iff {cl : Cluster σ} (hsl : SlotsOk cl) {names : List String} {trig : Option Trigger}
    (hp : cl.prog = some (names, trig)) :
    cl.start.2 = none ↔ ∀ t, trig = some t → TriggerOk cl t := by
  have e : cl.start.2 = ((cl.armed names).external trig).2 := by
    unfold Cluster.start
    rw [hp]
    simp only
    rcases hr : (cl.armed names).external trig with ⟨c', _ | e⟩ <;> simp [hr]
  rw [e]
  cases trig with
  | none => simp [Cluster.external]
  | some t =>
    simp only [Cluster.external, Option.some.injEq, forall_eq']
    unfold Cluster.syncTrigger TriggerOk
    by_cases h0 : t.slot = 0
    · simp [h0]
    · rw [if_neg h0]
      simp only [h0, false_or]
      cases hi : inSlot t.slot (cl.armed names).modules with
      | none =>
        simp only [reduceCtorEq, false_iff]
        rintro ⟨_, ⟨e, he, hes⟩, _⟩
        unfold inSlot at hi
        rw [List.find?_eq_none] at hi
        rw [armed_modules] at hi
        have := hi _ (List.mem_map.mpr ⟨e, he, rfl⟩)
        simp only [(armed_one names e).1, hes, decide_true, not_true] at this
      | some q =>
        obtain ⟨n, m⟩ := q
        obtain ⟨hq, hqs⟩ := inSlot_mem hi
        rw [armed_modules] at hq
        obtain ⟨e, he, hq⟩ := List.mem_map.mp hq
        simp only [Prod.mk.injEq] at hq
        obtain ⟨rfl, rfl⟩ := hq
        simp only at hqs
        rw [(armed_one names e).1] at hqs
        simp only [(armed_one names e).2]
        by_cases ht : e.2.type = .qtm
        · simp only [ht, ne_eq, not_true, if_false]
          cases hth : t.threshold with
          | none => simp
          | some v =>
            simp only [ne_eq, reduceCtorEq, not_false_eq_true, true_and, true_iff]
            refine ⟨⟨e, he, hqs⟩, ?_⟩
            intro e' he' hs'
            rw [hsl e' he' e he (by rw [hs', hqs])]
            exact ht
        · simp only [ne_eq, ht, not_false_eq_true, if_true, reduceCtorEq, false_iff]
          rintro ⟨_, _, h2⟩
          exact ht (h2 e he hqs)

/-- **C59.** The trigger is set up, once, before the sequencers are started; the channel of a QTM is made an
input with this threshold. -/
theorem cluster_start_trigger {cl : Cluster σ} (hc : CompOk (.cluster cl)) (hsl : SlotsOk cl)
    {names : List String} {t : Trigger} (hp : cl.prog = some (names, some t)) (h : cl.start.2 = none) :
    cl.start.1.synced = cl.synced ++ [t] ∧
    (t.slot ≠ 0 → ∃ n m v, Dict.get? cl.start.1.modules n = some m ∧ m.slot = t.slot ∧ m.type = .qtm ∧
      t.threshold = some v ∧ m.dev.hw (.io (t.channel - 1) .mode) = .str "input" ∧
      m.dev.hw (.io (t.channel - 1) .analogThreshold) = .num v) := by
  have hok : CompOk (.cluster (cl.armed names)) := by
    refine ⟨?_, ?_⟩
    · simp only [Cluster.armed]; rw [onProg_names, onAll_names]; exact hc.1
    · refine onProg_all (names := names) (f := fun m => m.clear.arm) (Q := fun m => Coherent m.dev) ?_
        (onAll_all (f := Module.halt) (Q := fun m => Coherent m.dev) (fun m h => h) hc.2)
      intro m h
      have : m.clear.arm.dev = m.dev := by simp [Module.arm, clear_dev m]
      rw [this]; exact h
  have e : (cl.start.2 = ((cl.armed names).external (some t)).2) ∧
      (((cl.armed names).external (some t)).2 = none → cl.start.1 =
        { ((cl.armed names).external (some t)).1 with
          modules := onAll Module.go ((cl.armed names).external (some t)).1.modules }) := by
    unfold Cluster.start
    rw [hp]
    simp only
    rcases hr : (cl.armed names).external (some t) with ⟨c', _ | e⟩ <;> simp [hr]
  rw [e.1] at h
  rw [e.2 h]
  simp only [Cluster.external] at h ⊢
  unfold Cluster.syncTrigger at h ⊢
  by_cases h0 : t.slot = 0
  · rw [if_pos h0]
    exact ⟨rfl, fun h => absurd h0 h⟩
  · rw [if_neg h0] at h ⊢
    cases hi : inSlot t.slot (cl.armed names).modules with
    | none => simp [hi] at h
    | some q =>
      obtain ⟨n, m⟩ := q
      simp only [hi] at h ⊢
      obtain ⟨hq, hqs⟩ := inSlot_mem hi
      by_cases ht : m.type ≠ .qtm
      · rw [if_pos ht] at h; simp at h
      · rw [if_neg ht] at h ⊢
        cases hth : t.threshold with
        | none => simp [hth] at h
        | some v =>
          simp only
          refine ⟨rfl, fun _ => ⟨n, ?_⟩⟩
          have hco : Coherent m.dev := hok.2 _ hq
          refine ⟨_, v, by rw [onAll_get, Dict.get?_set_self]; exact rfl, ?_, ?_, rfl, ?_, ?_⟩
          · exact hqs
          · simpa [Module.go] using ht
          · simp only [Module.go]
            rw [setParam_hw (setParam_coherent hco _), setParam_hw hco]
            simp
          · simp only [Module.go]
            rw [setParam_hw (setParam_coherent hco _)]
            simp

/-! ### Parameters of other instruments -/

theorem setGeneric_val : ∀ (l : List (String × Rat)) (f : String → Option Rat), (l.map Prod.fst).Nodup →
    (setGeneric l f).2 = none → (∀ k v, (k, v) ∈ l → (setGeneric l f).1 k = some v) ∧
    ∀ k, k ∉ l.map Prod.fst → (setGeneric l f).1 k = f k
  | [], f, _, _ => by simp [setGeneric]
  | (k, v) :: rest, f, hn, h => by
    simp only [List.map_cons, List.nodup_cons] at hn
    unfold setGeneric at h ⊢
    by_cases hk : '.' ∈ k.toList
    · rw [if_pos hk] at h ⊢
      obtain ⟨h1, h2⟩ := setGeneric_val rest _ hn.2 h
      refine ⟨?_, ?_⟩
      · intro k' v' hm
        rcases List.mem_cons.mp hm with e | hm
        · obtain ⟨rfl, rfl⟩ := Prod.mk.injEq .. ▸ e
          rw [h2 k' hn.1]; simp
        · exact h1 k' v' hm
      · intro k' hk'
        simp only [List.map_cons, List.mem_cons, not_or] at hk'
        rw [h2 k' hk'.2]; simp [hk'.1]
    · rw [if_neg hk] at h; simp at h

/-- **C59, other instruments.** `prepare` sets exactly the parameters that are in the instructions of the
generic component, to these values. -/
theorem prepare_generic {env : Env σ} {s : Compiled σ} (hs : CompiledOk s) {x : Coord σ}
    (h : (x.prepare env s).2 = none) {c : String} {l : List (String × Rat)} (hc : (c, .generic l) ∈ s.instrs)
    (hl : (l.map Prod.fst).Nodup) : ∃ f f', Dict.get? x.comps c = some (.generic f) ∧
      Dict.get? (x.prepare env s).1.comps c = some (.generic f') ∧ (∀ k v, (k, v) ∈ l → f' k = some v) ∧
      ∀ k, k ∉ l.map Prod.fst → f' k = f k := by
  obtain ⟨comp, h1, h2, h3⟩ := (updateEach_ok _ s.instrs x.comps hs.names h).1 c _ hc
  rw [← coord_prepare_comps] at h3
  cases comp with
  | cluster cl => simp [Comp.prepare] at h2
  | other r e => simp [Comp.prepare] at h2
  | generic f =>
    simp only [Comp.prepare, Prod.map] at h2 h3
    obtain ⟨h4, h5⟩ := setGeneric_val l f hl h2
    exact ⟨f, _, h1, h3, h4, h5⟩

/-! ### The clock -/

theorem external_reference (t : Option Trigger) (c : Cluster σ) : (c.external t).1.reference = c.reference := by
  cases t with
  | none => rfl
  | some t =>
    simp only [Cluster.external, Cluster.syncTrigger]
    split
    · rfl
    · split
      · rfl
      · split
        · rfl
        · cases t.threshold <;> rfl

theorem start_reference (c : Cluster σ) : c.start.1.reference = c.reference := by
  unfold Cluster.start
  cases hp : c.prog with
  | none => rfl
  | some q =>
    obtain ⟨names, trigger⟩ := q
    simp only
    have h := external_reference trigger (c.armed names)
    cases hr : (c.armed names).external trigger with
    | mk c' e =>
      rw [hr] at h
      cases e with
      | none => exact h
      | some e => exact h

/-- **C59, the clock.** When a schedule has been prepared and started, every cluster it uses has the clock
of its program; and the clock of a cluster that it does not use is as before. -/
theorem start_clock {env : Env σ} {s : Compiled σ} (hs : CompiledOk s) {x : Coord σ}
    (h : (x.prepare env s).2 = none) (h' : (x.prepare env s).1.start.2 = none) (c : String) :
    (∀ cp, (c, .cluster cp) ∈ s.instrs → ∃ cl, Dict.get? (x.prepare env s).1.start.1.comps c = some (.cluster cl) ∧
      cl.reference = cp.reference) ∧
    (¬Uses s c → Dict.get? (x.prepare env s).1.start.1.comps c = Dict.get? x.comps c) := by
  have hg := (coord_start_get (x := (x.prepare env s).1) (s := s) rfl h' c).1
  constructor
  · intro cp hc
    obtain ⟨cl, h1, h2, h3⟩ := coord_prepare_cluster hs h hc
    rw [h3] at hg
    simp only [Option.map_some, if_pos (List.mem_map_of_mem (f := Prod.fst) hc), Comp.start, Prod.map] at hg
    refine ⟨_, hg, ?_⟩
    rw [start_reference]
    rfl
  · intro hu
    have hu' : c ∉ s.instrs.map Prod.fst := hu
    rw [hg, coord_prepare_other hs h hu]
    simp only [if_neg hu']
    cases Dict.get? x.comps c <;> rfl

/-! ### Timeouts -/

/-- **C59.** The driver waits for whole minutes: at least one, and never longer than asked for unless less
than one minute was. -/
theorem timeout_bounds (sec : Nat) : 1 ≤ timeoutMin sec ∧ (60 ≤ sec → timeoutMin sec * 60 ≤ sec ∧
    sec < timeoutMin sec * 60 + 60) ∧ (sec < 60 → timeoutMin sec = 1) := by
  unfold timeoutMin
  refine ⟨?_, ?_, ?_⟩
  · split <;> omega
  · intro h
    rw [if_neg (by omega)]
    omega
  · intro h
    rw [if_pos (by omega)]

/-! ### Other components -/

/-- **C59.** After `start` (without exception) an instrument of another kind that the schedule uses is running;
one that it does not use is as before. -/
theorem start_other {x : Coord σ} {s : Compiled σ} (hc : x.compiled = some s) (h : x.start.2 = none)
    {n : String} {r : Bool} {e : Option Err} (hg : Dict.get? x.comps n = some (.other r e)) :
    ((∃ i, (n, i) ∈ s.instrs) → Dict.get? x.start.1.comps n = some (.other true e)) ∧
    ((∀ i, (n, i) ∉ s.instrs) → Dict.get? x.start.1.comps n = some (.other r e)) := by
  have h1 := (coord_start_get hc h n).1
  rw [hg] at h1
  refine ⟨?_, ?_⟩
  · rintro ⟨i, hi⟩
    have : n ∈ s.instrs.map Prod.fst := List.mem_map.mpr ⟨(n, i), hi, rfl⟩
    rw [h1]; simp [this, Comp.start]
  · intro hn
    have : n ∉ s.instrs.map Prod.fst := by
      intro hm
      obtain ⟨⟨n', i⟩, hi, rfl⟩ := List.mem_map.mp hm
      exact hn i hi
    rw [h1]; simp [this]

/-- **C59.** After `stop` (without exception) no instrument of another kind is running, whether or not the schedule
uses it, but one whose `stop` is missing (`AttributeError`) with `allow_failure`; generic instruments keep their
parameters. -/
theorem stop_other {x : Coord σ} {allow : Bool} (h : (x.stop allow).2 = none) {n : String} :
    (∀ r e, Dict.get? x.comps n = some (.other r e) →
      (e = none ∧ Dict.get? (x.stop allow).1.comps n = some (.other false none)) ∨
      (allow = true ∧ e = some .attributeError ∧
        Dict.get? (x.stop allow).1.comps n = some (.other r (some .attributeError)))) ∧
    (∀ f, Dict.get? x.comps n = some (.generic f) →
      Dict.get? (x.stop allow).1.comps n = some (.generic f)) := by
  unfold Coord.stop at h ⊢
  simp only at h ⊢
  rw [forEach_get _ _ h]
  refine ⟨?_, ?_⟩
  · intro r e hg
    have := (forEach_ok _ _).mp h _ (Dict.mem_of_get? hg)
    rw [hg]
    cases e with
    | none => left; simp [Comp.stop, demote]
    | some e =>
      have hd : (demote allow (Comp.other r (some e) : Comp σ).stop).2 = none := this
      clear this
      by_cases hc : allow = true ∧ e = .attributeError
      · obtain ⟨h1, h2⟩ := hc
        subst h1 h2
        right; simp [Comp.stop, demote]
      · exfalso
        have hn : ¬ (allow = true ∧ (Comp.other r (some e) : Comp σ).stop.2 = some .attributeError) := by
          simpa [Comp.stop] using hc
        unfold demote at hd
        rw [if_neg hn] at hd
        simp [Comp.stop] at hd
  · intro f hg
    rw [hg]
    simp [Comp.stop, demote]

end Verif.Lifecycle
