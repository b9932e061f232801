/-
C59: the data that are retrieved.
-/
import Verif.Lifecycle.Props
import Verif.Lifecycle.Merge

set_option linter.unusedSimpArgs false
set_option linter.unusedVariables false
set_option linter.unusedSectionVars false

namespace Verif.Lifecycle

open Verif.Connect (ModType)
open Verif.Prepare (Dev Val)
open Verif.Prepare.Spec (Coherent CalOk sequencers TraceOn)
open Verif.Retrieve (Arr Chan Out cellOf)
open Spec

variable {σ : Type} [DecidableEq σ]

/-! ### Waiting keeps the data -/

theorem wait_module {env : Env σ} {sec : Nat} {x : Coord σ} (h : (x.wait env sec).2 = none) (c : String) :
    (∀ cl', Dict.get? (x.wait env sec).1.comps c = some (.cluster cl') →
      ∃ cl, Dict.get? x.comps c = some (.cluster cl) ∧ cl'.prog = cl.prog ∧
        cl'.modules = cl.modules.map (fun e => (e.1, e.2.finish))) ∧
    ∀ comp, Dict.get? x.comps c = some comp → (∀ cl, comp ≠ .cluster cl) →
      Dict.get? (x.wait env sec).1.comps c = some comp := by
  have h' : (forEach (fun _ (c : Comp σ) => c.wait env sec) x.comps).2 = none := h
  have hg : Dict.get? (x.wait env sec).1.comps c = (Dict.get? x.comps c).map (fun c => (c.wait env sec).1) :=
    forEach_get _ _ h' c
  rw [hg]
  refine ⟨?_, ?_⟩
  · intro cl' h1
    cases hc : Dict.get? x.comps c with
    | none => simp [hc] at h1
    | some comp =>
      have hok := (forEach_ok _ _).mp h' _ (Dict.mem_of_get? hc)
      simp only [hc, Option.map_some, Option.some.injEq] at h1 hok
      cases comp with
      | cluster cl =>
        simp only [Comp.wait] at hok
        have h2 : { cl with modules := (forEach (fun _ (m : Module σ) => m.wait env sec) cl.modules).1 } = cl' :=
          (Comp.cluster.injEq ..).mp h1
        subst h2
        refine ⟨cl, rfl, rfl, ?_⟩
        simp only
        rw [forEach_map _ _ hok]
        refine List.map_congr_left (fun e he => ?_)
        have := (forEach_ok _ _).mp hok e he
        simp only [Module.wait] at this ⊢
        split at this
        · rename_i ht; rw [if_pos ht]
        · simp at this
      | generic f => simp [Comp.wait] at h1
      | other r e => simp [Comp.wait] at h1
  · intro comp h1 h2
    rw [h1]
    cases comp with
    | cluster cl => exact absurd rfl (h2 cl)
    | generic f => rfl
    | other r e => rfl

theorem wait_compiled {env : Env σ} {sec : Nat} {x : Coord σ} : (x.wait env sec).1.compiled = x.compiled := rfl

/-! ### Collecting -/

theorem module_data {env : Env σ} {m : Module σ} {chans : Nat → Option Chan} {reps : Nat}
    (hm : ∀ g, m.manager = some g → g.chans = chans ∧ g.reps = reps)
    {o : Option (List (Nat × Arr))} (h : m.retrieve env = .ok o) :
    ∀ e ∈ dataList o, ArrOk chans reps e.1 e.2 := by
  unfold Module.retrieve at h
  cases hg : m.manager with
  | none =>
    simp only [hg] at h
    obtain rfl := Except.ok.inj h
    simp [dataList]
  | some g =>
    simp only [hg] at h
    obtain ⟨h1, h2⟩ := hm g hg
    cases hr : Retrieve.retrieve (kindOf m.type) g.chans g.reps (jobsOf env m g) with
    | error e => simp [hr] at h
    | ok ds =>
      simp only [hr] at h
      obtain rfl := Except.ok.inj h
      rw [h1, h2] at hr
      exact retrieve_arrs hr

theorem collect_merged {env : Env σ} {names : List String} {chans : Nat → Option Chan} {reps : Nat} :
    ∀ (mods : List (String × Module σ)) (done ds ds' : List (Nat × Arr)),
    (∀ e ∈ mods, e.1 ∈ names → ∀ g, e.2.manager = some g → g.chans = chans ∧ g.reps = reps) →
    Merged chans reps done ds → collect env names ds mods = .ok ds' →
    ∃ new, Merged chans reps (done ++ new) ds' ∧
      (∀ e ∈ new, ∃ f ∈ mods, f.1 ∈ names ∧ ∃ l, f.2.retrieve env = .ok (some l) ∧ e ∈ l) ∧
      ∀ f ∈ mods, f.1 ∈ names → ∃ o, f.2.retrieve env = .ok o ∧ ∀ e ∈ dataList o, e ∈ new
  | [], done, ds, ds', _, I, h => by
    obtain rfl := Except.ok.inj h
    exact ⟨[], by simpa using I, by simp, by simp⟩
  | (n, m) :: rest, done, ds, ds', hm, I, h => by
    unfold collect at h
    have hm' : ∀ e ∈ rest, e.1 ∈ names → ∀ g, e.2.manager = some g → g.chans = chans ∧ g.reps = reps :=
      fun e he => hm e (List.mem_cons_of_mem _ he)
    by_cases hn : n ∈ names
    · rw [if_pos hn] at h
      cases hr : m.retrieve env with
      | error e => simp [hr] at h
      | ok o =>
        simp only [hr] at h
        cases ha : addData ds o with
        | error e => simp [ha] at h
        | ok d =>
          simp only [ha] at h
          have hok := module_data (hm (n, m) (by simp) hn) hr
          have I' := merged_data I hok ha
          obtain ⟨new, h1, h2, h3⟩ := collect_merged rest _ d ds' hm' I' h
          refine ⟨dataList o ++ new, by simpa using h1, ?_, ?_⟩
          · intro e he
            rcases List.mem_append.mp he with he | he
            · cases o with
              | none => simp [dataList] at he
              | some l => exact ⟨(n, m), by simp, hn, l, hr, he⟩
            · obtain ⟨f, h4, h5⟩ := h2 e he
              exact ⟨f, List.mem_cons_of_mem _ h4, h5⟩
          · intro f hf hfn
            rcases List.mem_cons.mp hf with rfl | hf
            · exact ⟨o, hr, fun e he => List.mem_append_left _ he⟩
            · obtain ⟨o', h4, h5⟩ := h3 f hf hfn
              exact ⟨o', h4, fun e he => List.mem_append_right _ (h5 e he)⟩
    · rw [if_neg hn] at h
      obtain ⟨new, h1, h2, h3⟩ := collect_merged rest _ ds ds' hm' I h
      refine ⟨new, h1, ?_, ?_⟩
      · intro e he
        obtain ⟨f, h4, h5⟩ := h2 e he
        exact ⟨f, List.mem_cons_of_mem _ h4, h5⟩
      · intro f hf hfn
        rcases List.mem_cons.mp hf with rfl | hf
        · exact absurd hfn hn
        · exact h3 f hf hfn

/-- The data of a cluster. -/
theorem cluster_data {env : Env σ} {cl : Cluster σ} {names : List String} {trig : Option Trigger}
    {chans : Nat → Option Chan} {reps : Nat} (hp : cl.prog = some (names, trig))
    (hm : ∀ e ∈ cl.modules, e.1 ∈ names → ∀ g, e.2.manager = some g → g.chans = chans ∧ g.reps = reps)
    {o : Option (List (Nat × Arr))} (h : cl.retrieve env = .ok o) :
    ∃ new, Merged chans reps new (dataList o) ∧
      (∀ e ∈ new, ∃ f ∈ cl.modules, f.1 ∈ names ∧ ∃ l, f.2.retrieve env = .ok (some l) ∧ e ∈ l) ∧
      ∀ f ∈ cl.modules, f.1 ∈ names → ∃ o, f.2.retrieve env = .ok o ∧ ∀ e ∈ dataList o, e ∈ new := by
  unfold Cluster.retrieve at h
  rw [hp] at h
  simp only at h
  cases hc : collect env names [] cl.modules with
  | error e => simp [hc] at h
  | ok ds =>
    simp only [hc, Except.ok.injEq] at h
    have hd : dataList o = ds := by
      subst h
      split
      · rename_i e; rw [e]; rfl
      · rfl
    rw [hd]
    obtain ⟨new, h1, h2, h3⟩ := collect_merged cl.modules [] [] ds hm (merged_nil _ _) hc
    exact ⟨new, by simpa using h1, h2, h3⟩

/-- The data of all clusters. -/
theorem collectComps_merged {env : Env σ} {cs : List (String × Comp σ)} {chans : Nat → Option Chan} {reps : Nat} :
    ∀ (names : List String) (done ds ds' : List (Nat × Arr)),
    (∀ n ∈ names, ∀ c, Dict.get? cs n = some c → ∀ o, c.retrieve env = .ok o →
      ∀ e ∈ dataList o, ArrOk chans reps e.1 e.2) →
    Merged chans reps done ds → collectComps env cs ds names = .ok ds' →
    ∃ new, Merged chans reps (done ++ new) ds' ∧
      (∀ e ∈ new, ∃ n ∈ names, ∃ c l, Dict.get? cs n = some c ∧ c.retrieve env = .ok (some l) ∧ e ∈ l) ∧
      ∀ n ∈ names, ∃ c o, Dict.get? cs n = some c ∧ c.retrieve env = .ok o ∧ ∀ e ∈ dataList o, e ∈ new
  | [], done, ds, ds', _, I, h => by
    obtain rfl := Except.ok.inj h
    exact ⟨[], by simpa using I, by simp, by simp⟩
  | n :: rest, done, ds, ds', hok, I, h => by
    unfold collectComps at h
    cases hc : Dict.get? cs n with
    | none => simp [hc] at h
    | some c =>
      simp only [hc] at h
      cases hr : c.retrieve env with
      | error e => simp [hr] at h
      | ok o =>
        simp only [hr] at h
        cases ha : addData ds o with
        | error e => simp [ha] at h
        | ok d =>
          simp only [ha] at h
          have I' := merged_data I (hok n (by simp) c hc o hr) ha
          obtain ⟨new, h1, h2, h3⟩ := collectComps_merged rest _ d ds'
            (fun n hn => hok n (List.mem_cons_of_mem _ hn)) I' h
          refine ⟨dataList o ++ new, by simpa using h1, ?_, ?_⟩
          · intro e he
            rcases List.mem_append.mp he with he | he
            · cases o with
              | none => simp [dataList] at he
              | some l => exact ⟨n, by simp, c, l, hc, hr, he⟩
            · obtain ⟨f, h4, h5⟩ := h2 e he
              exact ⟨f, List.mem_cons_of_mem _ h4, h5⟩
          · intro f hf
            rcases List.mem_cons.mp hf with rfl | hf
            · exact ⟨c, o, hc, hr, fun e he => List.mem_append_left _ he⟩
            · obtain ⟨c', o', h4, h5, h6⟩ := h3 f hf
              exact ⟨c', o', h4, h5, fun e he => List.mem_append_right _ (h6 e he)⟩

/-! ### One module -/

theorem manager_some {t : ModType} {chans : Nat → Option Chan} {reps : Nat} {p : ModProg σ} {g : Manager}
    (h : managerOf t chans reps p = some g) : Readout t ∧ p.acq = some g.map ∧ g.chans = chans ∧ g.reps = reps ∧
      ∀ k q sq n, ProgOk p → p.body = .analog q → (k, sq) ∈ q.seqs → sq.length = some (Int.ofNat n) → g.dur k = n := by
  unfold managerOf at h
  have key : (match p.acq with
    | none => none
    | some m => some (Manager.mk chans reps m (match p.body with
      | .analog q => lengthOf q
      | .timetag l => traceLength l))) = some g → p.acq = some g.map ∧ g.chans = chans ∧ g.reps = reps ∧
      ∀ k q sq n, ProgOk p → p.body = .analog q → (k, sq) ∈ q.seqs → sq.length = some (Int.ofNat n) → g.dur k = n := by
    intro h
    cases ha : p.acq with
    | none => simp [ha] at h
    | some m =>
      simp only [ha, Option.some.injEq] at h
      subst h
      refine ⟨rfl, rfl, rfl, ?_⟩
      intro k q sq n hp hb hs hl
      unfold ProgOk at hp
      simp only [hb] at hp ⊢
      simp only [lengthOf, Dict.get?_of_mem hp.1 hs, hl]
      rfl
  unfold Readout
  cases t with
  | qcm => simp at h
  | qcmRf => simp at h
  | qrm => exact ⟨by simp, key h⟩
  | qrmRf => exact ⟨by simp, key h⟩
  | qrc => exact ⟨by simp, key h⟩
  | qtm => exact ⟨by simp, key h⟩

theorem manager_exists {t : ModType} (ht : Readout t) (chans : Nat → Option Chan) (reps : Nat) {p : ModProg σ}
    {m : List (Nat × List (Nat × Retrieve.Mapping))} (h : p.acq = some m) :
    ∃ g, managerOf t chans reps p = some g := by
  unfold managerOf
  rcases ht with rfl | rfl | rfl | rfl <;> simp [h]

/-- The data stored by one run. -/
theorem started_data {env : Env σ} (he : EnvOk env) {p : ModProg σ} (hp : ProgOk p) {m : Module σ}
    (hc : Coherent m.dev) {d : Dev σ} (hd : loadDev env p m = .ok d) {chans : Nat → Option Chan} {reps : Nat}
    {m' : Module σ}
    (hs : Started { m with dev := d, prog := p.seqs, manager := managerOf m.type chans reps p } m')
    {g : Manager} (hg : managerOf m.type chans reps p = some g) {k : Nat} (hk : k ∈ g.map.map Prod.fst) :
    Runs p k (m'.data k) := by
  rw [hs.data]
  have hkept : keptData { m with dev := d, prog := p.seqs, manager := managerOf m.type chans reps p } k = [] := by
    unfold keptData
    simp only [hg, if_pos hk]
  rw [hkept]
  simp only
  by_cases hin : k ∈ p.seqs
  · obtain ⟨b, z, hz⟩ := mem_seqs.mp hin
    obtain ⟨h1, _, h2⟩ := load_seq he hp hc hd hz
    rw [if_pos ⟨hin, h1⟩, h2]
    exact .inl ⟨b, z, hz, rfl⟩
  · rw [if_neg (fun h => hin h.1)]
    exact .inr ⟨fun b z hz => hin (mem_seqs.mpr ⟨b, z, hz⟩), rfl⟩

section run
variable {env : Env σ} {s : Compiled σ} {x : Coord σ}

theorem kindOf_eq (t : ModType) : kindOf t = if t = .qtm then .qtm else .qrm := by cases t <;> rfl

/-- A module after its program `p` was run once. -/
structure Ran (s : Compiled σ) (p : ModProg σ) (t : ModType) (m' : Module σ) : Prop where
  type : m'.type = t
  manager : m'.manager = managerOf t s.chans s.reps p
  data : ∀ g, m'.manager = some g → ∀ k ∈ g.map.map Prod.fst, Runs p k (m'.data k)

/-- A cluster of the schedule after `prepare`, `start` and `wait_done`. -/
theorem ran_cluster (he : EnvOk env) (hs : CompiledOk s) (hx : Ok x) (h : (x.prepare env s).2 = none)
    (hst : (x.prepare env s).1.start.2 = none) {sec : Nat}
    (hw : ((x.prepare env s).1.start.1.wait env sec).2 = none) {c : String} {cp : ClusterProg σ}
    (hc : (c, .cluster cp) ∈ s.instrs) {comp : Comp σ}
    (hg : Dict.get? ((x.prepare env s).1.start.1.wait env sec).1.comps c = some comp) :
    ∃ cl, comp = .cluster cl ∧ cl.prog = some (cp.mods.map Prod.fst, cp.trigger) ∧
      (∀ e ∈ cl.modules, e.1 ∈ cp.mods.map Prod.fst → ∃ p m, (e.1, p) ∈ cp.mods ∧ At x c e.1 m ∧
        Ran s p m.type e.2) ∧
      ∀ n p, (n, p) ∈ cp.mods → ∃ m', (n, m') ∈ cl.modules := by
  have hu : Uses s c := List.mem_map.mpr ⟨_, hc, rfl⟩
  obtain ⟨cl0, h4, h5, h6⟩ := prepared_prog hs hx he h hc
  obtain ⟨g1, g2⟩ := coord_start_get (x := (x.prepare env s).1) (s := s) rfl hst c
  have g3 : cl0.start.2 = none := g2 _ h4 hu
  rw [h4] at g1
  simp only [Option.map_some, if_pos (show c ∈ s.instrs.map Prod.fst from hu)] at g1
  have hnd : (cl0.start.1.modules.map Prod.fst).Nodup := (start_keeps h6).1
  obtain ⟨w1, w2⟩ := wait_module hw c
  have hcl : ∃ cl, comp = .cluster cl := by
    cases comp with
    | cluster cl => exact ⟨cl, rfl⟩
    | generic f =>
      have hk : ∀ (c : Comp σ) , c = .cluster cl0.start.1 → (c.wait env sec).1 ≠ .generic f := by
        rintro _ rfl; simp [Comp.wait]
      have h' : (forEach (fun _ (c : Comp σ) => c.wait env sec) (x.prepare env s).1.start.1.comps).2 = none := hw
      have := forEach_get _ _ h' c
      rw [show Dict.get? (forEach (fun _ (c : Comp σ) => c.wait env sec) (x.prepare env s).1.start.1.comps).1 c
        = some (Comp.generic f) from hg, g1] at this
      simp only [Option.map_some, Option.some.injEq] at this
      exact absurd this.symm (hk _ rfl)
    | other r e =>
      have hk : ∀ (c : Comp σ) , c = .cluster cl0.start.1 → (c.wait env sec).1 ≠ .other r e := by
        rintro _ rfl; simp [Comp.wait]
      have h' : (forEach (fun _ (c : Comp σ) => c.wait env sec) (x.prepare env s).1.start.1.comps).2 = none := hw
      have := forEach_get _ _ h' c
      rw [show Dict.get? (forEach (fun _ (c : Comp σ) => c.wait env sec) (x.prepare env s).1.start.1.comps).1 c
        = some (Comp.other r e) from hg, g1] at this
      simp only [Option.map_some, Option.some.injEq] at this
      exact absurd this.symm (hk _ rfl)
  obtain ⟨cl, rfl⟩ := hcl
  obtain ⟨cl1, w3, w4, w5⟩ := w1 cl hg
  rw [g1] at w3
  have : cl0.start.1 = cl1 := (Comp.cluster.injEq ..).mp (Option.some.inj w3)
  subst this
  have hprog : cl0.start.1.prog = cl0.prog := by
    unfold Cluster.start
    rw [h5]
    simp only
    have := (external_same cp.trigger (cl0.armed (cp.mods.map Prod.fst))).2
    rcases hr : (cl0.armed (cp.mods.map Prod.fst)).external cp.trigger with ⟨c', _ | e⟩
    · rw [hr] at this
      exact this.trans h5
    · rw [hr] at this
      exact this.trans h5
  refine ⟨cl, rfl, by rw [w4, hprog, h5], ?_, ?_⟩
  · intro e hem hen
    rw [w5] at hem
    obtain ⟨e0, h7, rfl⟩ := List.mem_map.mp hem
    obtain ⟨f, hf, hfe⟩ := List.mem_map.mp hen
    obtain ⟨n, p⟩ := f
    simp only at hfe
    subst hfe
    obtain ⟨m, d, m', a1, a2, a3, a4⟩ := started_module he hs hx h hst ⟨cp, hc, hf⟩
    have hat : At (x.prepare env s).1.start.1 c e0.1 e0.2 := ⟨_, g1, Dict.get?_of_mem hnd h7⟩
    obtain rfl := at_unique hat a3
    refine ⟨p, m, hf, a1, a4.type, a4.manager, ?_⟩
    intro g hg k hk
    have hg' : managerOf m.type s.chans s.reps p = some g := by
      rw [← hg]; exact a4.manager.symm
    exact started_data he (hs.progs c _ p ⟨cp, hc, hf⟩) (at_coherent hx a1) a2 a4 hg' hk
  · intro n p hp
    obtain ⟨m, d, m', a1, a2, a3, a4⟩ := started_module he hs hx h hst ⟨cp, hc, hp⟩
    obtain ⟨cl2, b1, b2⟩ := a3
    rw [g1] at b1
    obtain rfl := (Comp.cluster.injEq ..).mp (Option.some.inj b1)
    rw [w5]
    exact ⟨m'.finish, List.mem_map.mpr ⟨(n, m'), Dict.mem_of_get? b2, rfl⟩⟩

/-- The data of a module, all from this run. -/
theorem ran_sound (hs : CompiledOk s) {p : ModProg σ} (hp : ProgOk p) {t : ModType} {m' : Module σ}
    (hr : Ran s p t m') {l : List (Nat × Arr)} (h : m'.retrieve env = .ok (some l)) {e : Nat × Arr} (he : e ∈ l)
    {r a : Nat} {o : Out} (ho : e.2.cell r a = some o) :
    Readout t ∧ ∃ k f, Measures p k f ∧ f.1 = e.1 ∧ MeasuredIn env t s p k f r a o := by
  unfold Module.retrieve at h
  cases hg : m'.manager with
  | none => simp [hg] at h
  | some g =>
    simp only [hg] at h
    cases hret : Retrieve.retrieve (kindOf m'.type) g.chans g.reps (jobsOf env m' g) with
    | error e => simp [hret] at h
    | ok ds =>
      simp only [hret, Except.ok.injEq, Option.some.injEq] at h
      subst h
      have hm := manager_some (hr.manager ▸ hg)
      obtain ⟨job, hj, hmeas⟩ := Retrieve.retrieved_sound hret (ch := e.1) (r := r) (a := a) (o := o)
        (by rw [retrieve_cell hret he]; exact ho)
      obtain ⟨q, hq, hq2⟩ := List.mem_flatMap.mp hj
      obtain ⟨f, hf, rfl⟩ := List.mem_map.mp hq2
      have hch : f.1 = e.1 := hmeas.1
      refine ⟨hm.1, q.1, f, ⟨g.map, q.2, hm.2.1, hq, hf⟩, hch, m'.data q.1, g.dur q.1,
        hr.data g hg _ (List.mem_map.mpr ⟨q, hq, rfl⟩), fun q' sq n hb hs hl => hm.2.2.2.2 _ _ _ _ hp hb hs hl, ?_⟩
      rw [hch]
      rw [kindOf_eq, hr.type, hm.2.2.1, hm.2.2.2.1] at hmeas
      exact hmeas

/-- Nothing of what a module measured is lost. -/
theorem ran_all {p : ModProg σ} (hp : ProgOk p) {t : ModType} (ht : Readout t) {m' : Module σ}
    (hr : Ran s p t m') {o : Option (List (Nat × Arr))} (h : m'.retrieve env = .ok o) {k : Nat}
    {f : Nat × Retrieve.Mapping} (hk : Measures p k f) {a : Nat} (ha : a ∈ Dict.keys f.2) :
    ∃ c, s.chans f.1 = some c ∧ ∀ r, r < c.rows s.reps → ∃ v, MeasuredIn env t s p k f r a v ∧
      (v ≠ .nan → ∃ e ∈ dataList o, e.1 = f.1 ∧ e.2.cell r a = some v) := by
  obtain ⟨mp, l, hacq, hl, hf⟩ := hk
  obtain ⟨g, hg⟩ := manager_exists ht s.chans s.reps hacq
  have hm := manager_some hg
  have hgm : g.map = mp := by
    have := hm.2.1
    rw [hacq] at this
    exact (Option.some.inj this).symm
  have hg' : m'.manager = some g := by rw [hr.manager, hg]
  unfold Module.retrieve at h
  simp only [hg'] at h
  cases hret : Retrieve.retrieve (kindOf m'.type) g.chans g.reps (jobsOf env m' g) with
  | error e => simp [hret] at h
  | ok ds =>
    simp only [hret, Except.ok.injEq] at h
    subst h
    have hj : ((⟨env.read (m'.data k), g.dur k⟩, f) : Retrieve.Seq × Nat × Retrieve.Mapping) ∈ jobsOf env m' g :=
      List.mem_flatMap.mpr ⟨(k, l), hgm ▸ hl, List.mem_map.mpr ⟨f, hf, rfl⟩⟩
    obtain ⟨c, h1, h2⟩ := Retrieve.retrieved_all hret hj ha
    simp only at h1 h2
    rw [hm.2.2.1] at h1
    refine ⟨c, h1, ?_⟩
    intro r hlt
    obtain ⟨v, h3, h4⟩ := h2 r (by rw [hm.2.2.2.1]; exact hlt)
    refine ⟨v, ⟨m'.data k, g.dur k, hr.data g hg' k (List.mem_map.mpr ⟨(k, l), hgm ▸ hl, rfl⟩),
      fun q' sq n hb hs hl => hm.2.2.2.2 _ _ _ _ hp hb hs hl, ?_⟩, ?_⟩
    · rw [kindOf_eq, hr.type, hm.2.2.1, hm.2.2.2.1] at h3
      exact h3
    · intro hv
      have h5 := h4 hv
      unfold cellOf at h5
      cases hd : Dict.get? ds f.1 with
      | none => simp [hd] at h5
      | some arr =>
        rw [hd] at h5
        exact ⟨(f.1, arr), Dict.mem_of_get? hd, rfl, h5⟩

/-- The components of a coordinator after a run, as far as data are concerned. -/
theorem run_merged (he : EnvOk env) (hs : CompiledOk s) (hx : Ok x) (h : (x.prepare env s).2 = none)
    (hst : (x.prepare env s).1.start.2 = none) {sec : Nat} {ds : List (Nat × Arr)}
    (hr : ((x.prepare env s).1.start.1.retrieve env sec).2 = .ok ds) :
    (∀ ch r a o, cellOf ds ch r a = some o → ∃ c n p m k f, InSchedule s c n p ∧ At x c n m ∧ Readout m.type ∧
      Measures p k f ∧ f.1 = ch ∧ MeasuredIn env m.type s p k f r a o) ∧
    (∀ c n p m k f a, InSchedule s c n p → At x c n m → Readout m.type → Measures p k f → a ∈ Dict.keys f.2 →
      ∃ chan, s.chans f.1 = some chan ∧ ∀ r, r < chan.rows s.reps → ∃ v,
        MeasuredIn env m.type s p k f r a v ∧ (v ≠ .nan → cellOf ds f.1 r a = some v)) ∧
    ∀ ch arr, Dict.get? ds ch = some arr → ArrOk s.chans s.reps ch arr := by
  have hcomp : (x.prepare env s).1.start.1.compiled = some s := coord_start_compiled _
  unfold Coord.retrieve at hr
  rw [hcomp] at hr
  simp only at hr
  rcases hw : (x.prepare env s).1.start.1.wait env sec with ⟨x', _ | e⟩
  swap
  · rw [hw] at hr; simp at hr
  rw [hw] at hr
  simp only at hr
  have hw1 : ((x.prepare env s).1.start.1.wait env sec).1 = x' := by rw [hw]
  have hw2 : ((x.prepare env s).1.start.1.wait env sec).2 = none := by rw [hw]
  -- the data of a component of the schedule
  have key : ∀ c i, (c, i) ∈ s.instrs → ∀ comp, Dict.get? x'.comps c = some comp → ∀ o, comp.retrieve env = .ok o →
      (∀ e ∈ dataList o, ArrOk s.chans s.reps e.1 e.2) ∧
      (∀ e ∈ dataList o, ∀ r a v, e.2.cell r a = some v → ∃ n p m k f, InSchedule s c n p ∧ At x c n m ∧
        Readout m.type ∧ Measures p k f ∧ f.1 = e.1 ∧ MeasuredIn env m.type s p k f r a v) ∧
      (∀ n p m k f a, InSchedule s c n p → At x c n m → Readout m.type → Measures p k f → a ∈ Dict.keys f.2 →
        ∃ chan, s.chans f.1 = some chan ∧ ∀ r, r < chan.rows s.reps → ∃ v,
          MeasuredIn env m.type s p k f r a v ∧
          (v ≠ .nan → ∃ e ∈ dataList o, e.1 = f.1 ∧ e.2.cell r a = some v)) := by
    intro c i hi comp hg o ho
    cases i with
    | cluster cp =>
      obtain ⟨cl, rfl, hp, hran, hall⟩ := ran_cluster he hs hx h hst hw2 hi (hw1 ▸ hg)
      have hman : ∀ e ∈ cl.modules, e.1 ∈ cp.mods.map Prod.fst → ∀ g, e.2.manager = some g →
          g.chans = s.chans ∧ g.reps = s.reps := by
        intro e hem hen g hg
        obtain ⟨p, m, _, _, hR⟩ := hran e hem hen
        have := manager_some (hR.manager ▸ hg)
        exact ⟨this.2.2.1, this.2.2.2.1⟩
      obtain ⟨new, M, h1, h2⟩ := cluster_data hp hman (show cl.retrieve env = .ok o from ho)
      refine ⟨M.arrs, ?_, ?_⟩
      · intro e hem r a v hv
        have hcell : cellOf (dataList o) e.1 r a = some v := by
          simp [cellOf, Dict.get?_of_mem M.nodup hem, hv]
        obtain ⟨e', he', h3, h4⟩ := M.origin e.1 r a v hcell
        obtain ⟨q, hq, hqn, l, hl, hel⟩ := h1 e' he'
        obtain ⟨p, m, hpm, hat, hR⟩ := hran q hq hqn
        obtain ⟨hro, k, f, a1, a2, a3⟩ := ran_sound hs (hs.progs c _ p ⟨cp, hi, hpm⟩) hR hl hel h4
        exact ⟨q.1, p, m, k, f, ⟨cp, hi, hpm⟩, hat, hro, a1, by rw [a2, h3], a3⟩
      · intro n p m k f a hin hat hro hmeas ha
        obtain ⟨cp', hc', hpm⟩ := hin
        obtain rfl := (Instr.cluster.injEq ..).mp (instr_unique hs hi hc')
        obtain ⟨m', hm'⟩ := hall n p hpm
        obtain ⟨p', m2, hpm', hat', hR⟩ := hran (n, m') hm' (List.mem_map.mpr ⟨_, hpm, rfl⟩)
        obtain rfl := at_unique hat' hat
        obtain rfl := prog_unique hs (c := c) (n := n) ⟨cp, hi, hpm⟩ ⟨cp, hi, hpm'⟩
        obtain ⟨o', h3, h4⟩ := h2 (n, m') hm' (List.mem_map.mpr ⟨_, hpm, rfl⟩)
        obtain ⟨chan, h5, h6⟩ := ran_all (hs.progs c n p ⟨cp, hi, hpm⟩) hro hR h3 hmeas ha
        refine ⟨chan, h5, fun r hlt => ?_⟩
        obtain ⟨v, h7, h8⟩ := h6 r hlt
        refine ⟨v, h7, fun hv => ?_⟩
        obtain ⟨e, h9, h10, h11⟩ := h8 hv
        have := M.kept e (h4 e h9) r a v h11 hv
        rw [h10] at this
        unfold cellOf at this
        cases hd : Dict.get? (dataList o) f.1 with
        | none => simp [hd] at this
        | some arr =>
          rw [hd] at this
          exact ⟨(f.1, arr), Dict.mem_of_get? hd, rfl, this⟩
    | generic l =>
      have hno : ∀ n p, ¬InSchedule s c n p := by
        rintro n p ⟨cp, h1, _⟩
        have := instr_unique hs hi h1
        simp at this
      have : dataList o = [] := by
        obtain ⟨c0, h4, h5, h6⟩ := (updateEach_ok _ s.instrs x.comps hs.names h).1 c _ hi
        rw [← coord_prepare_comps] at h6
        obtain ⟨g1, _⟩ := coord_start_get (x := (x.prepare env s).1) (s := s) rfl hst c
        rw [h6] at g1
        simp only [Option.map_some, if_pos (show c ∈ s.instrs.map Prod.fst from List.mem_map.mpr ⟨_, hi, rfl⟩)] at g1
        cases c0 with
        | cluster cl => simp [Comp.prepare] at h5
        | other r e => simp [Comp.prepare] at h5
        | generic f =>
          have := (wait_module hw2 c).2 _ g1 (by simp [Comp.prepare, Comp.start])
          rw [hw1, hg] at this
          rw [Option.some.inj this] at ho
          simp only [Comp.prepare, Comp.start, Prod.map, Comp.retrieve, Except.ok.injEq] at ho
          rw [← ho]; rfl
      rw [this]
      exact ⟨by simp, by simp, fun n p m k f a hin => absurd hin (hno n p)⟩
    | other =>
      have hno : ∀ n p, ¬InSchedule s c n p := by
        rintro n p ⟨cp, h1, _⟩
        have := instr_unique hs hi h1
        simp at this
      have : dataList o = [] := by
        obtain ⟨c0, h4, h5, h6⟩ := (updateEach_ok _ s.instrs x.comps hs.names h).1 c _ hi
        rw [← coord_prepare_comps] at h6
        obtain ⟨g1, _⟩ := coord_start_get (x := (x.prepare env s).1) (s := s) rfl hst c
        rw [h6] at g1
        simp only [Option.map_some, if_pos (show c ∈ s.instrs.map Prod.fst from List.mem_map.mpr ⟨_, hi, rfl⟩)] at g1
        cases c0 with
        | cluster cl => simp [Comp.prepare] at h5
        | generic f => simp [Comp.prepare] at h5
        | other r e =>
          have := (wait_module hw2 c).2 _ g1 (by simp [Comp.prepare, Comp.start])
          rw [hw1, hg] at this
          rw [Option.some.inj this] at ho
          simp only [Comp.prepare, Comp.start, Comp.retrieve, Except.ok.injEq] at ho
          rw [← ho]; rfl
      rw [this]
      exact ⟨by simp, by simp, fun n p m k f a hin => absurd hin (hno n p)⟩
  obtain ⟨new, M, h1, h2⟩ := collectComps_merged (env := env) (cs := x'.comps) (s.instrs.map Prod.fst) [] [] ds
    (fun n hn comp hg o ho => by
      obtain ⟨⟨c, i⟩, hi, rfl⟩ := List.mem_map.mp hn
      exact (key c i hi comp hg o ho).1) (merged_nil _ _) hr
  simp only [List.nil_append] at M
  refine ⟨?_, ?_, M.ok⟩
  · intro ch r a o ho
    obtain ⟨e, he', rfl, h4⟩ := M.origin ch r a o ho
    obtain ⟨n, hn, comp, l, h5, h6, h7⟩ := h1 e he'
    obtain ⟨⟨c, i⟩, hi, rfl⟩ := List.mem_map.mp hn
    obtain ⟨n, p, m, k, f, b⟩ := (key c i hi comp h5 (some l) h6).2.1 e h7 r a o h4
    exact ⟨c, n, p, m, k, f, b⟩
  · intro c n p m k f a hin hat hro hmeas ha
    have hin' := hin
    obtain ⟨cp, hi, hpm⟩ := hin
    obtain ⟨comp, o, h5, h6, h7⟩ := h2 c (List.mem_map.mpr ⟨_, hi, rfl⟩)
    obtain ⟨chan, h8, h9⟩ := (key c _ hi comp h5 o h6).2.2 n p m k f a hin' hat hro hmeas ha
    refine ⟨chan, h8, fun r hlt => ?_⟩
    obtain ⟨v, h10, h11⟩ := h9 r hlt
    refine ⟨v, h10, fun hv => ?_⟩
    obtain ⟨e, h12, h13, h14⟩ := h11 hv
    have := M.kept e (h7 e h12) r a v h14 hv
    rw [h13] at this
    exact this

end run

end Verif.Lifecycle
