/-
Settings reach the modules they are for.
-/
import Verif.Instruments.Lemmas
import Mathlib.Data.List.Induction

set_option linter.unusedVariables false
set_option linter.unusedSimpArgs false

namespace Verif.Instruments

open Verif.Connect (Path ModType)
open Spec

variable {ν ρ π α : Type}

/-! ### Resources -/

/-- The last definition. -/
def lastDef (l : List (String × ρ)) (k : String) : Option ρ := Dict.get? l.reverse k

theorem lastDef_append (l m : List (String × ρ)) (k : String) :
    lastDef (l ++ m) k = (lastDef m k).or (lastDef l k) := by
  unfold lastDef
  rw [List.reverse_append]
  generalize l.reverse = l'
  generalize m.reverse = m'
  induction m' with
  | nil => simp [Dict.get?_nil]
  | cons e m' ih =>
    rw [List.cons_append, Dict.get?_cons, Dict.get?_cons, ih]
    split <;> simp

theorem get_update (d : List (String × ρ)) (k : String) : ∀ e : List (String × ρ),
    Dict.get? (update d e) k = (lastDef e k).or (Dict.get? d k) := by
  intro e
  induction e using List.reverseRecOn with
  | nil => simp [update, lastDef, Dict.get?_nil]
  | append_singleton e x ih =>
    rw [lastDef_append]
    have : update d (e ++ [x]) = Dict.set (update d e) x.1 x.2 := by simp [update]
    rw [this, Dict.get?_set, ih]
    have : lastDef [x] k = if k = x.1 then some x.2 else none := by
      unfold lastDef
      rw [List.reverse_singleton, Dict.get?_cons, Dict.get?_nil]
      by_cases h : k = x.1
      · simp [h]
      · have h' : ¬ x.1 = k := fun h' => h h'.symm
        simp [h, h']
    rw [this]
    by_cases h : k = x.1 <;> simp [h]

/-- Resources of schedules are dictionaries. -/
inductive Dicts : Op ρ → Prop
  | leaf : Dicts .leaf
  | flow {b} : Dicts b → Dicts (.flow b)
  | sched {r ops} : (Dict.keys r).Nodup → (∀ o ∈ ops, Dicts o) → Dicts (.sched r ops)

theorem nodup_update {d : List (String × ρ)} (h : (Dict.keys d).Nodup) : ∀ e : List (String × ρ),
    (Dict.keys (update d e)).Nodup := by
  intro e
  induction e using List.reverseRecOn with
  | nil => exact h
  | append_singleton e x ih =>
    have : update d (e ++ [x]) = Dict.set (update d e) x.1 x.2 := by simp [update]
    rw [this]
    exact Dict.keys_set_nodup ih _ _

theorem lastDef_nodup {l : List (String × ρ)} (h : (Dict.keys l).Nodup) (k : String) : lastDef l k = Dict.get? l k := by
  have h' : (Dict.keys l.reverse).Nodup := by
    unfold Dict.keys at h ⊢
    rw [List.map_reverse]
    exact List.nodup_reverse.mpr h
  cases hg : Dict.get? l k with
  | none =>
    unfold lastDef
    rw [Dict.get?_eq_none_iff] at hg ⊢
    unfold Dict.keys at hg ⊢
    rwa [List.map_reverse, List.mem_reverse]
  | some v =>
    unfold lastDef
    exact Dict.get?_of_mem h' (List.mem_reverse.mpr (Dict.mem_of_get? hg))

mutual

theorem get_allResources : ∀ (o : Op ρ), Dicts o → (Dict.keys (allResources o)).Nodup ∧
    ∀ k, Dict.get? (allResources o) k = lastDef (definitions o) k
  | .leaf, _ => ⟨by simp [allResources, Dict.keys], fun k => rfl⟩
  | .flow b, h => by
    cases h with
    | flow h =>
      rw [allResources, definitions]
      exact get_allResources b h
  | .sched r ops, h => by
    cases h with
    | sched h1 h2 =>
      rw [allResources, definitions]
      obtain ⟨i1, i2⟩ := get_withInner r ops h1 h2
      refine ⟨i1, fun k => ?_⟩
      rw [i2, lastDef_append, lastDef_nodup h1]

theorem get_withInner : ∀ (r : List (String × ρ)) (ops : List (Op ρ)), (Dict.keys r).Nodup → (∀ o ∈ ops, Dicts o) →
    (Dict.keys (withInner r ops)).Nodup ∧
    ∀ k, Dict.get? (withInner r ops) k = (lastDef (allDefinitions ops) k).or (Dict.get? r k)
  | r, [], h, _ => ⟨h, fun k => by rw [withInner, allDefinitions]; simp [lastDef, Dict.get?_nil]⟩
  | r, o :: ops, h, hd => by
    obtain ⟨j1, j2⟩ := get_allResources o (hd o (by simp))
    obtain ⟨i1, i2⟩ := get_withInner (update r (allResources o)) ops (nodup_update h _)
      (fun x hx => hd x (List.mem_cons_of_mem _ hx))
    rw [withInner, allDefinitions]
    refine ⟨i1, fun k => ?_⟩
    rw [i2, get_update, lastDef_append, lastDef_nodup j1, j2, Option.or_assoc]

end

/-- **C81, clocks.** Modules are compiled with every clock that any schedule inside defines.  The value is that of one of
the definitions, so if they agree it is the one that holds where the clock is used. -/
theorem every_clock (o : Op ρ) (hd : Dicts o) (clock : String) :
    (∀ v, Dict.get? (allResources o) clock = some v → (clock, v) ∈ definitions o) ∧
    (∀ v, (clock, v) ∈ definitions o → (∀ v', (clock, v') ∈ definitions o → v' = v) →
      Dict.get? (allResources o) clock = some v) ∧
    (Dict.get? (allResources o) clock = none → ∀ v, (clock, v) ∉ definitions o) := by
  obtain ⟨-, h⟩ := get_allResources o hd
  have h1 : ∀ v, Dict.get? (allResources o) clock = some v → (clock, v) ∈ definitions o := by
    intro v hv
    rw [h] at hv
    exact List.mem_reverse.mp (Dict.mem_of_get? hv)
  have h3 : Dict.get? (allResources o) clock = none → ∀ v, (clock, v) ∉ definitions o := by
    intro hn v hv
    rw [h] at hn
    unfold lastDef at hn
    rw [Dict.get?_eq_none_iff] at hn
    exact hn (List.mem_map.mpr ⟨(clock, v), List.mem_reverse.mpr hv, rfl⟩)
  refine ⟨h1, fun v hv hu => ?_, h3⟩
  cases hg : Dict.get? (allResources o) clock with
  | none => exact absurd hv (h3 hg v)
  | some v' => rw [hu v' (h1 v' hg)]

/-- **C81, clocks defined differently.** Of several definitions the last one holds for the whole program: definitions of
an inner schedule replace those of the schedule around it. -/
theorem last_clock (o : Op ρ) (hd : Dicts o) (before after : List (String × ρ)) (clock : String) (v : ρ)
    (h : definitions o = before ++ (clock, v) :: after) (ha : ∀ v', (clock, v') ∉ after) :
    Dict.get? (allResources o) clock = some v := by
  rw [(get_allResources o hd).2, h, lastDef_append, show (clock, v) :: after = [(clock, v)] ++ after from rfl,
    lastDef_append]
  have : lastDef after clock = none := by
    unfold lastDef
    rw [Dict.get?_eq_none_iff]
    intro hm
    obtain ⟨⟨k, v'⟩, hv, rfl⟩ := List.mem_map.mp hm
    exact ha v' (List.mem_reverse.mp hv)
  rw [this]
  simp [lastDef, Dict.get?_cons]

/-! ### Options -/

/-- All values: port-clock, option, value. -/
def triples (opts : List (String × Option (List (String × ν)))) : List (String × String × ν) :=
  opts.flatMap fun o => (o.2.getD []).map fun e => (e.1, o.1, e.2)

theorem byPortClock_fold : ∀ (opts : List (String × Option (List (String × ν)))) (d b : Options ν),
    opts.foldlM (fun d o =>
      match o.2 with
      | none => .error .attributeError
      | some m => .ok (m.foldl (fun d e => set2 d e.1 o.1 e.2) d)) d = (.ok b : Except Err _) ↔
    (∀ o ∈ opts, o.2 ≠ none) ∧ b = setAll d (triples opts)
  | [], d, b => by
    simp only [FoldM.nil, Except.ok.injEq, List.not_mem_nil, false_imp_iff, implies_true, true_and]
    exact eq_comm
  | (o, none) :: opts, d, b => by
    rw [FoldM.error_cons _ _ _ _ .attributeError rfl]
    simp
  | (o, some m) :: opts, d, b => by
    rw [FoldM.next _ _ _ _ _ rfl, byPortClock_fold opts]
    have : setAll d (triples ((o, some m) :: opts)) =
        setAll (m.foldl (fun d e => set2 d e.1 o e.2) d) (triples opts) := by
      unfold setAll triples
      rw [List.flatMap_cons, List.foldl_append, Option.getD_some, List.foldl_map]
    rw [this]
    simp

theorem byPortClock_ok (opts : List (String × Option (List (String × ν)))) (b : Options ν) :
    byPortClock opts = .ok b ↔ (∀ o ∈ opts, o.2 ≠ none) ∧ b = setAll [] (triples opts) := byPortClock_fold opts [] b

theorem mem_triples {opts : List (String × Option (List (String × ν)))} {pc o : String} {v : ν} :
    (pc, o, v) ∈ triples opts ↔ Given opts o pc v := by
  unfold triples Given
  rw [List.mem_flatMap]
  constructor
  · rintro ⟨⟨o', m⟩, h1, h2⟩
    obtain ⟨⟨pc', v'⟩, h3, h4⟩ := List.mem_map.mp h2
    simp only [Prod.mk.injEq] at h4
    obtain ⟨rfl, rfl, rfl⟩ := h4
    cases m with
    | none => simp at h3
    | some m => exact ⟨m, h1, h3⟩
  · rintro ⟨m, h1, h2⟩
    exact ⟨_, h1, List.mem_map.mpr ⟨_, h2, rfl⟩⟩

theorem given_unique {opts : List (String × Option (List (String × ν)))} (h1 : (Dict.keys opts).Nodup)
    (h2 : ∀ o m, (o, some m) ∈ opts → (Dict.keys m).Nodup) {o pc : String} {v v' : ν} (h : Given opts o pc v)
    (h' : Given opts o pc v') : v = v' := by
  obtain ⟨m, hm, hv⟩ := h
  obtain ⟨m', hm', hv'⟩ := h'
  have := unique_of_nodup h1 hm hm'
  simp only [Option.some.injEq] at this
  subst this
  exact unique_of_nodup (h2 _ _ hm) hv hv'

theorem get_byPortClock {opts : List (String × Option (List (String × ν)))} (h1 : (Dict.keys opts).Nodup)
    (h2 : ∀ o m, (o, some m) ∈ opts → (Dict.keys m).Nodup) {b : Options ν} (hb : byPortClock opts = .ok b) :
    Neat b ∧ ∀ pc o v, get2 b pc o = some v ↔ Given opts o pc v := by
  obtain ⟨-, rfl⟩ := (byPortClock_ok opts b).mp hb
  refine ⟨neat_setAll _ neat_nil, fun pc o v => ?_⟩
  rw [get2_setAll _ _ (fun a b v v' h h' => given_unique h1 h2 (mem_triples.mp h) (mem_triples.mp h')), mem_triples]
  simp [get2, Dict.get?_nil]

/-- The values for a cluster: option, port-clock, value. -/
def clusterTriples (b : Options ν) (paths : List (String × Path)) : List (String × String × ν) :=
  paths.flatMap fun p => ((Dict.get? b p.1).getD []).map fun o => (o.1, p.1, o.2)

theorem clusterOptions_eq (b : Options ν) : ∀ (paths : List (String × Path)),
    clusterOptions b paths = setAll [] (clusterTriples b paths) := by
  intro paths
  unfold clusterOptions setAll clusterTriples
  generalize ([] : Options ν) = d
  induction paths generalizing d with
  | nil => rfl
  | cons p paths ih =>
    rw [List.foldl_cons, List.flatMap_cons, List.foldl_append, ih]
    congr 1
    cases Dict.get? b p.1 with
    | none => rfl
    | some os => simp only [Option.getD_some, List.foldl_map]

theorem mem_clusterTriples {b : Options ν} (hb : Neat b) {paths : List (String × Path)} {o pc : String} {v : ν} :
    (o, pc, v) ∈ clusterTriples b paths ↔ pc ∈ Dict.keys paths ∧ get2 b pc o = some v := by
  unfold clusterTriples get2
  rw [List.mem_flatMap]
  constructor
  · rintro ⟨⟨pc', p⟩, h1, h2⟩
    obtain ⟨⟨o', v'⟩, h3, h4⟩ := List.mem_map.mp h2
    simp only [Prod.mk.injEq] at h4
    obtain ⟨rfl, rfl, rfl⟩ := h4
    refine ⟨List.mem_map.mpr ⟨_, h1, rfl⟩, ?_⟩
    cases hg : Dict.get? b pc' with
    | none => simp [hg] at h3
    | some l =>
      rw [hg] at h3
      exact Dict.get?_of_mem (hb.2 _ (Dict.mem_of_get? hg)) h3
  · rintro ⟨h1, h2⟩
    obtain ⟨⟨pc', p⟩, h3, rfl⟩ := List.mem_map.mp h1
    refine ⟨_, h3, List.mem_map.mpr ⟨(o, v), ?_, rfl⟩⟩
    cases hg : Dict.get? b pc' with
    | none => simp [hg] at h2
    | some l =>
      rw [hg] at h2
      exact Dict.mem_of_get? h2

theorem get_clusterOptions {b : Options ν} (hb : Neat b) (paths : List (String × Path)) :
    Neat (clusterOptions b paths) ∧ ∀ o pc v, get2 (clusterOptions b paths) o pc = some v ↔
      pc ∈ Dict.keys paths ∧ get2 b pc o = some v := by
  rw [clusterOptions_eq]
  refine ⟨neat_setAll _ neat_nil, fun o pc v => ?_⟩
  rw [get2_setAll _ _ (fun a b' v v' h h' => ?_), mem_clusterTriples hb]
  · simp [get2, Dict.get?_nil]
  · have h1 := ((mem_clusterTriples hb).mp h).2
    have h2 := ((mem_clusterTriples hb).mp h').2
    rw [h1] at h2
    simpa using h2

/-! ### Modules -/

/-- The values of all options: option, port-clock, value. -/
def flat (opts : Options ν) : List (String × String × ν) := opts.flatMap fun o => o.2.map fun e => (o.1, e)

theorem mem_flat {opts : Options ν} (h : Neat opts) {o pc : String} {v : ν} :
    (o, pc, v) ∈ flat opts ↔ get2 opts o pc = some v := by
  unfold flat get2
  rw [List.mem_flatMap]
  constructor
  · rintro ⟨⟨o', l⟩, h1, h2⟩
    obtain ⟨⟨pc', v'⟩, h3, h4⟩ := List.mem_map.mp h2
    simp only [Prod.mk.injEq] at h4
    obtain ⟨rfl, rfl, rfl⟩ := h4
    rw [Dict.get?_of_mem h.1 h1]
    exact Dict.get?_of_mem (h.2 _ h1) h3
  · intro h1
    cases hg : Dict.get? opts o with
    | none => simp [hg] at h1
    | some l =>
      rw [hg] at h1
      exact ⟨_, Dict.mem_of_get? hg, List.mem_map.mpr ⟨_, Dict.mem_of_get? h1, rfl⟩⟩

theorem foldlM_flat (paths : List (String × Path)) : ∀ (opts : Options ν) (mods : List (Nat × ModuleCfg ν)),
    opts.foldlM (fun mods (o : String × List (String × ν)) => o.2.foldlM (giveOption paths o.1) mods) mods =
      (flat opts).foldlM (fun mods t => giveOption paths t.1 mods t.2) mods
  | [], mods => rfl
  | o :: opts, mods => by
    have : flat (o :: opts) = (o.2.map fun e => (o.1, e)) ++ flat opts := rfl
    rw [this, List.foldlM_append, List.foldlM_cons, List.foldlM_map]
    congr 1
    funext m
    exact foldlM_flat paths opts m

theorem giveOption_route (paths : List (String × Path)) :
    (fun (mods : List (Nat × ModuleCfg ν)) (t : String × String × ν) => giveOption paths t.1 mods t.2) =
      route (fun t => (Dict.get? paths t.2.1).map Path.module)
        (fun m t => { m with options := set2 m.options t.1 t.2.1 t.2.2 }) := by
  funext mods t
  unfold giveOption route
  cases h : Dict.get? paths t.2.1 with
  | none => simp only [h, Option.map_none]
  | some p =>
    simp only [h, Option.map_some]
    cases Dict.get? mods p.module <;> rfl

theorem givePath_route : (givePath : List (Nat × ModuleCfg ν) → _ → _) =
    route (fun e => some e.2.module) (fun m e => { m with paths := Dict.set m.paths e.1 e.2 }) := by
  funext mods t
  unfold givePath route
  simp only
  cases Dict.get? mods t.2.module <;> rfl

theorem giveLo_route : (giveLo : List (Nat × ModuleCfg ν) → _ → _) =
    route (fun e => some e.2.module) (fun m e => { m with los := Dict.set m.los e.1 e.2 }) := by
  funext mods t
  unfold giveLo route
  simp only
  cases Dict.get? mods t.2.module <;> rfl

theorem fold_options (l : List (String × String × ν)) (m : ModuleCfg ν) :
    l.foldl (fun (m : ModuleCfg ν) t => { m with options := set2 m.options t.1 t.2.1 t.2.2 }) m =
      { m with options := setAll m.options l } := by
  induction l generalizing m with
  | nil => rfl
  | cons t l ih => rw [List.foldl_cons, ih]; rfl

theorem fold_paths (l : List (String × Path)) (m : ModuleCfg ν) :
    l.foldl (fun (m : ModuleCfg ν) e => { m with paths := Dict.set m.paths e.1 e.2 }) m =
      { m with paths := setEach m.paths l } := by
  induction l generalizing m with
  | nil => rfl
  | cons t l ih => rw [List.foldl_cons, ih]; rfl

theorem fold_los (l : List (String × Path)) (m : ModuleCfg ν) :
    l.foldl (fun (m : ModuleCfg ν) e => { m with los := Dict.set m.los e.1 e.2 }) m =
      { m with los := setEach m.los l } := by
  induction l generalizing m with
  | nil => rfl
  | cons t l ih => rw [List.foldl_cons, ih]; rfl

theorem get_filter {l : List (String × Path)} (h : (Dict.keys l).Nodup) (i : Nat) (k : String) (p : Path) :
    Dict.get? (setEach [] (l.filter fun e => decide (some e.2.module = some i))) k = some p ↔
      (k, p) ∈ l ∧ p.module = i := by
  rw [get_setEach _ _ (fun a v v' h1 h2 => unique_of_nodup h (List.mem_filter.mp h1).1 (List.mem_filter.mp h2).1)]
  simp [List.mem_filter, Dict.get?_nil]

/-- The settings of a cluster that come from the configuration of the user. -/
theorem moduleCfgs_ok {c : ClusterCfg ν} {mods : List (Nat × ModuleCfg ν)} (h : moduleCfgs c = .ok mods)
    (ho : Neat c.options) (hp : (Dict.keys c.paths).Nodup) (hl : (Dict.keys c.los).Nodup)
    (hm : (Dict.keys c.modules).Nodup) :
    Dict.keys mods = Dict.keys c.modules ∧
    ∀ i m, Dict.get? mods i = some m → (i, m.kind) ∈ c.modules ∧
      (∀ o pc v, get2 m.options o pc = some v ↔ get2 c.options o pc = some v ∧ ∃ p, (pc, p) ∈ c.paths ∧ p.module = i) ∧
      (∀ pc p, Dict.get? m.paths pc = some p ↔ (pc, p) ∈ c.paths ∧ p.module = i) ∧
      (∀ lo p, Dict.get? m.los lo = some p ↔ (lo, p) ∈ c.los ∧ p.module = i) := by
  unfold moduleCfgs at h
  obtain ⟨m1, h1, h⟩ := bind_ok.mp h
  obtain ⟨m2, h2, h3⟩ := bind_ok.mp h
  rw [foldlM_flat, giveOption_route] at h1
  rw [givePath_route] at h2
  rw [giveLo_route] at h3
  obtain ⟨a1, a2, a3⟩ := route_ok _ _ _ _ _ h1
  obtain ⟨b1, b2, b3⟩ := route_ok _ _ _ _ _ h2
  obtain ⟨c1, c2, c3⟩ := route_ok _ _ _ _ _ h3
  have hk : Dict.keys mods = Dict.keys c.modules := by
    rw [c1, b1, a1]
    simp [Dict.keys]
  refine ⟨hk, fun i m hg => ?_⟩
  rw [c3, b3, a3, Dict.get?_map_val c.modules (fun k => (⟨k, [], [], []⟩ : ModuleCfg ν))] at hg
  simp only [Option.map_map, Option.map_eq_some_iff, Function.comp_apply, fold_options, fold_paths, fold_los] at hg
  obtain ⟨k, hg, rfl⟩ := hg
  refine ⟨Dict.mem_of_get? hg, ?_, ?_, ?_⟩
  · intro o pc v
    simp only
    rw [get2_setAll _ _ (fun a b v v' h1 h2 => ?_)]
    · simp only [List.mem_filter, mem_flat ho, decide_eq_true_eq, Option.map_eq_some_iff]
      simp only [get_iff hp]
      simp [get2, Dict.get?_nil]
    · have e1 := (mem_flat ho).mp (List.mem_filter.mp h1).1
      have e2 := (mem_flat ho).mp (List.mem_filter.mp h2).1
      rw [e1] at e2
      simpa using e2
  · exact fun pc p => get_filter hp i pc p
  · exact fun lo p => get_filter hl i lo p

theorem moduleCfgs_iff {c : ClusterCfg ν} (ho : Neat c.options) (hp : (Dict.keys c.paths).Nodup)
    (hs : ∀ o pc v, get2 c.options o pc = some v → pc ∈ Dict.keys c.paths) :
    (∃ mods, moduleCfgs c = .ok mods) ↔ (∀ e ∈ c.paths, e.2.module ∈ Dict.keys c.modules) ∧
      ∀ e ∈ c.los, e.2.module ∈ Dict.keys c.modules := by
  constructor
  · rintro ⟨mods, h⟩
    unfold moduleCfgs at h
    obtain ⟨m1, h1, h⟩ := bind_ok.mp h
    obtain ⟨m2, h2, h3⟩ := bind_ok.mp h
    rw [foldlM_flat, giveOption_route] at h1
    rw [givePath_route] at h2
    rw [giveLo_route] at h3
    obtain ⟨a1, a2, a3⟩ := route_ok _ _ _ _ _ h1
    obtain ⟨b1, b2, b3⟩ := route_ok _ _ _ _ _ h2
    obtain ⟨c1, c2, c3⟩ := route_ok _ _ _ _ _ h3
    have hk : Dict.keys m1 = Dict.keys c.modules := by
      rw [a1]
      simp [Dict.keys]
    rw [b1, hk] at c2
    rw [hk] at b2
    constructor
    · intro e he
      obtain ⟨i, hi, h⟩ := b2 e he
      simp only [Option.some.injEq] at h
      exact h ▸ hi
    · intro e he
      obtain ⟨i, hi, h⟩ := c2 e he
      simp only [Option.some.injEq] at h
      exact h ▸ hi
  · rintro ⟨h1, h2⟩
    unfold moduleCfgs
    have hk : Dict.keys (c.modules.map fun m => (m.1, (⟨m.2, [], [], []⟩ : ModuleCfg ν))) = Dict.keys c.modules := by
      simp [Dict.keys]
    obtain ⟨m1, e1⟩ := route_succeeds (fun t : String × String × ν => (Dict.get? c.paths t.2.1).map Path.module)
      (fun m t => { m with options := set2 m.options t.1 t.2.1 t.2.2 }) (flat c.options)
      (c.modules.map fun m => (m.1, (⟨m.2, [], [], []⟩ : ModuleCfg ν))) (by
        rintro ⟨o, pc, v⟩ ht
        have := hs o pc v ((mem_flat ho).mp ht)
        obtain ⟨⟨pc', p⟩, hp', rfl⟩ := List.mem_map.mp this
        refine ⟨p.module, by rw [hk]; exact h1 _ hp', ?_⟩
        simp only [Dict.get?_of_mem hp hp', Option.map_some])
    obtain ⟨a1, -, -⟩ := route_ok _ _ _ _ _ e1
    obtain ⟨m2, e2⟩ := route_succeeds (fun e : String × Path => some e.2.module)
      (fun (m : ModuleCfg ν) e => { m with paths := Dict.set m.paths e.1 e.2 }) c.paths m1 (fun e he =>
        ⟨_, by rw [a1, hk]; exact h1 e he, rfl⟩)
    obtain ⟨b1, -, -⟩ := route_ok _ _ _ _ _ e2
    obtain ⟨m3, e3⟩ := route_succeeds (fun e : String × Path => some e.2.module)
      (fun (m : ModuleCfg ν) e => { m with los := Dict.set m.los e.1 e.2 }) c.los m2 (fun e he =>
        ⟨_, by rw [b1, a1, hk]; exact h2 e he, rfl⟩)
    refine ⟨m3, ?_⟩
    rw [← giveOption_route, ← foldlM_flat] at e1
    rw [← givePath_route] at e2
    rw [← giveLo_route] at e3
    exact bind_ok.mpr ⟨m1, e1, bind_ok.mpr ⟨m2, e2, e3⟩⟩

end Verif.Instruments
