/-
C81: every instrument that is used gets its program, made with the settings that concern it.
-/
import Verif.Instruments.Props

set_option linter.unusedVariables false
set_option linter.unusedSimpArgs false

namespace Verif.Instruments

open Verif.Connect (Path ModType)
open Spec

variable {ν ρ π α : Type}

/-! ### Clusters -/

theorem mem_usedModules {c : Cluster} {i : Nat} {k : ModType} :
    (i, k) ∈ usedModules c ↔ (i, k) ∈ c.modules ∧ Used c i := by
  unfold usedModules Used
  rw [List.mem_filter, List.any_eq_true]
  simp only [beq_iff_eq]

theorem usedModules_nodup {c : Cluster} (h : (Dict.keys c.modules).Nodup) : (Dict.keys (usedModules c)).Nodup := by
  unfold Dict.keys usedModules at *
  exact h.sublist (List.filter_sublist.map _)

/-- The settings of a cluster. -/
def cfgOf (b : Options ν) (c : Cluster) : ClusterCfg ν :=
  ⟨usedModules c, c.sync, c.config, c.paths, c.los, clusterOptions b c.paths⟩

theorem checkPath_ok (analog : ν → Option Rat) (c : ClusterCfg ν) (s : Sync) (pc : String) (p : Path) :
    checkPath analog c s (pc, p) = .ok () ↔ p.chan.mode = .digital ∧ p.chan.dir = .input ∧
      (thresholdOf analog c pc = none → s.threshold ≠ none) ∧ ∀ t, thresholdOf analog c pc = some t → s.threshold = t := by
  unfold checkPath
  by_cases h : p.chan.mode = .digital ∧ p.chan.dir = .input
  · simp only [h, and_self, not_true, if_false, true_and]
    cases thresholdOf analog c pc with
    | none => by_cases h' : s.threshold = none <;> simp [h']
    | some t => by_cases h' : t = s.threshold <;> simp [h', eq_comm]
  · simp only [h, not_false_iff, if_true]
    constructor
    · intro h'; simp at h'
    · rintro ⟨h1, h2, -⟩; exact absurd ⟨h1, h2⟩ h

theorem validateSync_iff (analog : ν → Option Rat) {opts : List (String × Option (List (String × ν)))}
    (h1 : (Dict.keys opts).Nodup) (h2 : ∀ o m, (o, some m) ∈ opts → (Dict.keys m).Nodup) {b : Options ν}
    (hb : byPortClock opts = .ok b) {c : Cluster} (hm : (Dict.keys c.modules).Nodup) :
    validateSync analog (cfgOf b c) = .ok () ↔ ∀ s, c.sync = some s → TriggerFits analog opts c s := by
  obtain ⟨n1, n2⟩ := get_byPortClock h1 h2 hb
  obtain ⟨n3, n4⟩ := get_clusterOptions n1 c.paths
  have ht : ∀ pc p, (pc, p) ∈ c.paths → ∀ t, thresholdOf analog (cfgOf b c) pc = some t ↔
      ∃ v, Given opts "digitization_thresholds" pc v ∧ analog v = t := by
    intro pc p hp t
    unfold thresholdOf
    rw [Option.map_eq_some_iff]
    have : ∀ v, ((Dict.get? (cfgOf b c).options "digitization_thresholds").bind fun d => Dict.get? d pc) = some v ↔
        Given opts "digitization_thresholds" pc v := by
      intro v
      have h3 := n4 "digitization_thresholds" pc v
      rw [n2] at h3
      have hk : pc ∈ Dict.keys c.paths := List.mem_map.mpr ⟨_, hp, rfl⟩
      simp only [hk, true_and] at h3
      exact h3
    simp only [this]
  have htn : ∀ pc p, (pc, p) ∈ c.paths → (thresholdOf analog (cfgOf b c) pc = none ↔
      ¬ ∃ v, Given opts "digitization_thresholds" pc v) := by
    intro pc p hp
    rw [← not_iff_not, not_not]
    constructor
    · intro h
      obtain ⟨t, h⟩ := Option.ne_none_iff_exists'.mp h
      obtain ⟨v, hv, -⟩ := (ht pc p hp t).mp h
      exact ⟨v, hv⟩
    · rintro ⟨v, hv⟩ hn
      rw [(ht pc p hp (analog v)).mpr ⟨v, hv, rfl⟩] at hn
      simp at hn
  unfold validateSync
  cases hs : c.sync with
  | none => simp [cfgOf, hs]
  | some s =>
    rw [show (cfgOf b c).sync = some s from hs]
    simp only [Option.some.injEq, forall_eq']
    have hmod : (match Dict.get? (cfgOf b c).modules s.slot with
        | some k => if k ≠ .qtm then .error .valueError else .ok ()
        | none => .ok () : Except Err Unit) = .ok () ↔
        (Used c s.slot → ∀ k, (s.slot, k) ∈ c.modules → k = .qtm) := by
      have hu := usedModules_nodup hm
      rw [show (cfgOf b c).modules = usedModules c from rfl]
      cases hg : Dict.get? (usedModules c) s.slot with
      | none =>
        simp only [true_iff]
        intro hus k hk
        have := Dict.get?_of_mem hu (mem_usedModules.mpr ⟨hk, hus⟩)
        rw [hg] at this
        simp at this
      | some k =>
        obtain ⟨hk, hus⟩ := mem_usedModules.mp (Dict.mem_of_get? hg)
        by_cases hq : k = .qtm
        · subst hq
          simp only [ne_eq, not_true, if_false, true_iff]
          intro _ k' hk'
          exact unique_of_nodup hm hk' hk
        · simp only [ne_eq, hq, not_false_iff, if_true]
          constructor
          · intro h; simp at h
          · intro h; exact absurd (h hus k hk) hq
    have hpaths : (((cfgOf b c).paths.filter fun e => decide (e.2.module = s.slot) &&
        decide ((e.2.chan.idx : Int) = s.channel - 1)).forM (checkPath analog (cfgOf b c) s)) = .ok () ↔
        ∀ pc p, (pc, p) ∈ c.paths → p.module = s.slot → s.channel = p.chan.idx + 1 →
          p.chan.mode = .digital ∧ p.chan.dir = .input ∧
          ((¬ ∃ v, Given opts "digitization_thresholds" pc v) → s.threshold ≠ none) ∧
          ∀ v, Given opts "digitization_thresholds" pc v → s.threshold = analog v := by
      rw [forM_ok]
      constructor
      · intro h pc p hp hmo hch
        have := h (pc, p) (List.mem_filter.mpr ⟨hp, by simp [hmo]; omega⟩)
        rw [checkPath_ok] at this
        obtain ⟨t1, t2, t3, t4⟩ := this
        refine ⟨t1, t2, fun hn => t3 ((htn pc p hp).mpr hn), fun v hv => t4 _ ((ht pc p hp _).mpr ⟨v, hv, rfl⟩)⟩
      · rintro h ⟨pc, p⟩ he
        obtain ⟨hp, he⟩ := List.mem_filter.mp he
        simp only [Bool.and_eq_true, decide_eq_true_eq] at he
        obtain ⟨t1, t2, t3, t4⟩ := h pc p hp he.1 (by omega)
        rw [checkPath_ok]
        refine ⟨t1, t2, fun hn => t3 ((htn pc p hp).mp hn), fun t h => ?_⟩
        obtain ⟨v, hv, rfl⟩ := (ht pc p hp t).mp h
        exact t4 v hv
    unfold TriggerFits
    rw [← hmod, ← hpaths]
    constructor
    · intro h
      obtain ⟨⟨⟩, h3, h4⟩ := bind_ok.mp h
      exact ⟨h3, h4⟩
    · rintro ⟨h3, h4⟩
      exact bind_ok.mpr ⟨(), h3, h4⟩

/-- The settings of the modules of a cluster. -/
theorem modules_right {opts : List (String × Option (List (String × ν)))} {clusters : List (String × Cluster)}
    (ht : Tidy opts clusters) {b : Options ν} (hb : byPortClock opts = .ok b) {name : String} {c : Cluster}
    (hc : (name, c) ∈ clusters) {mods : List (Nat × ModuleCfg ν)} (h : moduleCfgs (cfgOf b c) = .ok mods) :
    (∀ i, i ∈ Dict.keys mods ↔ Used c i) ∧ (Dict.keys mods).Nodup ∧
      ∀ i m, Dict.get? mods i = some m → Right opts c i m := by
  obtain ⟨n1, n2⟩ := get_byPortClock ht.options ht.values hb
  obtain ⟨n3, n4⟩ := get_clusterOptions n1 c.paths
  have hs : ∀ o pc v, get2 (cfgOf b c).options o pc = some v → pc ∈ Dict.keys (cfgOf b c).paths :=
    fun o pc v h => ((n4 o pc v).mp h).1
  obtain ⟨k1, k2⟩ := moduleCfgs_ok h n3 (ht.paths _ hc) (ht.los _ hc) (usedModules_nodup (ht.modules _ hc))
  obtain ⟨k3, -⟩ := (moduleCfgs_iff n3 (ht.paths _ hc) hs).mp ⟨_, h⟩
  refine ⟨fun i => ?_, ?_, fun i m hg => ?_⟩
  · rw [k1]
    constructor
    · intro hi
      obtain ⟨⟨i', k⟩, hk, rfl⟩ := List.mem_map.mp hi
      exact (mem_usedModules.mp hk).2
    · rintro ⟨e, he, rfl⟩
      exact k3 e he
  · rw [k1]
    exact usedModules_nodup (ht.modules _ hc)
  · obtain ⟨j1, j2, j3, j4⟩ := k2 i m hg
    refine ⟨(mem_usedModules.mp j1).1, fun o pc v => ?_, j3, j4⟩
    have := j2 o pc v
    rw [show get2 (cfgOf b c).options o pc = get2 (clusterOptions b c.paths) o pc from rfl, n4, n2] at this
    have e1 : (∃ d, Dict.get? m.options o = some d ∧ Dict.get? d pc = some v) ↔ get2 m.options o pc = some v := by
      unfold get2
      rw [Option.bind_eq_some_iff]
    rw [e1, this]
    constructor
    · rintro ⟨⟨-, hv⟩, hp⟩; exact ⟨hv, hp⟩
    · rintro ⟨hv, p, hp, hpm⟩; exact ⟨⟨List.mem_map.mpr ⟨_, hp, rfl⟩, hv⟩, p, hp, hpm⟩

/-! ### Programs -/

theorem programs_fold (f : Nat → ModuleCfg ν → Except Err (Option (List π))) : ∀ (mods : List (Nat × ModuleCfg ν))
    (d l : List (Nat × List π)), (Dict.keys mods).Nodup →
    mods.foldlM (fun d m => (f m.1 m.2).bind fun p =>
      match p with
      | none => .ok d
      | some l => if l.isEmpty then .ok d else .ok (Dict.set d m.1 l)) d = .ok l →
    (∀ i, i ∉ Dict.keys mods → Dict.get? l i = Dict.get? d i) ∧
    ∀ i m, (i, m) ∈ mods → ∃ p, f i m = .ok p ∧
      (Dict.get? d i = none → ∀ x, Dict.get? l i = some x ↔ p = some x ∧ x ≠ [])
  | [], d, l, _, h => by
    simp only [FoldM.nil, Except.ok.injEq] at h
    subst h
    simp
  | (i0, m0) :: mods, d, l, hn, h => by
    obtain ⟨d1, h1, h2⟩ := (FoldM.ok_cons ..).mp h
    obtain ⟨p, hp, h1⟩ := bind_ok.mp h1
    simp only [Dict.keys, List.map_cons, List.nodup_cons] at hn
    obtain ⟨k1, k2⟩ := programs_fold f mods d1 l hn.2 h2
    have hd : (∀ j, j ≠ i0 → Dict.get? d1 j = Dict.get? d j) ∧
        (Dict.get? d i0 = none → ∀ x, Dict.get? d1 i0 = some x ↔ p = some x ∧ x ≠ []) := by
      cases p with
      | none =>
        simp only [Except.ok.injEq] at h1
        subst h1
        exact ⟨fun _ _ => rfl, fun hnone x => by simp [hnone]⟩
      | some y =>
        cases y with
        | nil =>
          simp only [List.isEmpty_nil, if_true, Except.ok.injEq] at h1
          subst h1
          refine ⟨fun _ _ => rfl, fun hnone x => ?_⟩
          rw [hnone]
          simp only [reduceCtorEq, Option.some.injEq, ne_eq, false_iff, not_and, not_not]
          exact fun h => h.symm
        | cons y ys =>
          simp only [List.isEmpty_cons, Bool.false_eq_true, if_false, Except.ok.injEq] at h1
          subst h1
          refine ⟨fun j hj => Dict.get?_set_ne _ _ hj, fun _ x => ?_⟩
          rw [Dict.get?_set_self]
          constructor
          · intro hx
            simp only [Option.some.injEq] at hx
            subst hx
            simp
          · rintro ⟨hx, -⟩; exact hx
    constructor
    · intro i hi
      simp only [Dict.keys, List.map_cons, List.mem_cons, not_or] at hi
      rw [k1 i hi.2, hd.1 i hi.1]
    · intro i m hm
      rcases List.mem_cons.mp hm with hm | hm
      · simp only [Prod.mk.injEq] at hm
        obtain ⟨rfl, rfl⟩ := hm
        refine ⟨p, hp, fun hnone => ?_⟩
        rw [k1 i hn.1]
        exact hd.2 hnone
      · obtain ⟨q, hq, hx⟩ := k2 i m hm
        refine ⟨q, hq, fun hnone => hx ?_⟩
        have hne : i ≠ i0 := by
          intro he
          exact hn.1 (List.mem_map.mpr ⟨(i, m), hm, he⟩)
        rw [hd.1 i hne, hnone]

theorem dict_fold {β V : Type} (K : β → String) (F : β → Except Err V) : ∀ (l : List β) (d d' : List (String × V)),
    (l.map K).Nodup → l.foldlM (fun d c => (F c).map fun p => Dict.set d (K c) p) d = .ok d' →
    (∀ k, k ∉ l.map K → Dict.get? d' k = Dict.get? d k) ∧ ∀ c ∈ l, ∃ p, F c = .ok p ∧ Dict.get? d' (K c) = some p
  | [], d, d', _, h => by
    simp only [FoldM.nil, Except.ok.injEq] at h
    subst h
    simp
  | c :: l, d, d', hn, h => by
    obtain ⟨d1, h1, h2⟩ := (FoldM.ok_cons ..).mp h
    obtain ⟨p, hp, rfl⟩ := map_ok.mp h1
    rw [List.map_cons, List.nodup_cons] at hn
    obtain ⟨k1, k2⟩ := dict_fold K F l _ d' hn.2 h2
    constructor
    · intro k hk
      simp only [List.map_cons, List.mem_cons, not_or] at hk
      rw [k1 k hk.2, Dict.get?_set_ne _ _ hk.1]
    · intro x hx
      rcases List.mem_cons.mp hx with rfl | hx
      · exact ⟨p, hp, by rw [k1 _ hn.1, Dict.get?_set_self]⟩
      · exact k2 x hx

theorem dict_fold_ok {β V : Type} (K : β → String) (F : β → Except Err V) : ∀ (l : List β) (d : List (String × V)),
    (∀ c ∈ l, ∃ p, F c = .ok p) → ∃ d', l.foldlM (fun d c => (F c).map fun p => Dict.set d (K c) p) d = .ok d'
  | [], d, _ => ⟨d, rfl⟩
  | c :: l, d, h => by
    obtain ⟨p, hp⟩ := h c (by simp)
    obtain ⟨d', h'⟩ := dict_fold_ok K F l (Dict.set d (K c) p) (fun x hx => h x (List.mem_cons_of_mem _ hx))
    exact ⟨d', (FoldM.ok_cons ..).mpr ⟨_, map_ok.mpr ⟨p, hp, rfl⟩, h'⟩⟩

/-! ### Local oscillators -/

theorem addLo_other (d : List (String × Component π α)) (l : Lo) {name : String} (h : name ≠ "generic") :
    Dict.get? (addLo d l) name = Dict.get? d name := by
  unfold addLo
  cases l.compile with
  | none => rfl
  | some e => exact Dict.get?_set_ne _ _ h

theorem addLos_other (name : String) (h : name ≠ "generic") : ∀ (los : List Lo) (d : List (String × Component π α)),
    Dict.get? (los.foldl addLo d) name = Dict.get? d name
  | [], d => rfl
  | l :: los, d => by rw [List.foldl_cons, addLos_other name h los, addLo_other d l h]

/-- The parameters of the local oscillators. -/
def loParams (los : List Lo) : List ((String × String) × Rat) := los.flatMap fun l => (l.compile).getD []

theorem addLos_generic : ∀ (los : List Lo) (d : List (String × Component π α)),
    ((∀ l ∈ los, l.freq = none) → los.foldl addLo d = d) ∧
    ((∃ l ∈ los, l.freq ≠ none) → Dict.get? (los.foldl addLo d) "generic" =
      some { (Dict.get? d "generic").getD {} with
        params := setEach ((Dict.get? d "generic").getD {}).params (loParams los) })
  | [], d => ⟨fun _ => rfl, by simp⟩
  | l :: los, d => by
    obtain ⟨i1, i2⟩ := addLos_generic los (addLo d l)
    cases hf : l.freq with
    | none =>
      have h0 : addLo d l = d := by simp [addLo, Lo.compile, hf]
      rw [h0] at i1 i2
      have hp : loParams (l :: los) = loParams los := by simp [loParams, Lo.compile, hf]
      rw [List.foldl_cons, h0, hp]
      refine ⟨fun h => i1 fun x hx => h x (List.mem_cons_of_mem _ hx), ?_⟩
      rintro ⟨x, hx, hxf⟩
      rcases List.mem_cons.mp hx with rfl | hx
      · exact absurd hf hxf
      · exact i2 ⟨x, hx, hxf⟩
    | some f =>
      refine ⟨fun h => ?_, fun _ => ?_⟩
      · rw [h l (by simp)] at hf
        simp at hf
      · have h0 : Dict.get? (addLo d l) "generic" = some { (Dict.get? d "generic").getD {} with
            params := setEach ((Dict.get? d "generic").getD {}).params (l.compile.getD []) } := by
          simp only [addLo, Lo.compile, hf, Option.map_some, Dict.get?_set_self]
          rfl
        have hp : loParams (l :: los) = l.compile.getD [] ++ loParams los := rfl
        by_cases ha : ∃ x ∈ los, x.freq ≠ none
        · rw [List.foldl_cons, i2 ha, h0, hp]
          simp only [Option.getD_some, setEach, List.foldl_append]
        · have ha' : ∀ x ∈ los, x.freq = none := fun x hx => by
            by_contra hc
            exact ha ⟨x, hx, hc⟩
          have he : loParams los = [] := by
            unfold loParams
            rw [List.flatMap_eq_nil_iff]
            intro x hx
            simp [Lo.compile, ha' x hx]
          rw [List.foldl_cons, i1 ha', h0, hp, he, List.append_nil]

theorem mem_loParams {los : List Lo} {n x : String} {v : Rat} : ((n, x), v) ∈ loParams los ↔
    ∃ l ∈ los, l.name = n ∧ ∃ f, l.freq = some f ∧ (x = "frequency" ∧ v = f ∨ x = "power" ∧ v = l.power) := by
  unfold loParams
  rw [List.mem_flatMap]
  constructor
  · rintro ⟨l, hl, h⟩
    refine ⟨l, hl, ?_⟩
    cases hf : l.freq with
    | none => simp [Lo.compile, hf] at h
    | some f =>
      simp only [Lo.compile, hf, Option.map_some, Option.getD_some, List.mem_cons, Prod.mk.injEq, List.not_mem_nil,
        or_false] at h
      rcases h with ⟨⟨rfl, rfl⟩, rfl⟩ | ⟨⟨rfl, rfl⟩, rfl⟩
      · exact ⟨rfl, v, rfl, .inl ⟨rfl, rfl⟩⟩
      · exact ⟨rfl, f, rfl, .inr ⟨rfl, rfl⟩⟩
  · rintro ⟨l, hl, rfl, f, hf, h⟩
    refine ⟨l, hl, ?_⟩
    simp only [Lo.compile, hf, Option.map_some, Option.getD_some]
    rcases h with ⟨rfl, rfl⟩ | ⟨rfl, rfl⟩ <;> simp

theorem get_finish (acq : α) (reps : Nat) (d : List (String × Component π α)) (name : String) :
    Dict.get? (finish acq reps d) name = (Dict.get? d name).map fun c =>
      if name ≠ "generic" then { c with acquisitions := some acq, repetitions := some reps } else c := by
  unfold finish
  induction d with
  | nil => rfl
  | cons e d ih =>
    rw [List.map_cons, Dict.get?_cons, Dict.get?_cons]
    by_cases he : e.1 = name
    · by_cases hn : e.1 = "generic" <;> simp [he, hn, he ▸ hn]
    · by_cases hn : e.1 = "generic"
      · simp only [hn, ne_eq, not_true, if_false]
        rw [if_neg (hn ▸ he), if_neg (hn ▸ he)]
        exact ih
      · simp only [hn, ne_eq, not_false_iff, if_true, he, if_false]
        exact ih

/-! ### Everything -/

theorem built_ok {analog : ν → Option Rat}
    {compileModule : List (String × ρ) → String → Nat → ModuleCfg ν → Except Err (Option (List π))}
    {schedule : Op ρ} {opts : List (String × Option (List (String × ν)))} {clusters : List (String × Cluster)}
    {los : List Lo} {acq : α} {reps : Nat} {out : List (String × Component π α)}
    (h : hwCompile analog compileModule schedule opts clusters los acq reps = .ok out) :
    ∃ (b : Options ν) (built : List ((String × ClusterCfg ν) × List (Nat × ModuleCfg ν)))
      (d : List (String × Component π α)), byPortClock opts = .ok b ∧
      List.Forall₂ (fun c m => m.1 = (c.1, cfgOf b c.2) ∧ moduleCfgs (cfgOf b c.2) = .ok m.2)
        (clusters.filter fun c => !c.2.paths.isEmpty) built ∧
      (∀ m ∈ built, validateSync analog m.1.2 = .ok ()) ∧
      built.foldlM (fun d c => (compileCluster (compileModule (allResources schedule) c.1.1) c.1.2 c.2).map
        fun p => Dict.set d c.1.1 p) [] = .ok d ∧ out = finish acq reps (los.foldl addLo d) := by
  unfold hwCompile at h
  obtain ⟨cfgs, h1, h⟩ := bind_ok.mp h
  obtain ⟨built, h2, h⟩ := bind_ok.mp h
  obtain ⟨⟨⟩, h3, h⟩ := bind_ok.mp h
  obtain ⟨d, h4, h5⟩ := bind_ok.mp h
  simp only [Except.ok.injEq] at h5
  unfold clusterCfgs at h1
  obtain ⟨b, hb, h1⟩ := bind_ok.mp h1
  simp only [Except.ok.injEq] at h1
  subst h1
  refine ⟨b, built, d, hb, ?_, (forM_ok _ _).mp h3, h4, h5.symm⟩
  have := (mapM_ok _ _ _).mp h2
  rw [List.forall₂_map_left_iff] at this
  refine this.imp ?_
  intro c m hm
  obtain ⟨x, hx, rfl⟩ := map_ok.mp hm
  exact ⟨rfl, hx⟩

theorem forall₂_left {α β : Type} {R : α → β → Prop} : ∀ {l : List α} {m : List β}, List.Forall₂ R l m → ∀ a ∈ l,
    ∃ b ∈ m, R a b
  | _, _, .cons h t, a, ha => by
    rcases List.mem_cons.mp ha with rfl | ha
    · exact ⟨_, by simp, h⟩
    · obtain ⟨b, hb, hr⟩ := forall₂_left t a ha
      exact ⟨b, List.mem_cons_of_mem _ hb, hr⟩

theorem forall₂_names {b : Options ν} : ∀ {l : List (String × Cluster)}
    {m : List ((String × ClusterCfg ν) × List (Nat × ModuleCfg ν))},
    List.Forall₂ (fun c m => m.1 = (c.1, cfgOf b c.2) ∧ moduleCfgs (cfgOf b c.2) = .ok m.2) l m →
    m.map (fun c => c.1.1) = l.map Prod.fst
  | _, _, .nil => rfl
  | _, _, .cons h t => by
    rw [List.map_cons, List.map_cons, forall₂_names t, h.1]

/-- **C81.** The instructions of a compiled schedule: a cluster is in them exactly if a port-clock of the schedule is
connected to it.  Its settings, the data of the acquisitions and the repetitions are there.  Its modules are compiled
with the clocks of the schedule, with exactly the options that the user has given for port-clocks of this module, and
with the port-clocks and local oscillators that are connected to it.  The programs that are not empty are in the
instructions, those of unused modules are not. -/
theorem instruments {analog : ν → Option Rat}
    {compileModule : List (String × ρ) → String → Nat → ModuleCfg ν → Except Err (Option (List π))}
    {schedule : Op ρ} (hd : Dicts schedule) {opts : List (String × Option (List (String × ν)))}
    {clusters : List (String × Cluster)} (ht : Tidy opts clusters) (hg : ∀ e ∈ clusters, e.1 ≠ "generic")
    {los : List Lo} {acq : α} {reps : Nat} {out : List (String × Component π α)}
    (h : hwCompile analog compileModule schedule opts clusters los acq reps = .ok out) :
    (∀ name c, (name, c) ∈ clusters → c.paths = [] → Dict.get? out name = none) ∧
    (∃ res, Clocks schedule res ∧ ∀ name c, (name, c) ∈ clusters → c.paths ≠ [] →
      ∃ comp, Dict.get? out name = some comp ∧ comp.settings = some (c.config, c.sync) ∧ comp.params = [] ∧
        comp.acquisitions = some acq ∧ comp.repetitions = some reps ∧
        (∀ slot, ¬ Used c slot → Dict.get? comp.modules slot = none) ∧
        ∀ slot, Used c slot → ∃ m p, Right opts c slot m ∧ compileModule res name slot m = .ok p ∧
          ∀ x, Dict.get? comp.modules slot = some x ↔ p = some x ∧ x ≠ []) ∧
    ∀ name comp, Dict.get? out name = some comp → name = "generic" ∨ ∃ c, (name, c) ∈ clusters ∧ c.paths ≠ [] := by
  obtain ⟨b, built, d, hb, h1, -, h2, rfl⟩ := built_ok h
  have hnames := forall₂_names h1
  have hfil : ((clusters.filter fun c => !c.2.paths.isEmpty).map Prod.fst).Nodup :=
    (ht.clusters : (clusters.map Prod.fst).Nodup).sublist (List.filter_sublist.map _)
  have hcn : (built.map fun c => c.1.1).Nodup := by rw [hnames]; exact hfil
  obtain ⟨k1, k2⟩ := dict_fold (fun c : (String × ClusterCfg ν) × List (Nat × ModuleCfg ν) => c.1.1)
    (fun c => compileCluster (compileModule (allResources schedule) c.1.1) c.1.2 c.2) built [] d hcn h2
  have hin : ∀ name, name ∈ built.map (fun c => c.1.1) ↔ ∃ c, (name, c) ∈ clusters ∧ c.paths ≠ [] := by
    intro name
    rw [hnames]
    constructor
    · intro hm
      obtain ⟨⟨n, c⟩, hm', rfl⟩ := List.mem_map.mp hm
      obtain ⟨hm', hp⟩ := List.mem_filter.mp hm'
      exact ⟨c, hm', by simpa using hp⟩
    · rintro ⟨c, hm, hp⟩
      exact List.mem_map.mpr ⟨(name, c), List.mem_filter.mpr ⟨hm, by simpa using hp⟩, rfl⟩
  refine ⟨?_, ⟨allResources schedule, ⟨fun clock v => (every_clock schedule hd clock).1 v,
    fun clock v => (every_clock schedule hd clock).2.1 v⟩, ?_⟩, ?_⟩
  · intro name c hc hp
    have hng := hg _ hc
    rw [get_finish, addLos_other name hng, k1 name, Dict.get?_nil]
    · rfl
    · intro hm
      obtain ⟨c', hc', hp'⟩ := (hin name).mp hm
      have := unique_of_nodup ht.clusters hc hc'
      subst this
      exact hp' hp
  · intro name c hc hp
    have hng : name ≠ "generic" := hg _ hc
    obtain ⟨m, hm, hm1, hm2⟩ := forall₂_left h1 (name, c) (List.mem_filter.mpr ⟨hc, by simpa using hp⟩)
    obtain ⟨p, hp1, hp2⟩ := k2 m hm
    rw [hm1] at hp1 hp2
    simp only at hp1 hp2 hm2
    obtain ⟨r1, r2, r3⟩ := modules_right ht hb hc hm2
    unfold compileCluster at hp1
    obtain ⟨l, hl, hp1⟩ := bind_ok.mp hp1
    simp only [Except.ok.injEq] at hp1
    subst hp1
    obtain ⟨f1, f2⟩ := programs_fold (compileModule (allResources schedule) name) m.2 [] l r2 hl
    rw [get_finish, addLos_other name hng, hp2]
    refine ⟨_, rfl, ?_⟩
    simp only [if_pos hng, true_and]
    refine ⟨rfl, ?_, ?_⟩
    · intro slot hs
      rw [f1 slot (fun hk => hs ((r1 slot).mp hk)), Dict.get?_nil]
    · intro slot hs
      obtain ⟨cfg, hcfg⟩ := Option.isSome_iff_exists.mp ((Dict.get?_isSome_iff _ _).mpr ((r1 slot).mpr hs))
      obtain ⟨q, hq, hx⟩ := f2 slot cfg (Dict.mem_of_get? hcfg)
      exact ⟨cfg, q, r3 slot cfg hcfg, hq, hx rfl⟩
  · intro name comp hc
    by_cases hng : name = "generic"
    · exact .inl hng
    · refine .inr ((hin name).mp ?_)
      rw [get_finish, addLos_other name hng] at hc
      by_contra hm
      rw [k1 name hm, Dict.get?_nil] at hc
      simp at hc

/-- **C81, local oscillators.** The parameters of other instruments are the frequency and the power of the local
oscillators for which a frequency was determined.  Without any there are no such instructions. -/
theorem oscillators {analog : ν → Option Rat}
    {compileModule : List (String × ρ) → String → Nat → ModuleCfg ν → Except Err (Option (List π))}
    {schedule : Op ρ} {opts : List (String × Option (List (String × ν)))}
    {clusters : List (String × Cluster)} (ht : Tidy opts clusters) (hg : ∀ e ∈ clusters, e.1 ≠ "generic")
    {los : List Lo} (hl : (los.map Lo.name).Nodup) {acq : α} {reps : Nat} {out : List (String × Component π α)}
    (h : hwCompile analog compileModule schedule opts clusters los acq reps = .ok out) :
    ((∀ l ∈ los, l.freq = none) → Dict.get? out "generic" = none) ∧
    ((∃ l ∈ los, l.freq ≠ none) → ∃ g, Dict.get? out "generic" = some g ∧ g.settings = none ∧ g.modules = [] ∧
      g.acquisitions = none ∧ g.repetitions = none ∧ ∀ n x v, Dict.get? g.params (n, x) = some v ↔
        ∃ l ∈ los, l.name = n ∧ ∃ f, l.freq = some f ∧ (x = "frequency" ∧ v = f ∨ x = "power" ∧ v = l.power)) := by
  obtain ⟨b, built, d, hb, h1, -, h2, rfl⟩ := built_ok h
  have hnames := forall₂_names h1
  have hfil : ((clusters.filter fun c => !c.2.paths.isEmpty).map Prod.fst).Nodup :=
    (ht.clusters : (clusters.map Prod.fst).Nodup).sublist (List.filter_sublist.map _)
  have hcn : (built.map fun c => c.1.1).Nodup := by rw [hnames]; exact hfil
  obtain ⟨k1, k2⟩ := dict_fold (fun c : (String × ClusterCfg ν) × List (Nat × ModuleCfg ν) => c.1.1)
    (fun c => compileCluster (compileModule (allResources schedule) c.1.1) c.1.2 c.2) built [] d hcn h2
  have hgen : Dict.get? d "generic" = none := by
    rw [k1 "generic", Dict.get?_nil]
    intro hm
    rw [hnames] at hm
    obtain ⟨⟨n, c⟩, hm, hn⟩ := List.mem_map.mp hm
    exact hg _ (List.mem_filter.mp hm).1 hn
  obtain ⟨l1, l2⟩ := addLos_generic los d
  rw [get_finish]
  constructor
  · intro hn
    rw [l1 hn, hgen]
    rfl
  · intro he
    rw [l2 he, hgen]
    refine ⟨_, rfl, ?_⟩
    simp only [ne_eq, not_true, if_false, Option.getD_none, true_and]
    intro n x v
    rw [get_setEach _ _ (fun a v v' h h' => ?_), mem_loParams]
    · simp [Dict.get?_nil]
    · obtain ⟨n', x'⟩ := a
      obtain ⟨o, ho, rfl, f, hf, hv⟩ := mem_loParams.mp h
      obtain ⟨o', ho', hn', f', hf', hv'⟩ := mem_loParams.mp h'
      have : o' = o := List.inj_on_of_nodup_map hl ho' ho hn'
      subst this
      rw [hf] at hf'
      simp only [Option.some.injEq] at hf'
      subst hf'
      rcases hv with ⟨rfl, rfl⟩ | ⟨rfl, rfl⟩
      · rcases hv' with ⟨-, rfl⟩ | ⟨hc, -⟩
        · rfl
        · simp at hc
      · rcases hv' with ⟨hc, -⟩ | ⟨-, rfl⟩
        · simp at hc
        · rfl

/-- **C81, what is accepted.** If the modules can be compiled, compilation fails exactly if an option is set to nothing,
if a used slot, or the slot of a local oscillator, is not described or not used, or if an external trigger does not
fit. -/
theorem accepted {analog : ν → Option Rat}
    {compileModule : List (String × ρ) → String → Nat → ModuleCfg ν → Except Err (Option (List π))}
    (hok : ∀ r n i m, ∃ p, compileModule r n i m = .ok p)
    {schedule : Op ρ} {opts : List (String × Option (List (String × ν)))} {clusters : List (String × Cluster)}
    (ht : Tidy opts clusters) {los : List Lo} {acq : α} {reps : Nat} :
    (∃ out : List (String × Component π α), hwCompile analog compileModule schedule opts clusters los acq reps = .ok out) ↔
      (∀ o ∈ opts, o.2 ≠ none) ∧ ∀ name c, (name, c) ∈ clusters → c.paths ≠ [] →
        (∀ e ∈ c.paths, ∃ k, (e.2.module, k) ∈ c.modules) ∧
        (∀ e ∈ c.los, Used c e.2.module ∧ ∃ k, (e.2.module, k) ∈ c.modules) ∧
        ∀ s, c.sync = some s → TriggerFits analog opts c s := by
  have hmods : ∀ {b : Options ν}, byPortClock opts = .ok b → ∀ name c, (name, c) ∈ clusters →
      ((∃ mods, moduleCfgs (cfgOf b c) = .ok mods) ↔ (∀ e ∈ c.paths, ∃ k, (e.2.module, k) ∈ c.modules) ∧
        ∀ e ∈ c.los, Used c e.2.module ∧ ∃ k, (e.2.module, k) ∈ c.modules) := by
    intro b hb name c hc
    obtain ⟨n1, n2⟩ := get_byPortClock ht.options ht.values hb
    obtain ⟨n3, n4⟩ := get_clusterOptions n1 c.paths
    have hk : ∀ i, i ∈ Dict.keys (usedModules c) ↔ Used c i ∧ ∃ k, (i, k) ∈ c.modules := by
      intro i
      constructor
      · intro hi
        obtain ⟨⟨i', k⟩, hk, rfl⟩ := List.mem_map.mp hi
        exact ⟨(mem_usedModules.mp hk).2, k, (mem_usedModules.mp hk).1⟩
      · rintro ⟨hu, k, hk⟩
        exact List.mem_map.mpr ⟨(i, k), mem_usedModules.mpr ⟨hk, hu⟩, rfl⟩
    rw [moduleCfgs_iff n3 (ht.paths _ hc) (fun o pc v h => ((n4 o pc v).mp h).1)]
    simp only [show (cfgOf b c).modules = usedModules c from rfl, show (cfgOf b c).paths = c.paths from rfl,
      show (cfgOf b c).los = c.los from rfl, hk]
    constructor
    · rintro ⟨h1, h2⟩; exact ⟨fun e he => (h1 e he).2, h2⟩
    · rintro ⟨h1, h2⟩; exact ⟨fun e he => ⟨⟨e, he, rfl⟩, h1 e he⟩, h2⟩
  constructor
  · rintro ⟨out, h⟩
    obtain ⟨b, built, d, hb, h1, h2, h3, -⟩ := built_ok h
    refine ⟨((byPortClock_ok opts b).mp hb).1, fun name c hc hp => ?_⟩
    obtain ⟨m, hm, hm1, hm2⟩ := forall₂_left h1 (name, c) (List.mem_filter.mpr ⟨hc, by simpa using hp⟩)
    obtain ⟨e1, e2⟩ := (hmods hb name c hc).mp ⟨_, hm2⟩
    have := h2 m hm
    rw [hm1] at this
    exact ⟨e1, e2, (validateSync_iff analog ht.options ht.values hb (ht.modules _ hc)).mp this⟩
  · rintro ⟨h1, h2⟩
    have hb := (byPortClock_ok opts _).mpr ⟨h1, rfl⟩
    generalize setAll [] (triples opts) = b at hb
    have hbuilt : ∃ built, List.mapM (fun c : String × ClusterCfg ν => (moduleCfgs c.2).map fun m => (c, m))
        ((clusters.filter fun c => !c.2.paths.isEmpty).map fun c => (c.1, cfgOf b c.2)) = .ok built ∧
        ∀ m ∈ built, ∃ name c, (name, c) ∈ clusters ∧ c.paths ≠ [] ∧ m.1 = (name, cfgOf b c) := by
      have : ∀ l : List (String × Cluster), (∀ e ∈ l, e ∈ clusters ∧ e.2.paths ≠ []) →
          ∃ built, List.mapM (fun c : String × ClusterCfg ν => (moduleCfgs c.2).map fun m => (c, m))
            (l.map fun c => (c.1, cfgOf b c.2)) = .ok built ∧
          ∀ m ∈ built, ∃ name c, (name, c) ∈ clusters ∧ c.paths ≠ [] ∧ m.1 = (name, cfgOf b c) := by
        intro l
        induction l with
        | nil => intro _; exact ⟨[], rfl, by simp⟩
        | cons e l ih =>
          intro hl
          obtain ⟨built, hb1, hb2⟩ := ih (fun x hx => hl x (List.mem_cons_of_mem _ hx))
          obtain ⟨hc, hp⟩ := hl e (by simp)
          obtain ⟨e1, e2, -⟩ := h2 e.1 e.2 hc hp
          obtain ⟨mods, hm⟩ := (hmods hb e.1 e.2 hc).mpr ⟨e1, e2⟩
          refine ⟨((e.1, cfgOf b e.2), mods) :: built, ?_, ?_⟩
          · rw [mapM_ok] at hb1 ⊢
            rw [List.map_cons]
            exact .cons (map_ok.mpr ⟨mods, hm, rfl⟩) hb1
          · intro m hm
            rcases List.mem_cons.mp hm with rfl | hm
            · exact ⟨e.1, e.2, hc, hp, rfl⟩
            · exact hb2 m hm
      apply this
      intro e he
      obtain ⟨he, hp⟩ := List.mem_filter.mp he
      exact ⟨he, by simpa using hp⟩
    obtain ⟨built, hb1, hb2⟩ := hbuilt
    obtain ⟨d, hdd⟩ := dict_fold_ok (fun c : (String × ClusterCfg ν) × List (Nat × ModuleCfg ν) => c.1.1)
      (fun c => (compileCluster (compileModule (allResources schedule) c.1.1) c.1.2 c.2 : Except Err (Component π α)))
      built [] (fun c hc => by
        have : ∀ (l : List (Nat × ModuleCfg ν)) (d : List (Nat × List π)), ∃ d', l.foldlM (fun d m =>
            (compileModule (allResources schedule) c.1.1 m.1 m.2).bind fun p =>
            match p with
            | none => .ok d
            | some l => if l.isEmpty then .ok d else .ok (Dict.set d m.1 l)) d = .ok d' := by
          intro l
          induction l with
          | nil => intro d; exact ⟨d, rfl⟩
          | cons m l ih =>
            intro d
            obtain ⟨p, hp⟩ := hok (allResources schedule) c.1.1 m.1 m.2
            cases p with
            | none =>
              obtain ⟨d', hd'⟩ := ih d
              exact ⟨d', (FoldM.ok_cons ..).mpr ⟨d, by rw [hp]; rfl, hd'⟩⟩
            | some x =>
              by_cases hx : x.isEmpty
              · obtain ⟨d', hd'⟩ := ih d
                exact ⟨d', (FoldM.ok_cons ..).mpr ⟨d, by rw [hp]; simp [Except.bind, hx], hd'⟩⟩
              · obtain ⟨d', hd'⟩ := ih (Dict.set d m.1 x)
                exact ⟨d', (FoldM.ok_cons ..).mpr ⟨_, by rw [hp]; simp [Except.bind, hx], hd'⟩⟩
        obtain ⟨d', hd'⟩ := this c.2 []
        exact ⟨_, bind_ok.mpr ⟨d', hd', rfl⟩⟩)
    refine ⟨_, bind_ok.mpr ⟨_, bind_ok.mpr ⟨b, hb, rfl⟩, bind_ok.mpr ⟨built, hb1, bind_ok.mpr ⟨(), ?_,
      bind_ok.mpr ⟨d, hdd, rfl⟩⟩⟩⟩⟩
    rw [forM_ok]
    intro m hm
    obtain ⟨name, c, hc, hp, hm1⟩ := hb2 m hm
    rw [hm1]
    exact (validateSync_iff analog ht.options ht.values hb (ht.modules _ hc)).mpr (h2 name c hc hp).2.2

end Verif.Instruments
