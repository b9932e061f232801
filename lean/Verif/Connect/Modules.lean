/-
The configurations of the modules.
-/
import Verif.Connect.Assign

set_option linter.unusedSimpArgs false
set_option linter.unusedVariables false

namespace Verif.Connect

open Verif.Connect.Spec

/-- `P'` is `P`, possibly with input channels of the old configuration style. -/
structure Ext (P P' : Path) : Prop where
  cluster : P'.cluster = P.cluster
  module : P'.module = P.module
  chan : P'.chan = P.chan
  more : ∀ ch, Uses P ch → Uses P' ch
  less : ∀ ch, Uses P' ch → Uses P ch ∨ ch ∈ [ci 0, ri 0, ri 1]

theorem Ext.refl (P : Path) : Ext P P := ⟨rfl, rfl, rfl, fun _ h => h, fun _ h => Or.inl h⟩

theorem Ext.trans {P Q R : Path} (h1 : Ext P Q) (h2 : Ext Q R) : Ext P R where
  cluster := h2.cluster.trans h1.cluster
  module := h2.module.trans h1.module
  chan := h2.chan.trans h1.chan
  more := fun ch h => h2.more ch (h1.more ch h)
  less := fun ch h => by
    rcases h2.less ch h with h | h
    · exact h1.less ch h
    · exact Or.inr h

theorem add_input_chan (p : Path) (c : Chan) (h : c.dir = .input) : (p.add c).chan = p.chan := by
  unfold Path.add; split
  · rw [if_pos h]
  · rfl

theorem ext_add (p : Path) (c : Chan) (h : c ∈ [ci 0, ri 0, ri 1]) : Ext p (p.add c) where
  cluster := add_cluster _ _
  module := add_module _ _
  chan := add_input_chan _ _ (by
    simp only [List.mem_cons, List.not_mem_nil, or_false] at h
    rcases h with rfl | rfl | rfl <;> rfl)
  more := fun ch h' => (uses_add _ _ _).mpr (Or.inl h')
  less := fun ch h' => by
    rcases (uses_add _ _ _).mp h' with h' | rfl
    · exact Or.inl h'
    · exact Or.inr h

theorem ext_adds : ∀ (l : List Chan) (p : Path), (∀ c ∈ l, c ∈ [ci 0, ri 0, ri 1]) →
    Ext p (l.foldl Path.add p)
  | [], p, _ => Ext.refl p
  | c :: l, p, h => (ext_add p c (h c (by simp))).trans
      (ext_adds l (p.add c) (fun x hx => h x (by simp [hx])))

/-- Objects of a heap may be extended where a condition on them holds. -/
def HeapExt (q : Path → Prop) (h h' : List Path) : Prop :=
  h'.length = h.length ∧ ∀ (i : Nat) (P : Path), h[i]? = some P →
    ∃ P', h'[i]? = some P' ∧ Ext P P' ∧ (P' ≠ P → q P)

theorem HeapExt.refl (q : Path → Prop) (h : List Path) : HeapExt q h h :=
  ⟨rfl, fun _ P hp => ⟨P, hp, Ext.refl P, fun e => absurd rfl e⟩⟩

theorem HeapExt.trans {q : Path → Prop} (hq : ∀ P P', Ext P P' → q P' → q P)
    {h1 h2 h3 : List Path} (a : HeapExt q h1 h2) (b : HeapExt q h2 h3) : HeapExt q h1 h3 := by
  refine ⟨b.1.trans a.1, ?_⟩
  intro i P hP
  obtain ⟨P', h1', h2', h3'⟩ := a.2 i P hP
  obtain ⟨P'', h4, h5, h6⟩ := b.2 i P' h1'
  refine ⟨P'', h4, h2'.trans h5, ?_⟩
  intro hne
  by_cases hp : P' = P
  · subst hp; exact h6 hne
  · exact h3' hp

theorem HeapExt.weaken {q q' : Path → Prop} (hq : ∀ P, q P → q' P) {h1 h2 : List Path}
    (a : HeapExt q h1 h2) : HeapExt q' h1 h2 :=
  ⟨a.1, fun i P hP => by
    obtain ⟨P', h1, h2, h3⟩ := a.2 i P hP
    exact ⟨P', h1, h2, fun h => hq _ (h3 h)⟩⟩

theorem addInputs_ext (q : Path → Prop) (hq : ∀ P P', Ext P P' → (q P' ↔ q P)) (mode : Mode)
    (ins : List Chan)
    (hins : ∀ c ∈ ins, c ∈ [ci 0, ri 0, ri 1]) : ∀ (refs : List Nat) (heap : List Path),
    (∀ r ∈ refs, ∀ P, heap[r]? = some P → q P) → HeapExt q heap (addInputs mode ins heap refs)
  | [], heap, _ => HeapExt.refl q heap
  | r :: refs, heap, h => by
    rw [addInputs, List.foldl_cons, ← addInputs]
    have hstep : HeapExt q heap (match heap[r]? with
        | some p => if p.chan.mode = mode ∧ p.chan.dir = .output then
            heap.set r (ins.foldl Path.add p) else heap
        | none => heap) := by
      cases hr : heap[r]? with
      | none => exact HeapExt.refl q heap
      | some p =>
        simp only
        split
        · refine ⟨by simp, ?_⟩
          intro i P hP
          by_cases hi : i = r
          · subst hi
            rw [hr, Option.some.injEq] at hP
            subst hP
            exact ⟨_, heap_set_get _ _ _ _ hr, ext_adds ins p hins, fun _ => h i (by simp) _ hr⟩
          · exact ⟨P, by rw [List.getElem?_set_ne (Ne.symm hi)]; exact hP, Ext.refl P,
              fun e => absurd rfl e⟩
        · exact HeapExt.refl q heap
    refine HeapExt.trans (fun P P' e => (hq P P' e).mp) hstep
      (addInputs_ext q hq mode ins hins refs _ ?_)
    intro r' hr' P' hP'
    cases hh : heap[r']? with
    | none =>
      have : r' < heap.length := by
        rw [← hstep.1]
        by_contra hc; rw [List.getElem?_eq_none (by omega)] at hP'; simp at hP'
      rw [List.getElem?_eq_getElem this] at hh; simp at hh
    | some P =>
      obtain ⟨P'', h1, h2, h3⟩ := hstep.2 r' P hh
      rw [hP', Option.some.injEq] at h1
      subst h1
      exact (hq P P' h2).mpr (h r' (by simp [hr']) P hh)

theorem supportInputs_ext (q : Path → Prop) (hq : ∀ P P', Ext P P' → (q P' ↔ q P)) (t : ModType)
    (refs : List Nat) (heap : List Path) (h : ∀ r ∈ refs, ∀ P, heap[r]? = some P → q P) :
    HeapExt (fun P => q P ∧ (t = .qrm ∨ t = .qrmRf)) heap (supportInputs t refs heap) := by
  unfold supportInputs
  split
  · rename_i ht
    have hw : ∀ P, q P → (q P ∧ (t = .qrm ∨ t = .qrmRf)) := fun P hP => ⟨hP, ht⟩
    simp only
    split
    · refine HeapExt.weaken hw ?_
      have h1 := addInputs_ext q hq .complex [ci 0] (by simp) refs heap h
      refine HeapExt.trans (fun P P' e => (hq P P' e).mp) h1
        (addInputs_ext q hq .real [ri 0, ri 1] (by simp) refs _ ?_)
      intro r hr P' hP'
      cases hh : heap[r]? with
      | none =>
        have : r < heap.length := by
          rw [← h1.1]
          by_contra hc; rw [List.getElem?_eq_none (by omega)] at hP'; simp at hP'
        rw [List.getElem?_eq_getElem this] at hh; simp at hh
      | some P =>
        obtain ⟨P'', h3, h4, h5⟩ := h1.2 r P hh
        rw [hP', Option.some.injEq] at h3
        subst h3
        exact (hq P P' h4).mpr (h r hr P hh)
    · split
      · split
        · refine HeapExt.weaken hw (addInputs_ext q hq _ _ ?_ refs heap h)
          intro c hc
          simp only [List.mem_singleton] at hc
          subst hc
          split <;> simp
        · exact HeapExt.refl _ _
      · exact HeapExt.refl _ _
  · exact HeapExt.refl _ _

theorem mem_moduleRefs {heap : List Path} {refs : List (PC × Nat)} {m : Nat} {e : PC × Nat} :
    e ∈ moduleRefs heap refs m ↔ e ∈ refs ∧ ∃ P, heap[e.2]? = some P ∧ P.module = m := by
  unfold moduleRefs
  rw [List.mem_filter]
  simp [Option.map_eq_some_iff]

theorem supportAll_ext (v01 : Bool) (refs : List (PC × Nat)) (mods : List (Nat × ModType))
    (heap : List Path) :
    HeapExt (fun P => v01 = true ∧ ∃ t, (P.module, t) ∈ mods ∧ (t = .qrm ∨ t = .qrmRf)) heap
      (supportAll v01 refs mods heap) := by
  unfold supportAll
  split
  · rename_i hv
    have : ∀ (l : List (Nat × ModType)) (heap : List Path), (∀ e ∈ l, e ∈ mods) →
        HeapExt (fun P => v01 = true ∧ ∃ t, (P.module, t) ∈ mods ∧ (t = .qrm ∨ t = .qrmRf)) heap
          (l.foldl (fun h e => supportInputs e.2 ((moduleRefs h refs e.1).map Prod.snd) h) heap) := by
      intro l
      induction l with
      | nil => intro heap _; exact HeapExt.refl _ _
      | cons e l ih =>
        intro heap hl
        rw [List.foldl_cons]
        refine HeapExt.trans (fun P P' e => by rw [e.module]; exact id) ?_ (ih _ (fun x hx => hl x (by simp [hx])))
        have := supportInputs_ext (fun P => P.module = e.1) (fun P P' h => by rw [h.module]) e.2
          ((moduleRefs heap refs e.1).map Prod.snd) heap (by
            intro r hr P hP
            obtain ⟨x, hx, rfl⟩ := List.mem_map.mp hr
            obtain ⟨_, P', h1, h2⟩ := mem_moduleRefs.mp hx
            rw [hP, Option.some.injEq] at h1
            subst h1; exact h2)
        exact HeapExt.weaken (fun P hP => ⟨hv, e.2, by rw [hP.1]; exact hl e (by simp), hP.2⟩) this
    exact this mods heap (fun _ h => h)
  · exact HeapExt.refl _ _

theorem mem_modulePaths {heap : List Path} {refs : List (PC × Nat)} {m : Nat} {e : PC × Path} :
    e ∈ modulePaths heap refs m ↔ ∃ ref, (e.1, ref) ∈ refs ∧ heap[ref]? = some e.2 ∧ e.2.module = m := by
  unfold modulePaths
  rw [List.mem_filterMap]
  constructor
  · rintro ⟨⟨pc, ref⟩, h1, h2⟩
    obtain ⟨h3, P, h4, h5⟩ := mem_moduleRefs.mp h1
    simp only at h4 h2
    rw [h4] at h2
    simp only [Option.map_some, Option.some.injEq] at h2
    subst h2
    exact ⟨ref, h3, h4, h5⟩
  · rintro ⟨ref, h1, h2, h3⟩
    refine ⟨(e.1, ref), mem_moduleRefs.mpr ⟨h1, e.2, h2, h3⟩, ?_⟩
    simp [h2]

theorem mem_clusterRefs {st : St} (hn : (Dict.keys st.tab).Nodup) {cl : String} {pc : PC} {ref : Nat} :
    (pc, ref) ∈ clusterRefs st cl ↔ Dict.get? st.tab (cl, pc) = some ref := by
  unfold clusterRefs
  rw [List.mem_filterMap]
  constructor
  · rintro ⟨⟨⟨c, pc'⟩, r⟩, h1, h2⟩
    simp only at h2
    split at h2
    · rename_i hc
      simp only [Option.some.injEq, Prod.mk.injEq] at h2
      obtain ⟨rfl, rfl⟩ := h2
      subst hc
      exact Dict.get?_of_mem hn h1
    · simp at h2
  · intro h
    exact ⟨((cl, pc), ref), Dict.mem_of_get? h, by simp⟩

theorem clusterRefs_nodup {st : St} (hn : (Dict.keys st.tab).Nodup) (cl : String) :
    ((clusterRefs st cl).map Prod.fst).Nodup := by
  unfold clusterRefs
  rw [List.map_filterMap]
  have : (Dict.keys st.tab).filterMap (fun k => if k.1 = cl then some k.2 else none) =
      st.tab.filterMap (fun x => Option.map Prod.fst
        (if x.1.1 = cl then some (x.1.2, x.2) else none)) := by
    rw [Dict.keys, List.filterMap_map]
    congr 1
    funext x
    simp only [Function.comp]
    split <;> rfl
  rw [← this]
  refine List.Nodup.filterMap ?_ hn
  rintro ⟨a, b⟩ ⟨a', b'⟩ c h1 h2
  simp only [Option.mem_def, Option.ite_none_right_eq_some, Option.some.injEq] at h1 h2
  rw [h1.1, h2.1, h1.2, h2.2]

theorem modulePaths_nodup {heap : List Path} {refs : List (PC × Nat)} (hn : (refs.map Prod.fst).Nodup)
    (m : Nat) : ((modulePaths heap refs m).map Prod.fst).Nodup := by
  unfold modulePaths
  have hs : ((moduleRefs heap refs m).map Prod.fst).Nodup :=
    hn.sublist (List.filter_sublist.map _)
  refine hs.sublist ?_
  induction (moduleRefs heap refs m) with
  | nil => simp
  | cons e l ih =>
    rw [List.filterMap_cons]
    cases he : heap[e.2]? with
    | none => simp only [he, Option.map_none]; exact ih.trans (List.sublist_cons_self _ _)
    | some P => simp only [he, Option.map_some, List.map_cons]; exact ih.cons_cons _

theorem validateModules_ok : ∀ {ms : List Module}, validateModules ms = .ok () →
    ∀ m ∈ ms, ∀ e ∈ m.pcs, validateMeasure m.type e.2 = .ok ()
  | [], _, m, hm => by simp at hm
  | m0 :: ms, h, m, hm => by
    rw [validateModules] at h
    split at h
    · simp at h
    · rename_i u hu
      rcases List.mem_cons.mp hm with rfl | hm
      · clear h hm
        cases u
        generalize m.pcs = l at hu
        induction l with
        | nil => simp
        | cons e l ih =>
          rw [validateAll] at hu
          split at hu
          · simp at hu
          · rename_i v hv
            intro x hx
            rcases List.mem_cons.mp hx with rfl | hx
            · exact hv
            · exact ih hu x hx
      · exact validateModules_ok h m hm

/-- The modules of a cluster. -/
theorem clusterModules_ok {v01 : Bool} {st : St} {c : Cluster} {ms : List Module} (hv : Valid st)
    (h : clusterModules v01 st c = .ok ms) :
    (∀ m ∈ ms, m.cluster = c.name ∧ (m.idx, m.type) ∈ c.modules ∧ (m.pcs.map Prod.fst).Nodup ∧
      (∀ e ∈ m.pcs, validateMeasure m.type e.2 = .ok ()) ∧
      (∀ e ∈ m.pcs, ∃ ref P, Dict.get? st.tab (c.name, e.1) = some ref ∧ st.heap[ref]? = some P ∧
        P.module = m.idx ∧ Ext P e.2 ∧ (e.2 ≠ P → v01 = true ∧
          ∃ t, (m.idx, t) ∈ c.modules ∧ (t = .qrm ∨ t = .qrmRf)))) ∧
    (∀ pc ref P, Dict.get? st.tab (c.name, pc) = some ref → st.heap[ref]? = some P →
      ∃ m ∈ ms, m.idx = P.module ∧ ∃ P', (pc, P') ∈ m.pcs) ∧
    (ms.map Module.idx).Sublist (c.modules.map Prod.fst) := by
  unfold clusterModules at h
  simp only at h
  split at h
  · rename_i hall
    split at h
    · simp at h
    · rename_i u hu
      simp only [Except.ok.injEq] at h
      have hu' := validateModules_ok hu
      have hext := supportAll_ext v01 (clusterRefs st c.name)
        (usedModules st.heap (clusterRefs st c.name) c.modules) st.heap
      have hsub : ∀ e, e ∈ usedModules st.heap (clusterRefs st c.name) c.modules → e ∈ c.modules :=
        fun e he => (List.mem_filter.mp he).1
      have hback : ∀ (ref : Nat) (P' : Path), (supportAll v01 (clusterRefs st c.name)
          (usedModules st.heap (clusterRefs st c.name) c.modules) st.heap)[ref]? = some P' →
          ∃ P, st.heap[ref]? = some P := by
        intro ref P' hP'
        have : ref < st.heap.length := by
          rw [← hext.1]
          by_contra hc; rw [List.getElem?_eq_none (by omega)] at hP'; simp at hP'
        exact ⟨_, List.getElem?_eq_getElem this⟩
      refine ⟨?_, ?_, ?_⟩
      · intro m hm
        have hval := hu' m (by rw [h]; exact hm)
        rw [← h] at hm
        obtain ⟨⟨i, t⟩, he, rfl⟩ := List.mem_map.mp hm
        refine ⟨rfl, hsub _ he, modulePaths_nodup (clusterRefs_nodup hv.1 _) _, hval, ?_⟩
        intro e hee
        obtain ⟨ref, h1, h2, h3⟩ := mem_modulePaths.mp hee
        obtain ⟨P, hP⟩ := hback ref _ h2
        obtain ⟨P', h4, h5, h6⟩ := hext.2 ref P hP
        rw [h2, Option.some.injEq] at h4
        subst h4
        have hm : P.module = i := by rw [← h5.module]; exact h3
        refine ⟨ref, P, (mem_clusterRefs hv.1).mp h1, hP, hm, h5, ?_⟩
        intro hne
        obtain ⟨h7, t', h8, h9⟩ := h6 hne
        exact ⟨h7, t', hm ▸ hsub _ h8, h9⟩
      · intro pc ref P hg hP
        have hmem := (mem_clusterRefs hv.1).mpr hg
        rw [List.all_eq_true] at hall
        have ha := hall _ hmem
        obtain ⟨P', h4, h5, h6⟩ := hext.2 ref P hP
        simp only [h4, Option.map_some, Option.any_some, List.contains_iff_mem] at ha
        obtain ⟨e, he, hei⟩ := List.mem_map.mp ha
        refine ⟨_, by rw [← h]; exact List.mem_map.mpr ⟨e, he, rfl⟩, ?_, P', ?_⟩
        · simp only; rw [hei, h5.module]
        · exact mem_modulePaths.mpr ⟨ref, hmem, h4, hei.symm⟩
      · rw [← h, List.map_map]
        have : (Module.idx ∘ fun e : Nat × ModType => (⟨c.name, e.1, e.2, modulePaths
            (supportAll v01 (clusterRefs st c.name)
              (usedModules st.heap (clusterRefs st c.name) c.modules) st.heap)
              (clusterRefs st c.name) e.1⟩ : Module)) = Prod.fst := rfl
        rw [this]
        exact List.filter_sublist.map _
  · simp at h

theorem collect_ok {v01 : Bool} {st : St} : ∀ {cs : List Cluster} {ms : List Module},
    collect v01 st cs = .ok ms → ∀ m, m ∈ ms ↔ ∃ c ∈ cs, ∃ ns, clusterModules v01 st c = .ok ns ∧ m ∈ ns
  | [], ms, h, m => by
    simp only [collect, Except.ok.injEq] at h; subst h; simp
  | c :: cs, ms, h, m => by
    rw [collect] at h
    split at h
    · simp at h
    · rename_i ns hns
      split at h
      · simp at h
      · rename_i ms' hms
        simp only [Except.ok.injEq] at h
        subst h
        rw [List.mem_append, collect_ok hms m]
        constructor
        · rintro (h | ⟨c', h1, h2⟩)
          · exact ⟨c, by simp, ns, hns, h⟩
          · exact ⟨c', by simp [h1], h2⟩
        · rintro ⟨c', h1, ns', h2, h3⟩
          rcases List.mem_cons.mp h1 with rfl | h1
          · rw [hns, Except.ok.injEq] at h2; subst h2; exact Or.inl h3
          · exact Or.inr ⟨c', h1, ns', h2, h3⟩

theorem collect_each {v01 : Bool} {st : St} : ∀ {cs : List Cluster} {ms : List Module},
    collect v01 st cs = .ok ms → ∀ c ∈ cs, ∃ ns, clusterModules v01 st c = .ok ns
  | [], ms, h, c, hc => by simp at hc
  | c0 :: cs, ms, h, c, hc => by
    rw [collect] at h
    split at h
    · simp at h
    · rename_i ns hns
      split at h
      · simp at h
      · rename_i ms' hms
        rcases List.mem_cons.mp hc with rfl | hc
        · exact ⟨ns, hns⟩
        · exact collect_each hms c hc

end Verif.Connect
