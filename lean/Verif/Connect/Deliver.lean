/-
The sequencers of a module and their operations.
-/
import Verif.Connect.Modules
import Verif.Flatten.Props

set_option linter.unusedSimpArgs false
set_option linter.unusedVariables false

namespace Verif.Connect

open Verif.Connect.Spec

variable {α : Type}

theorem foldl_set_new {K V : Type} [DecidableEq K] : ∀ (l acc : List (K × V)),
    (Dict.keys (acc ++ l)).Nodup → l.foldl (fun d e => Dict.set d e.1 e.2) acc = acc ++ l
  | [], acc, _ => by simp
  | e :: l, acc, h => by
    have he : e.1 ∉ Dict.keys acc := by
      intro hm
      simp only [Dict.keys, List.map_append, List.map_cons, List.nodup_append] at h
      exact h.2.2 e.1 hm e.1 (by simp) rfl
    have : Dict.set acc e.1 e.2 = acc ++ [e] := by
      unfold Dict.set
      rw [if_neg]
      rw [Dict.any_iff]; exact he
    rw [List.foldl_cons, this, foldl_set_new l _ (by simpa using h)]
    simp

theorem mem_foldl_set {K V : Type} [DecidableEq K] : ∀ (l acc : List (K × V)) (x : K × V),
    x ∈ l.foldl (fun d e => Dict.set d e.1 e.2) acc → x ∈ acc ∨ x ∈ l
  | [], acc, x, h => Or.inl h
  | e :: l, acc, x, h => by
    rcases mem_foldl_set l _ x h with h | h
    · unfold Dict.set at h
      beta_reduce at h
      split at h
      · obtain ⟨y, hy, rfl⟩ := List.mem_map.mp h
        split
        · exact Or.inr (by simp)
        · exact Or.inl hy
      · rcases List.mem_append.mp h with h | h
        · exact Or.inl h
        · simp only [List.mem_singleton] at h; subst h; exact Or.inr (by simp)
    · exact Or.inr (by simp [h])

/-- The keys of the result. -/
theorem keys_foldl_set {K V : Type} [DecidableEq K] : ∀ (l acc : List (K × V)),
    (Dict.keys acc).Nodup → (Dict.keys (l.foldl (fun d e => Dict.set d e.1 e.2) acc)).Nodup
  | [], acc, h => h
  | e :: l, acc, h => keys_foldl_set l _ (Dict.keys_set_nodup h _ _)

theorem mem_keys_foldl_set {K V : Type} [DecidableEq K] : ∀ (l acc : List (K × V)) (x : K),
    x ∈ Dict.keys (l.foldl (fun d e => Dict.set d e.1 e.2) acc) ↔ x ∈ Dict.keys acc ∨ x ∈ Dict.keys l
  | [], acc, x => by simp [Dict.keys]
  | e :: l, acc, x => by
    rw [List.foldl_cons, mem_keys_foldl_set l, Dict.mem_keys_set]
    simp only [Dict.keys, List.map_cons, List.mem_cons]; tauto

/-- The entries that `construct` writes. -/
def entries (k : Kind α) (log : Log α) (m : Module) (res : List (Nat × PC)) : List (Nat × Seq α) :=
  res.filterMap (fun e =>
    match Dict.get? m.pcs e.2 with
    | none => none
    | some p =>
      if hasData k log m.cluster e.2 then
        some (seqNumber m.type e.1 p, ⟨e.2, p, opsOf log m.cluster e.2⟩)
      else none)

theorem construct_eq (k : Kind α) (log : Log α) (m : Module) (res : List (Nat × PC)) :
    construct k log m res = (entries k log m res).foldl (fun d e => Dict.set d e.1 e.2) [] := by
  unfold construct entries
  generalize ([] : List (Nat × Seq α)) = acc
  induction res generalizing acc with
  | nil => rfl
  | cons e res ih =>
    rw [List.foldl_cons, List.filterMap_cons]
    cases hp : Dict.get? m.pcs e.2 with
    | none => simp only [hp]; exact ih acc
    | some p =>
      simp only [hp]
      by_cases hd : hasData k log m.cluster e.2 = true
      · simp only [hd, if_true, List.foldl_cons]; exact ih _
      · simp only [hd, if_false]; exact ih acc

theorem mem_entries {k : Kind α} {log : Log α} {m : Module} {res : List (Nat × PC)}
    {n : Nat} {s : Seq α} : (n, s) ∈ entries k log m res ↔
      ∃ i p, (i, s.pc) ∈ res ∧ Dict.get? m.pcs s.pc = some p ∧ hasData k log m.cluster s.pc = true ∧
        n = seqNumber m.type i p ∧ s.path = p ∧ s.ops = opsOf log m.cluster s.pc := by
  unfold entries
  rw [List.mem_filterMap]
  constructor
  · rintro ⟨⟨i, pc⟩, h1, h2⟩
    simp only at h2
    split at h2
    · simp at h2
    · rename_i p hp
      split at h2
      · rename_i hd
        simp only [Option.some.injEq, Prod.mk.injEq] at h2
        obtain ⟨rfl, rfl⟩ := h2
        exact ⟨i, p, h1, hp, hd, rfl, rfl, rfl⟩
      · simp at h2
  · rintro ⟨i, p, h1, h2, h3, rfl, h5, h6⟩
    refine ⟨(i, s.pc), h1, ?_⟩
    simp only [h2, h3, if_true, Option.some.injEq, Prod.mk.injEq, true_and]
    cases s
    simp only at h5 h6 ⊢
    rw [← h5, h6]

theorem entries_keys_nodup {k : Kind α} {log : Log α} {m : Module} : ∀ {res : List (Nat × PC)},
    (res.map Prod.fst).Nodup → (res.map Prod.snd).Nodup →
    (m.type = .qtm → ∀ e ∈ m.pcs, ∀ e' ∈ m.pcs, e.2.chan.idx = e'.2.chan.idx → e.1 = e'.1) →
    (Dict.keys (entries k log m res)).Nodup
  | [], _, _, _ => by simp [entries, Dict.keys]
  | (i, pc) :: res, h1, h2, hq => by
    rw [List.map_cons, List.nodup_cons] at h1 h2
    have ih := entries_keys_nodup (k := k) (log := log) h1.2 h2.2 hq
    have hsplit : entries k log m ((i, pc) :: res) = entries k log m [(i, pc)] ++
        entries k log m res := by
      unfold entries; rw [← List.filterMap_append]; rfl
    rw [hsplit]
    cases hp : Dict.get? m.pcs pc with
    | none =>
      have : entries k log m [(i, pc)] = [] := by simp [entries, hp]
      rw [this]; exact ih
    | some p =>
      by_cases hd : hasData k log m.cluster pc = true
      · have he : entries k log m [(i, pc)] =
            [(seqNumber m.type i p, ⟨pc, p, opsOf log m.cluster pc⟩)] := by
          simp [entries, hp, hd]
        rw [he]
        simp only [Dict.keys, List.cons_append, List.nil_append, List.map_cons, List.nodup_cons]
        refine ⟨?_, ih⟩
        intro hm
        obtain ⟨⟨n, s⟩, hs, hn⟩ := List.mem_map.mp hm
        obtain ⟨i', p', a1, a2, a3, a4, a5, a6⟩ := mem_entries.mp hs
        simp only at hn
        rw [hn] at a4
        by_cases ht : m.type = .qtm
        · rw [ht] at a4
          simp only [seqNumber] at a4
          have := hq ht _ (Dict.mem_of_get? hp) _ (Dict.mem_of_get? a2) a4
          simp only at this
          apply h2.1
          exact List.mem_map.mpr ⟨(i', s.pc), a1, this.symm⟩
        · have hne : ∀ (j : Nat) (q : Path), seqNumber m.type j q = j := by
            intro j q
            cases hmt : m.type <;> simp_all [seqNumber]
          rw [hne, hne] at a4
          apply h1.1
          exact List.mem_map.mpr ⟨(i', s.pc), a1, a4.symm⟩
      · have : entries k log m [(i, pc)] = [] := by simp [entries, hp, hd]
        rw [this]; exact ih

theorem prepareModule_ok {k : Kind α} {log : Log α} {m : Module} {ss : List (Nat × Seq α)}
    (h : prepareModule k log m = .ok ss) : distributeOk k log m = true ∧
      ∃ res, sequencerToPortclock (allowed m.type) m.pcs = .ok res ∧ ss = construct k log m res := by
  unfold prepareModule at h
  split at h
  · rename_i hd
    split at h
    · simp at h
    · rename_i res hr
      simp only [Except.ok.injEq] at h
      exact ⟨hd, res, hr, h.symm⟩
  · simp at h

theorem prepareAll_ok {k : Kind α} {log : Log α} : ∀ {ms : List Module}
    {out : List (Module × List (Nat × Seq α))}, prepareAll k log ms = .ok out →
    out.map Prod.fst = ms ∧ ∀ e ∈ out, prepareModule k log e.1 = .ok e.2
  | [], out, h => by
    simp only [prepareAll, Except.ok.injEq] at h; subst h; simp
  | m :: ms, out, h => by
    rw [prepareAll] at h
    split at h
    · simp at h
    · rename_i s hs
      split at h
      · simp at h
      · rename_i ss hss
        simp only [Except.ok.injEq] at h
        subst h
        obtain ⟨h1, h2⟩ := prepareAll_ok hss
        refine ⟨by simp [h1], ?_⟩
        intro e he
        rcases List.mem_cons.mp he with rfl | he
        · exact hs
        · exact h2 e he

theorem compile_ok {k : Kind α} {v01 : Bool} {env : Env} {cs : List Cluster} {used : List PC}
    {log : Log α} {out : List (Module × List (Nat × Seq α))}
    (h : compile k v01 env cs used log = .ok out) : ∃ st,
      allPaths { env with clusters := cs.map Cluster.name } used = .ok st ∧
      collect v01 st cs = .ok (out.map Prod.fst) ∧
      ∀ e ∈ out, prepareModule k log e.1 = .ok e.2 := by
  unfold compile extract at h
  split at h
  · simp at h
  · rename_i ms hms
    split at hms
    · simp at hms
    · rename_i st hst
      obtain ⟨h1, h2⟩ := prepareAll_ok h
      exact ⟨st, hst, by rw [h1]; exact hms, h2⟩

theorem extract_ok {v01 : Bool} {env : Env} {cs : List Cluster} {used : List PC}
    {ms : List Module} (h : extract v01 env cs used = .ok ms) : ∃ st,
      allPaths { env with clusters := cs.map Cluster.name } used = .ok st ∧
      collect v01 st cs = .ok ms := by
  unfold extract at h
  split at h
  · simp at h
  · rename_i st hst
    exact ⟨st, hst, h⟩

/-- What is known of a module in the result. -/
theorem module_known {v01 : Bool} {st : St} {cs : List Cluster} {ms : List Module} (hv : Valid st)
    (h : collect v01 st cs = .ok ms) {m : Module} (hm : m ∈ ms) :
    ∃ c ∈ cs, m.cluster = c.name ∧ (m.idx, m.type) ∈ c.modules ∧ (m.pcs.map Prod.fst).Nodup ∧
      (∀ e ∈ m.pcs, validateMeasure m.type e.2 = .ok ()) ∧
      (∀ e ∈ m.pcs, ∃ ref P, Dict.get? st.tab (c.name, e.1) = some ref ∧ st.heap[ref]? = some P ∧
        P.module = m.idx ∧ Ext P e.2 ∧ (e.2 ≠ P → v01 = true ∧
          ∃ t, (m.idx, t) ∈ c.modules ∧ (t = .qrm ∨ t = .qrmRf))) := by
  obtain ⟨c, hc, ns, h1, h2⟩ := (collect_ok h m).mp hm
  have := (clusterModules_ok hv h1).1 m h2
  exact ⟨c, hc, this⟩

end Verif.Connect
