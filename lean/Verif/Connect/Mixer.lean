/-
C52: a port behind a mixer.
-/
import Verif.Connect.Accept

set_option linter.unusedSimpArgs false
set_option linter.unusedVariables false

namespace Verif.Connect

open Verif.Connect.Spec

variable {α : Type}

/-- There is a wire between two nodes. -/
def Spec.Joined (g : Edges) (a b : Node) : Prop := (a, b) ∈ g ∨ (b, a) ∈ g

theorem mem_neighbors_joined {g : Edges} {n m : Node} : m ∈ neighbors g n ↔ Joined g n m := by
  rw [mem_neighbors]; unfold Joined; tauto

/-- The step of one port within the whole loop. -/
theorem allPaths_split (env : Env) (used : List PC) (st : St) (h : allPaths env used = .ok st)
    (p c : String) (hpc : (p, c) ∈ used) :
    ∃ s1 s2, (∀ cl x, Dict.get? s1.tab (cl, (p, x)) = none) ∧ Valid s1 ∧
      portStep env s1 (p, (used.filter (fun e => e.1 = p)).map Prod.snd) = .ok s2 ∧
      (∀ (r : Nat), r < s2.heap.length → st.heap[r]? = s2.heap[r]?) ∧
      (∀ cl x, Dict.get? st.tab (cl, (p, x)) = Dict.get? s2.tab (cl, (p, x))) := by
  have hcm : c ∈ (used.filter (fun e => e.1 = p)).map Prod.snd :=
    List.mem_map.mpr ⟨(p, c), by simp [hpc], rfl⟩
  have hne : (used.filter (fun e => e.1 = p)).map Prod.snd ≠ [] := by
    intro e; rw [e] at hcm; simp at hcm
  have hmem := mem_portToClocks.mpr ⟨rfl, hne⟩
  generalize (used.filter (fun e => e.1 = p)).map Prod.snd = cs at *
  obtain ⟨l1, l2, hl⟩ := List.append_of_mem hmem
  rw [allPaths, hl, foldlM_ok_append] at h
  obtain ⟨s1, h1, h2⟩ := h
  obtain ⟨s2, h3, h4⟩ := (foldlM_ok_cons ..).mp h2
  have hkn := portToClocks_nodup used
  rw [hl] at hkn
  have hk : Dict.keys (l1 ++ (p, cs) :: l2) = Dict.keys l1 ++ p :: Dict.keys l2 := by
    simp [Dict.keys]
  rw [hk] at hkn
  rw [List.nodup_append] at hkn
  obtain ⟨k1, k2, k3⟩ := hkn
  have hv0 : Valid ⟨[], [], []⟩ := ⟨by simp [Dict.keys], by simp [Dict.get?]⟩
  have a1 := ports_keys env l1 _ s1 hv0 k1 (by simp [Dict.get?]) h1
  have hp1 : p ∉ Dict.keys l1 := fun hm => k3 p hm p (by simp) rfl
  have hnew : ∀ cl x, Dict.get? s1.tab (cl, (p, x)) = none := fun cl x => by
    rw [a1.2.2.2.1 cl p x hp1]; simp [Dict.get?]
  have hf := portStep_frame env s1 s2 (p, cs) a1.1 hnew h3
  have hp2 : p ∉ Dict.keys l2 := (List.nodup_cons.mp k2).1
  have a2 := ports_keys env l2 s2 st (hf.valid a1.1) (List.nodup_cons.mp k2).2
    (fun q hq cl x => by
      have hqp : q ≠ p := by rintro rfl; exact hp2 hq
      have hq1 : q ∉ Dict.keys l1 := fun hm => k3 q hm q (by simp [hq]) rfl
      rw [hf.keys cl q x hqp, a1.2.2.2.1 cl q x hq1]; simp [Dict.get?]) h4
  exact ⟨s1, s2, hnew, a1.1, h3, fun r hr => a2.2.2.1 r hr, fun cl x => a2.2.2.2.1 cl p x hp2⟩

theorem mixerFold_sound (env : Env) : ∀ (l : List Node) (acc r : Option Node × Option Elem),
    l.foldlM (mixerNbr env) acc = .ok r →
    (∀ n, r.1 = some n → acc.1 = some n ∨ (n ∈ l ∧ n.head ∈ env.clusters)) ∧
    (∀ e, r.2 = some e → acc.2 = some e ∨ ∃ n ∈ l, n.head ∈ env.los ∧ n.parent = some e)
  | [], acc, r, h => by
    rw [foldlM_ok_nil, Except.ok.injEq] at h; subst h
    exact ⟨fun n h => Or.inl h, fun e h => Or.inl h⟩
  | x :: l, acc, r, h => by
    obtain ⟨a1, h1, h2⟩ := (foldlM_ok_cons ..).mp h
    have ih := mixerFold_sound env l a1 r h2
    unfold mixerNbr at h1
    constructor
    · intro n hn
      rcases ih.1 n hn with h3 | ⟨h3, h4⟩
      · split at h1
        · rename_i hx
          simp only [Except.ok.injEq] at h1
          subst h1
          simp only [Option.some.injEq] at h3
          subst h3
          exact Or.inr ⟨by simp, hx⟩
        · split at h1
          · split at h1
            · simp at h1
            · simp only [Except.ok.injEq] at h1
              subst h1
              exact Or.inl h3
          · simp only [Except.ok.injEq] at h1
            subst h1
            exact Or.inl h3
      · exact Or.inr ⟨by simp [h3], h4⟩
    · intro e he
      rcases ih.2 e he with h3 | ⟨n, h3, h4, h5⟩
      · split at h1
        · simp only [Except.ok.injEq] at h1
          subst h1
          exact Or.inl h3
        · split at h1
          · rename_i hx
            split at h1
            · simp at h1
            · rename_i lo hlo
              simp only [Except.ok.injEq] at h1
              subst h1
              simp only [Option.some.injEq] at h3
              subst h3
              exact Or.inr ⟨x, by simp, hx, hlo⟩
          · simp only [Except.ok.injEq] at h1
            subst h1
            exact Or.inl h3
      · exact Or.inr ⟨n, by simp [h3], h4, h5⟩

/-- The channel and local oscillator found for a mixer are wired to it. -/
theorem mixerLookup_sound {env : Env} {mx : String} {n : Node} {lo : Elem}
    (h : mixerLookup env (.instr mx) = .ok (n, lo)) :
    (∃ part, Joined env.graph (.sub mx part) n) ∧ n.head ∈ env.clusters ∧
    ∃ part n', Joined env.graph (.sub mx part) n' ∧ n'.head ∈ env.los ∧ n'.parent = some lo := by
  unfold mixerLookup at h
  split at h
  · simp at h
  · rename_i p l hf
    simp only [Except.ok.injEq, Prod.mk.injEq] at h
    obtain ⟨rfl, rfl⟩ := h
    have hs := mixerFold_sound env _ _ _ hf
    have hj : ∀ x ∈ mixerNbrs env (.instr mx), ∃ part, Joined env.graph (.sub mx part) x := by
      intro x hx
      unfold mixerNbrs at hx
      obtain ⟨y, hy, hx2⟩ := List.mem_flatMap.mp hx
      have hy2 := (List.mem_filter.mp hy).2
      rw [mem_neighbors_joined] at hx2
      cases y with
      | chan a b c => simp [Node.parent] at hy2
      | sub i s =>
        simp only [Node.parent, decide_eq_true_eq, Option.some.injEq, Elem.instr.injEq] at hy2
        subst hy2
        exact ⟨s, hx2⟩
      | plain s => simp [Node.parent] at hy2
    rcases hs.1 _ rfl with h1 | ⟨h1, h2⟩
    · simp at h1
    rcases hs.2 _ rfl with h3 | ⟨n', h3, h4, h5⟩
    · simp at h3
    obtain ⟨part, hp⟩ := hj _ h3
    exact ⟨hj _ h1, h2, part, n', hp, h4, h5⟩
  · simp at h

/-- **C52, mixers.** If compilation succeeds, the sequencer of a port-clock of a port that is wired to
a mixer only belongs to a module with a channel that is wired to that mixer, and uses this channel
only; and there is a local oscillator at the mixer. -/
theorem mixer_sound {k : Kind α} {env : Env} {cs : List Cluster} {used : List PC}
    {log : Log α} {out : List (Module × List (Nat × Seq α))}
    (hcs : (cs.map Cluster.name).Nodup) (hms : ∀ c ∈ cs, (c.modules.map Prod.fst).Nodup)
    (h : compile k false env cs used log = .ok out)
    {p c : String} (hpc : (p, c) ∈ used) {mx part : String}
    (honly : ∀ n, Linked env.graph p n ↔ n = .sub mx part) (hmx : mx ∉ cs.map Cluster.name)
    (hopt : ∀ i, env.mixerHas i (.instr mx) = false) :
    ∃ cl i ch, (∃ pt, Joined env.graph (.sub mx pt) (.chan cl i ch)) ∧
      (∃ pt n, Joined env.graph (.sub mx pt) n ∧ n.head ∈ env.los) ∧
      ∃ m ss P, (m, ss) ∈ out ∧ ((p, c), P) ∈ m.pcs ∧ m.cluster = cl ∧ m.idx = i ∧
        (∀ x, Uses P x ↔ x = ch) ∧
        (∀ m' ss', (m', ss') ∈ out → (p, c) ∈ m'.pcs.map Prod.fst → m'.cluster = cl ∧ m'.idx = i) := by
  obtain ⟨st, h1, h2, h3⟩ := compile_ok h
  obtain ⟨s1, s2, hnew, hval, hstep, hheap, htab⟩ := allPaths_split _ used st h1 p c hpc
  have hnb : neighbors env.graph (.plain p) = [.sub mx part] := by
    have hn := distinct_nodup (env.graph.flatMap (fun e : Node × Node =>
      (if e.1 = Node.plain p then [e.2] else []) ++ (if e.2 = Node.plain p then [e.1] else [])))
    have hm : ∀ n, n ∈ neighbors env.graph (.plain p) ↔ n = .sub mx part := by
      intro n; rw [mem_neighbors_linked]; exact honly n
    change (neighbors env.graph (.plain p)).Nodup at hn
    generalize neighbors env.graph (.plain p) = l at *
    match l, hn, hm with
    | [], _, hm => exact absurd ((hm _).mpr rfl) (by simp)
    | [x], _, hm => rw [(hm x).mp (by simp)]
    | x :: y :: r, hn, hm =>
      rw [(hm x).mp (by simp), (hm y).mp (by simp)] at hn
      simp at hn
  unfold portStep at hstep
  simp only at hstep
  split at hstep
  swap
  · simp at hstep
  rw [hnb] at hstep
  obtain ⟨s3, hn1, hn2⟩ := (foldlM_ok_cons ..).mp hstep
  rw [foldlM_ok_nil, Except.ok.injEq] at hn2
  subst hn2
  unfold nbrStep at hn1
  rw [if_neg (by simpa [Node.head] using hmx)] at hn1
  simp only [Node.parent] at hn1
  split at hn1
  · simp at hn1
  rename_i n lo hlook
  have hsound := mixerLookup_sound hlook
  split at hn1
  · simp at hn1
  rename_i path hpath
  cases n with
  | sub a b => simp [fromPath] at hpath
  | plain a => simp [fromPath] at hpath
  | chan cl i ch =>
    simp only [fromPath, Except.ok.injEq] at hpath
    subst hpath
    simp only [Except.ok.injEq] at hn1
    have hopt0 : ∀ clocks, opticalClock { env with clusters := cs.map Cluster.name } (.instr mx) clocks = none := by
      intro clocks
      simp [opticalClock, opticalAt, hopt]
    have hcm : c ∈ (used.filter (fun e => e.1 = p)).map Prod.snd :=
      List.mem_map.mpr ⟨(p, c), by simp [hpc], rfl⟩
    have hP2 : s3.heap[s1.heap.length]? = some ⟨cl, i, ch, none⟩ := by
      rw [← hn1]; simp [mixerClocks]
    have hlen2 : s1.heap.length < s3.heap.length := by rw [← hn1]; simp [mixerClocks]
    have hP : st.heap[s1.heap.length]? = some ⟨cl, i, ch, none⟩ := by
      rw [hheap _ hlen2]; exact hP2
    have hT : ∀ cl', Dict.get? st.tab (cl', (p, c)) =
        if cl' = cl then some s1.heap.length else none := by
      intro cl'
      rw [htab, ← hn1]
      simp only [mixerClocks, hopt0, Option.getD_none]
      rw [mixerTab_get (fun x => x)]
      simp only [List.map_id', hcm, and_true, true_and, hnew]
    have hcl : cl ∈ cs.map Cluster.name := hsound.2.1
    refine ⟨cl, i, ch, hsound.1, ?_, ?_⟩
    · obtain ⟨pt, n', hj, hh, _⟩ := hsound.2.2
      exact ⟨pt, n', hj, hh⟩
    have hv := (allPaths_used _ _ _ h1).1
    obtain ⟨d, hd1, hd2⟩ := List.mem_map.mp hcl
    obtain ⟨ns, hns⟩ := collect_each h2 d hd1
    have hcmod := clusterModules_ok hv hns
    have hg : Dict.get? st.tab (d.name, (p, c)) = some s1.heap.length := by rw [hT, if_pos hd2]
    obtain ⟨m, hm, hidx, P', hP'⟩ := hcmod.2.1 (p, c) _ _ hg hP
    obtain ⟨q1, q2, q3, q4, q5⟩ := hcmod.1 m hm
    have hmem : m ∈ out.map Prod.fst := (collect_ok h2 m).mpr ⟨d, hd1, ns, hns, hm⟩
    obtain ⟨⟨m1, ss⟩, hss, rfl⟩ := List.mem_map.mp hmem
    obtain ⟨ref', P'', e1, e2, e3, e4, e5⟩ := q5 _ hP'
    rw [hg, Option.some.injEq] at e1
    subst e1
    rw [hP, Option.some.injEq] at e2
    subst e2
    have hPeq : P' = ⟨cl, i, ch, none⟩ := by
      by_contra hne
      have := (e5 hne).1
      simp at this
    refine ⟨m1, ss, P', hss, hP', by rw [q1, hd2], hidx, ?_, ?_⟩
    · intro x; rw [hPeq]; simp [Uses]
    · intro m' ss' hm' hkey
      obtain ⟨d', hd1', k1, k2, k3, k4, k5⟩ := module_known hv h2 (List.mem_map.mpr ⟨_, hm', rfl⟩)
      obtain ⟨e, he, hee⟩ := List.mem_map.mp hkey
      obtain ⟨ref', Q, t1, t2, t3, t4, t5⟩ := k5 e he
      rw [hee, hT] at t1
      split at t1
      · rename_i hn
        simp only [Option.some.injEq] at t1
        subst t1
        rw [hP, Option.some.injEq] at t2
        subst t2
        exact ⟨by rw [k1, hn], t3.symm⟩
      · simp at t1

end Verif.Connect
