/-
C52-C53: what is accepted.
-/
import Verif.Connect.Props

set_option linter.unusedSimpArgs false
set_option linter.unusedVariables false

namespace Verif.Connect

open Verif.Connect.Spec

variable {α : Type}

theorem foldl_insertNew_append {β : Type} [DecidableEq β] : ∀ (l acc : List β),
    ∃ r, l.foldl insertNew acc = acc ++ r ∧ ∀ x ∈ r, x ∈ l
  | [], acc => ⟨[], by simp, by simp⟩
  | x :: l, acc => by
    rw [List.foldl_cons]
    obtain ⟨r, h1, h2⟩ := foldl_insertNew_append l (insertNew acc x)
    rw [h1]
    have he : insertNew acc x = if x ∈ acc then acc else acc ++ [x] := rfl
    rw [he]
    split
    · exact ⟨r, rfl, fun y hy => List.mem_cons_of_mem _ (h2 y hy)⟩
    · refine ⟨x :: r, by simp, ?_⟩
      intro y hy
      rcases List.mem_cons.mp hy with rfl | hy
      · simp
      · exact List.mem_cons_of_mem _ (h2 y hy)

/-- The first channel of a port. -/
theorem chansOf_first {g : Edges} {clusters : List String} {port c : String} {m : Nat} {ch : Chan}
    (h : FirstLink g port (.chan c m ch)) (hc : c ∈ clusters) :
    ∃ rest, chansOf clusters (neighbors g (.plain port)) = (c, m, ch) :: rest := by
  obtain ⟨pre, e, post, rfl, he, hpre⟩ := h
  unfold neighbors distinct
  rw [List.flatMap_append, List.flatMap_cons, List.foldl_append, List.foldl_append]
  have he' : ((if e.1 = Node.plain port then [e.2] else []) ++
      (if e.2 = Node.plain port then [e.1] else [])) = [Node.chan c m ch] := by
    rcases he with rfl | rfl <;> simp
  rw [he']
  obtain ⟨r, h1, h2⟩ := foldl_insertNew_append (pre.flatMap (fun e : Node × Node =>
    (if e.1 = Node.plain port then [e.2] else []) ++
      (if e.2 = Node.plain port then [e.1] else []))) []
  rw [h1, List.nil_append]
  have hr : ∀ c' m' ch', Node.chan c' m' ch' ∉ r := by
    intro c' m' ch' hm
    obtain ⟨x, hx, hx'⟩ := List.mem_flatMap.mp (h2 _ hm)
    obtain ⟨a, b⟩ := x
    simp only [List.mem_append] at hx'
    rcases hx' with hx' | hx'
    · split at hx'
      · rename_i ha
        simp only [List.mem_singleton] at hx'
        subst hx' ha
        exact (hpre c' m' ch').1 hx
      · simp at hx'
    · split at hx'
      · rename_i ha
        simp only [List.mem_singleton] at hx'
        subst hx' ha
        exact (hpre c' m' ch').2 hx
      · simp at hx'
  rw [List.foldl_cons, List.foldl_nil]
  have : insertNew r (Node.chan c m ch) = r ++ [Node.chan c m ch] := by
    rw [insertNew, if_neg (hr c m ch)]
  rw [this]
  obtain ⟨r2, h3, h4⟩ := foldl_insertNew_append (post.flatMap (fun e : Node × Node =>
    (if e.1 = Node.plain port then [e.2] else []) ++
      (if e.2 = Node.plain port then [e.1] else []))) (r ++ [Node.chan c m ch])
  rw [h3]
  have hnil : chansOf clusters r = [] := by
    unfold chansOf
    rw [List.filterMap_eq_nil_iff]
    intro n hn
    cases n with
    | chan c' m' ch' => exact absurd hn (hr c' m' ch')
    | sub _ _ => rfl
    | plain _ => rfl
  refine ⟨chansOf clusters r2, ?_⟩
  have happ : ∀ a b, chansOf clusters (a ++ b) = chansOf clusters a ++ chansOf clusters b := by
    intro a b; unfold chansOf; rw [List.filterMap_append]
  rw [happ, happ, hnil]
  simp [chansOf, hc]

theorem chansOf_nodup (clusters : List String) (g : Edges) (n : Node) :
    (chansOf clusters (neighbors g n)).Nodup := by
  unfold chansOf
  refine List.Nodup.filterMap ?_ (distinct_nodup _)
  intro a b x ha hb
  cases a with
  | chan c m ch =>
    cases b with
    | chan c' m' ch' =>
      simp only [Option.mem_def, Option.ite_none_right_eq_some, Option.some.injEq] at ha hb
      obtain ⟨_, rfl⟩ := ha
      obtain ⟨_, hb⟩ := hb
      simp only [Prod.mk.injEq] at hb
      rw [hb.1, hb.2.1, hb.2.2]
    | sub _ _ => simp at hb
    | plain _ => simp at hb
  | sub _ _ => simp at ha
  | plain _ => simp at ha

/-! ### The object of a readout port -/

theorem addTimes_input {o : Chan} {c : Chan} (hc : c.dir = .input) : ∀ (k : Nat) (P : Path),
    (∀ l, P.measure = some l → l.Nodup) → P.chan = o →
    (addTimes c k P).chan = o ∧ ∀ l, (addTimes c k P).measure = some l → l.Nodup
  | 0, P, h, ho => ⟨ho, h⟩
  | k + 1, P, h, ho => by
    rw [addTimes]
    refine addTimes_input hc k _ ?_ (by rw [add_input_chan _ _ hc]; exact ho)
    intro l hl
    unfold Path.add at hl
    split at hl
    · rw [if_pos hc] at hl
      simp only [Option.some.injEq] at hl
      subst hl; simp
    · rename_i m hm
      simp only [Option.some.injEq] at hl
      subst hl
      exact insertNew_nodup (h m hm)

theorem addAll_inputs {o : Chan} (k : Nat) : ∀ (l : List Chan) (P : Path),
    (∀ c ∈ l, c.dir = .input) → (∀ l, P.measure = some l → l.Nodup) → P.chan = o →
    (addAll k P l).chan = o ∧ ∀ l', (addAll k P l).measure = some l' → l'.Nodup
  | [], P, _, h, ho => ⟨ho, h⟩
  | c :: l, P, hl, h, ho => by
    have : addAll k P (c :: l) = addAll k (addTimes c k P) l := rfl
    rw [this]
    have h1 := addTimes_input (hl c (by simp)) k P h ho
    exact addAll_inputs k l _ (fun x hx => hl x (by simp [hx])) h1.2 h1.1

theorem addAll_measure (k : Nat) (hk : 0 < k) : ∀ (l : List Chan) (P : Path),
    l ≠ [] ∨ P.measure.isSome → (addAll k P l).measure.isSome
  | [], P, h => by rcases h with h | h; exact absurd rfl h; exact h
  | c :: l, P, h => by
    have : addAll k P (c :: l) = addAll k (addTimes c k P) l := rfl
    rw [this]
    exact addAll_measure k hk l _ (Or.inr (addTimes_measure c k P hk))

theorem addTimes_members (c : Chan) : ∀ (k : Nat) (P : Path) (l : List Chan),
    c.dir = .input → (addTimes c k P).measure = some l → ∀ x ∈ l,
      x = c ∨ ∃ l', P.measure = some l' ∧ x ∈ l'
  | 0, P, l, _, h, x, hx => Or.inr ⟨l, h, hx⟩
  | k + 1, P, l, hc, h, x, hx => by
    rw [addTimes] at h
    rcases addTimes_members c k _ l hc h x hx with h1 | ⟨l', h1, h2⟩
    · exact Or.inl h1
    · unfold Path.add at h1
      split at h1
      · rw [if_pos hc] at h1
        simp only [Option.some.injEq] at h1
        subst h1
        exact Or.inl (by simpa using h2)
      · rename_i m hm
        simp only [Option.some.injEq] at h1
        subst h1
        rcases mem_insertNew.mp h2 with h3 | h3
        · exact Or.inr ⟨m, hm, h3⟩
        · exact Or.inl h3

theorem addAll_members (k : Nat) : ∀ (l : List Chan) (P : Path) (r : List Chan),
    (∀ c ∈ l, c.dir = .input) → (addAll k P l).measure = some r → ∀ x ∈ r,
      x ∈ l ∨ ∃ l', P.measure = some l' ∧ x ∈ l'
  | [], P, r, _, h, x, hx => Or.inr ⟨r, h, hx⟩
  | c :: l, P, r, hl, h, x, hx => by
    have hh : addAll k P (c :: l) = addAll k (addTimes c k P) l := rfl
    rw [hh] at h
    rcases addAll_members k l _ r (fun y hy => hl y (by simp [hy])) h x hx with h1 | ⟨l', h1, h2⟩
    · exact Or.inl (by simp [h1])
    · rcases addTimes_members c k P l' (hl c (by simp)) h1 x h2 with h3 | h3
      · exact Or.inl (by simp [h3])
      · exact Or.inr h3

/-! ### Paths are found -/

/-- **C52.** If every used port is in the connectivity, has no mixer, and is wired to one module
only, the search for paths succeeds. -/
theorem paths_found (env : Env) (hnd : env.clusters.Nodup) (used : List PC) (hu : used.Nodup)
    (hwired : ∀ pc ∈ used, ∃ n, Linked env.graph pc.1 n)
    (hd : ∀ pc ∈ used, Direct env.graph env.clusters pc.1)
    (hone : ∀ pc ∈ used, OneModule env.graph pc.1) : ∃ st, allPaths env used = .ok st := by
  have main : ∀ (l : List (String × List String)) (st : St), Valid st → (Dict.keys l).Nodup →
      (∀ p ∈ Dict.keys l, ∀ cl c, Dict.get? st.tab (cl, (p, c)) = none) →
      (∀ e ∈ l, e.2 ≠ [] ∧ e.2.Nodup ∧ (∃ n, Linked env.graph e.1 n) ∧
        Direct env.graph env.clusters e.1 ∧ OneModule env.graph e.1) →
      ∃ st', l.foldlM (portStep env) st = .ok st' := by
    intro l
    induction l with
    | nil => intro st _ _ _ _; exact ⟨st, rfl⟩
    | cons e l ih =>
      intro st hv hk hnew hl
      obtain ⟨q, clocks⟩ := e
      obtain ⟨h1, h2, ⟨n, h3⟩, h4, h5⟩ := hl (q, clocks) (by simp)
      simp only at h1 h2 h3 h4 h5
      have hkeys : Dict.keys ((q, clocks) :: l) = q :: Dict.keys l := rfl
      rw [hkeys, List.nodup_cons] at hk
      have hmem : Node.plain q ∈ nodes env.graph := by
        rw [mem_nodes]
        rcases h3 with h3 | h3
        · exact ⟨_, h3, Or.inl rfl⟩
        · exact ⟨_, h3, Or.inr rfl⟩
      have hfirst := nbrs_first env hnd q clocks h1 h2 (neighbors env.graph (.plain q)) st
        (direct_ok h4) (hnew q (by simp [hkeys]))
      obtain ⟨st1, hst1⟩ : ∃ st1, portStep env st (q, clocks) = .ok st1 := by
        unfold portStep
        simp only
        rw [if_pos hmem]
        split at hfirst
        · exact ⟨st, hfirst⟩
        · rename_i cl m ch rest hcons
          obtain ⟨st', ref, h6, _⟩ := hfirst.1 (by
            intro e he
            have a : (cl, m, ch) ∈ chansOf env.clusters (neighbors env.graph (.plain q)) := by
              rw [hcons]; simp
            have b : e ∈ chansOf env.clusters (neighbors env.graph (.plain q)) := by
              rw [hcons]; simp [he]
            exact h5 _ _ _ _ _ _ (mem_neighbors_linked.mp (mem_chansOf.mp b).1)
              (mem_neighbors_linked.mp (mem_chansOf.mp a).1))
          exact ⟨st', h6⟩
      have hf := portStep_frame env st st1 (q, clocks) hv (hnew q (by simp [hkeys])) hst1
      obtain ⟨st2, hst2⟩ := ih st1 (hf.valid hv) hk.2 (fun p hp cl c => by
        have hpq : p ≠ q := by rintro rfl; exact hk.1 hp
        rw [hf.keys cl p c hpq]
        exact hnew p (by simp [hkeys, hp]) cl c) (fun e he => hl e (by simp [he]))
      exact ⟨st2, (foldlM_ok_cons ..).mpr ⟨st1, hst1, hst2⟩⟩
  have hv0 : Valid ⟨[], [], []⟩ := ⟨by simp [Dict.keys], by simp [Dict.get?]⟩
  refine main _ _ hv0 (portToClocks_nodup used) (by simp [Dict.get?]) ?_
  rintro ⟨p, clocks⟩ he
  obtain ⟨h1, h2⟩ := mem_portToClocks.mp he
  obtain ⟨c, hc⟩ := List.exists_mem_of_ne_nil _ h2
  rw [h1] at hc
  obtain ⟨pc, hpc, _⟩ := List.mem_map.mp hc
  simp only [List.mem_filter, decide_eq_true_eq] at hpc
  simp only
  rw [← hpc.2]
  refine ⟨h2, ?_, hwired _ hpc.1, hd _ hpc.1, hone _ hpc.1⟩
  rw [h1]
  exact clocks_nodup hu p

theorem single_one {g : Edges} {p cl : String} {i : Nat} {ch : Chan} (h : Single g p cl i ch) :
    OneModule g p := by
  intro c m x c' m' x' h1 h2
  have a := h.2 _ _ _ h1
  have b := h.2 _ _ _ h2
  exact ⟨a.1.trans b.1.symm, a.2.1.trans b.2.1.symm⟩

theorem readout_one {g : Edges} {p cl : String} {i : Nat} {ch : Chan} (h : Readout g p cl i ch) :
    OneModule g p := by
  obtain ⟨_, _, _, mode, h⟩ := h
  intro c m x c' m' x' h1 h2
  have a := h _ _ _ h1
  have b := h _ _ _ h2
  exact ⟨a.1.trans b.1.symm, a.2.1.trans b.2.1.symm⟩

theorem FirstLink.linked {g : Edges} {p : String} {n : Node} (h : FirstLink g p n) : Linked g p n := by
  obtain ⟨pre, e, post, rfl, he, _⟩ := h
  rcases he with rfl | rfl
  · exact Or.inl (by simp)
  · exact Or.inr (by simp)

/-- The object of a port wired to one channel. -/
theorem single_path {env : Env} (hnd : env.clusters.Nodup) {used : List PC} (hu : used.Nodup)
    {st : St} (h : allPaths env used = .ok st) {p c : String} (hpc : (p, c) ∈ used)
    (hd : Direct env.graph env.clusters p) {cl : String} {i : Nat} {ch : Chan}
    (hs : Single env.graph p cl i ch) : ∃ ref,
      st.heap[ref]? = some ⟨cl, i, ch, none⟩ ∧
      ∀ cl', Dict.get? st.tab (cl', (p, c)) = if cl' = cl then some ref else none := by
  have hcl : cl ∈ env.clusters := by
    rcases hd _ hs.1 with ⟨c', m', ch', he, hc'⟩ | ⟨s, he, _⟩
    · simp only [Node.chan.injEq] at he; rw [he.1]; exact hc'
    · simp at he
  have hmain := allPaths_port env hnd used hu st h p c hpc (direct_ok hd)
  have hall : ∀ e ∈ chansOf env.clusters (neighbors env.graph (.plain p)), e = (cl, i, ch) := by
    rintro ⟨a, b, x⟩ he
    have := hs.2 _ _ _ (mem_neighbors_linked.mp (mem_chansOf.mp he).1)
    simp only at this
    rw [this.1, this.2.1, this.2.2]
  have hmem : (cl, i, ch) ∈ chansOf env.clusters (neighbors env.graph (.plain p)) :=
    mem_chansOf.mpr ⟨mem_neighbors_linked.mpr hs.1, hcl⟩
  have hnodup := chansOf_nodup env.clusters env.graph (.plain p)
  have heq : chansOf env.clusters (neighbors env.graph (.plain p)) = [(cl, i, ch)] := by
    generalize chansOf env.clusters (neighbors env.graph (.plain p)) = l at *
    match l, hall, hmem, hnodup with
    | [], _, hm, _ => simp at hm
    | [x], ha, _, _ => rw [ha x (by simp)]
    | x :: y :: r, ha, _, hn =>
      rw [ha x (by simp), ha y (by simp)] at hn
      simp at hn
  rw [heq] at hmain
  obtain ⟨_, ref, hb⟩ := hmain
  have hcm : c ∈ (used.filter (fun e => e.1 = p)).map Prod.snd :=
    List.mem_map.mpr ⟨(p, c), by simp [hpc], rfl⟩
  exact ⟨ref, hb.1, hb.2 c hcm⟩

/-- The object of a readout port. -/
theorem readout_path {env : Env} (hnd : env.clusters.Nodup) {used : List PC} (hu : used.Nodup)
    {st : St} (h : allPaths env used = .ok st) {p c : String} (hpc : (p, c) ∈ used)
    (hd : Direct env.graph env.clusters p) {cl : String} {i : Nat} {o : Chan}
    (hr : Readout env.graph p cl i o) : ∃ ref P,
      st.heap[ref]? = some P ∧ P.cluster = cl ∧ P.module = i ∧ P.chan = o ∧
      (∀ l, P.measure = some l → l.Nodup ∧ l ≠ [] ∧
        ∀ x ∈ l, Wired env.graph p cl i x ∧ x ≠ o) ∧
      ∀ cl', Dict.get? st.tab (cl', (p, c)) = if cl' = cl then some ref else none := by
  obtain ⟨ho, hod, hfl, mode, hall⟩ := hr
  have hcl : cl ∈ env.clusters := by
    rcases hd _ (FirstLink.linked hfl) with ⟨c', m', ch', he, hc'⟩ | ⟨s, he, _⟩
    · simp only [Node.chan.injEq] at he; rw [he.1]; exact hc'
    · simp at he
  have hmain := allPaths_port env hnd used hu st h p c hpc (direct_ok hd)
  obtain ⟨rest, hrest⟩ := chansOf_first hfl hcl
  have hnodup := chansOf_nodup env.clusters env.graph (.plain p)
  rw [hrest] at hmain hnodup
  obtain ⟨hsame, ref, hb⟩ := hmain
  have hcm : c ∈ (used.filter (fun e => e.1 = p)).map Prod.snd :=
    List.mem_map.mpr ⟨(p, c), by simp [hpc], rfl⟩
  have hlen : 0 < ((used.filter (fun e => e.1 = p)).map Prod.snd).length :=
    List.length_pos_of_mem hcm
  have hmemr : ∀ e ∈ rest, Wired env.graph p cl i e.2.2 ∧ e.2.2 ≠ o ∧ e.2.2.dir = .input := by
    intro e he
    have h1 : e ∈ chansOf env.clusters (neighbors env.graph (.plain p)) := by rw [hrest]; simp [he]
    have h2 := mem_neighbors_linked.mp (mem_chansOf.mp h1).1
    have h3 := hall _ _ _ h2
    have hne : e.2.2 ≠ o := by
      intro heq
      have : e = (cl, i, o) := by
        obtain ⟨a, b, x⟩ := e
        simp only at h3 heq
        rw [h3.1, h3.2.1, heq]
      rw [this] at he
      exact (List.nodup_cons.mp hnodup).1 he
    refine ⟨?_, hne, ?_⟩
    · rw [h3.1, h3.2.1] at h2; exact h2
    · rcases h3.2.2 with h4 | h4
      · exact absurd h4 hne
      · exact h4.1
  have hin : ∀ x ∈ rest.map (fun e => e.2.2), x.dir = .input := by
    intro x hx
    obtain ⟨e, he, rfl⟩ := List.mem_map.mp hx
    exact (hmemr e he).2.2
  have hinp := addAll_inputs (o := o) ((used.filter (fun e => e.1 = p)).map Prod.snd).length
    (rest.map (fun e => e.2.2)) ⟨cl, i, o, none⟩ hin (by simp) rfl
  refine ⟨ref, _, hb.1, by simp, by simp, hinp.1, ?_, ?_⟩
  · intro l hl
    refine ⟨hinp.2 l hl, ?_, ?_⟩
    · intro hnil
      rw [hnil] at hl
      cases hr2 : rest with
      | nil => rw [hr2] at hl; simp [addAll] at hl
      | cons e r =>
        -- a channel of `rest` is used and it is not `o`
        have hu2 := (uses_addAll _ hlen e.2.2 (rest.map (fun e => e.2.2)) ⟨cl, i, o, none⟩).mpr
          (Or.inr (by rw [hr2]; simp))
        rcases hu2 with hu2 | ⟨m, hm, hm2⟩
        · rw [hinp.1] at hu2
          exact (hmemr e (by rw [hr2]; simp)).2.1 hu2
        · rw [hl, Option.some.injEq] at hm
          rw [← hm] at hm2; simp at hm2
    · intro x hx
      rcases addAll_members _ _ _ l hin hl x hx with h1 | ⟨l', h1, _⟩
      · obtain ⟨e, he, rfl⟩ := List.mem_map.mp h1
        exact ⟨(hmemr e he).1, (hmemr e he).2.1⟩
      · simp at h1
  · intro cl'
    have := hb.2 c hcm cl'
    simpa using this

/-! ### Modules -/

theorem validateAll_of {t : ModType} : ∀ {l : List (PC × Path)},
    (∀ e ∈ l, validateMeasure t e.2 = .ok ()) → validateAll t l = .ok ()
  | [], _ => rfl
  | e :: l, h => by
    rw [validateAll, h e (by simp)]
    exact validateAll_of (fun x hx => h x (by simp [hx]))

theorem validateModules_of : ∀ {ms : List Module},
    (∀ m ∈ ms, ∀ e ∈ m.pcs, validateMeasure m.type e.2 = .ok ()) → validateModules ms = .ok ()
  | [], _ => rfl
  | m :: ms, h => by
    rw [validateModules, validateAll_of (h m (by simp))]
    exact validateModules_of (fun x hx => h x (by simp [hx]))

theorem collect_of {v01 : Bool} {st : St} : ∀ {cs : List Cluster},
    (∀ c ∈ cs, ∃ ns, clusterModules v01 st c = .ok ns) → ∃ ms, collect v01 st cs = .ok ms
  | [], _ => ⟨[], rfl⟩
  | c :: cs, h => by
    obtain ⟨ns, hns⟩ := h c (by simp)
    obtain ⟨ms, hms⟩ := collect_of (cs := cs) (fun x hx => h x (by simp [hx]))
    exact ⟨ns ++ ms, by rw [collect, hns, hms]⟩

theorem prepareAll_of {k : Kind α} {log : Log α} : ∀ {ms : List Module},
    (∀ m ∈ ms, ∃ ss, prepareModule k log m = .ok ss) → ∃ out, prepareAll k log ms = .ok out
  | [], _ => ⟨[], rfl⟩
  | m :: ms, h => by
    obtain ⟨s, hs⟩ := h m (by simp)
    obtain ⟨ss, hss⟩ := prepareAll_of (ms := ms) (fun x hx => h x (by simp [hx]))
    exact ⟨(m, s) :: ss, by rw [prepareAll, hs, hss]⟩

/-- The check of the channels of a readout port. -/
theorem validate_readout {t : ModType} {P : Path} {l : List Chan} (hm : P.measure = some l)
    (ho : P.chan.mode ≠ .digital) {j : Nat} (hdrive : CanDrive t j P.chan)
    (hread : ∀ c ∈ l, CanRead t j c) (hl : l.Nodup) (hne : l ≠ []) (mode : Mode)
    (hmode : ∀ c ∈ l, c.mode = mode) : validateMeasure t P = .ok () := by
  unfold validateMeasure
  rw [hm]
  obtain ⟨x, hx⟩ := List.exists_mem_of_ne_nil l hne
  have hrx := hread x hx
  obtain ⟨cl, i, ch, me⟩ := P
  obtain ⟨cm, cd, cn⟩ := ch
  simp only at ho hdrive hm ⊢
  cases t with
  | qcm => obtain ⟨xm, xd, xn⟩ := x; obtain ⟨_, h⟩ := hrx; simp at h
  | qcmRf => obtain ⟨xm, xd, xn⟩ := x; obtain ⟨_, h⟩ := hrx; simp at h
  | qtm => obtain ⟨hd, h⟩ := hdrive; cases cm <;> simp at h ho
  | qrmRf =>
    obtain ⟨hd, h⟩ := hdrive
    simp only at hd h
    have : (decide (cd = Dir.output ∧ cm = Mode.complex) &&
        l.all (fun c => decide (c.dir = .input ∧ c.mode = .complex))) = true := by
      rw [Bool.and_eq_true, List.all_eq_true]
      refine ⟨?_, fun c hc => ?_⟩
      · cases cm <;> simp_all
      · obtain ⟨h1, h2⟩ := hread c hc
        cases hcm : c.mode <;> simp_all
    simp only [this, if_true]
  | qrc =>
    obtain ⟨hd, h⟩ := hdrive
    simp only at hd h
    have : (decide (cm = Mode.complex) &&
        l.all (fun c => decide (c.dir = .input ∧ c.mode = .complex))) = true := by
      rw [Bool.and_eq_true, List.all_eq_true]
      refine ⟨?_, fun c hc => ?_⟩
      · cases cm <;> simp_all
      · obtain ⟨h1, h2⟩ := hread c hc
        cases hcm : c.mode <;> simp_all
    simp only [this, if_true]
  | qrm =>
    obtain ⟨hd, h⟩ := hdrive
    simp only at hd h
    have hout : decide (cd = Dir.output ∧ cm ≠ Mode.digital) = true := by simp [hd, ho]
    have hsub : ∀ c ∈ l, c = ci 0 ∨ c = ri 0 ∨ c = ri 1 := by
      intro c hc
      obtain ⟨h1, h2⟩ := hread c hc
      obtain ⟨a, b, n⟩ := c
      simp only at h1 h2
      cases a <;> simp only at h2
      · left; simp [ci, h1, h2.2]
      · right
        have : n = 0 ∨ n = 1 := by omega
        rcases this with rfl | rfl
        · left; simp [ri, h1]
        · right; simp [ri, h1]
    match l, hl, hne, hsub, hmode, hread with
    | [], _, hne, _, _, _ => exact absurd rfl hne
    | [c], _, _, hsub, _, _ =>
      have : decide (c.dir = .input ∧ c.mode ≠ .digital) = true := by
        rcases hsub c (by simp) with rfl | rfl | rfl <;> decide
      simp [hout, this]
    | [a, b], hl, _, hsub, hmode, _ =>
      have ha := hsub a (by simp)
      have hb := hsub b (by simp)
      have h1 := hmode a (by simp)
      have h2 := hmode b (by simp)
      rw [← h2] at h1
      have hab : a ≠ b := by simpa using hl
      have : [a, b].contains (ri 0) = true ∧ [a, b].contains (ri 1) = true := by
        rcases ha with rfl | rfl | rfl <;> rcases hb with rfl | rfl | rfl <;>
          first | exact absurd rfl hab | (revert h1; decide) | decide
      have h3 := this.1
      have h4 := this.2
      simp only [hout, h3, h4, Bool.and_self, if_true]
    | a :: b :: c :: r, hl, _, hsub, hmode, _ =>
      exfalso
      have ha := hsub a (by simp)
      have hb := hsub b (by simp)
      have hc := hsub c (by simp)
      have h1 := hmode a (by simp)
      have h2 := hmode b (by simp)
      have h3 := hmode c (by simp)
      rw [← h3] at h1 h2
      have hab : a ≠ b ∧ a ≠ c ∧ b ≠ c := by
        simp only [List.nodup_cons, List.mem_cons, not_or] at hl
        tauto
      rcases ha with rfl | rfl | rfl <;> rcases hb with rfl | rfl | rfl <;>
        rcases hc with rfl | rfl | rfl <;>
        first
          | exact absurd rfl hab.1
          | exact absurd rfl hab.2.1
          | exact absurd rfl hab.2.2
          | (revert h1; decide)
          | (revert h2; decide)

theorem acquires_of {t : ModType} (h : t ≠ .qcm ∧ t ≠ .qcmRf) : t.acquires = true := by
  cases t <;> simp [ModType.acquires] at h ⊢

/-- **C52, C53: what is accepted** (version 0.2 of the configuration).  If every port used is wired
to one channel that some sequencer of the module supports, or first to an output and then to inputs
that one sequencer supports together, if no module has more than 6 port-clocks (a QTM 8; on a QRC
readout only on `complex_output_0` and `complex_output_1`), and if there are acquisitions only on
modules with inputs, then compilation succeeds. -/
theorem compile_accepts {k : Kind α} {env : Env} {cs : List Cluster} {used : List PC}
    {log : Log α} (hcs : (cs.map Cluster.name).Nodup)
    (hms : ∀ c ∈ cs, (c.modules.map Prod.fst).Nodup) (hu : used.Nodup)
    (hd : ∀ pc ∈ used, Direct env.graph (cs.map Cluster.name) pc.1)
    (hports : ∀ pc ∈ used, ∃ d ∈ cs, ∃ i t, (i, t) ∈ d.modules ∧
      ((∃ ch, Single env.graph pc.1 d.name i ch ∧ ∃ j, CanDrive t j ch ∨ CanRead t j ch) ∨
       (∃ o, Readout env.graph pc.1 d.name i o ∧ (t = .qrc → o.idx < 2) ∧
          ∃ j, CanDrive t j o ∧ ∀ x, Wired env.graph pc.1 d.name i x → x ≠ o → CanRead t j x)))
    (hcount : ∀ d ∈ cs, ∀ i t, (i, t) ∈ d.modules → ∀ l : List PC, l.Nodup →
      (∀ pc ∈ l, pc ∈ used ∧ ∃ ch, Wired env.graph pc.1 d.name i ch) →
      l.length ≤ (if t = .qtm then 8 else 6))
    (hacq : ∀ c ∈ log, k.isAcq c.2.2 = true → ∀ d ∈ cs, d.name = c.1 → ∀ i t, (i, t) ∈ d.modules →
      (∃ ch, Wired env.graph c.2.1.1 d.name i ch) → t ≠ .qcm ∧ t ≠ .qcmRf) :
    ∃ out, compile k false env cs used log = .ok out := by
  have hone : ∀ pc ∈ used, OneModule env.graph pc.1 := by
    intro pc hpc
    obtain ⟨d, _, i, t, _, ⟨ch, h, _⟩ | ⟨o, h, _⟩⟩ := hports pc hpc
    · exact single_one h
    · exact readout_one h
  have hlink : ∀ pc ∈ used, ∃ n, Linked env.graph pc.1 n := by
    intro pc hpc
    obtain ⟨d, _, i, t, _, ⟨ch, h, _⟩ | ⟨o, h, _⟩⟩ := hports pc hpc
    · exact ⟨_, h.1⟩
    · exact ⟨_, FirstLink.linked h.2.2.1⟩
  obtain ⟨st, hst⟩ := paths_found { env with clusters := cs.map Cluster.name } hcs used hu hlink hd hone
  have hv := allPaths_used _ _ _ hst
  -- what the object of a port-clock is
  have hobj : ∀ pc ∈ used, ∃ d ∈ cs, ∃ i t ref P, (i, t) ∈ d.modules ∧ st.heap[ref]? = some P ∧
      P.cluster = d.name ∧ P.module = i ∧
      (∃ ch, Wired env.graph pc.1 d.name i ch) ∧
      (∀ cl', Dict.get? st.tab (cl', pc) = if cl' = d.name then some ref else none) ∧
      (∃ j, Supports t j P) ∧ validateMeasure t P = .ok () ∧
      (t = .qrc → P.measure.isSome → P.chan.idx < 2) := by
    rintro ⟨p, c⟩ hpc
    obtain ⟨d, hdc, i, t, hit, ⟨ch, h, j, hj⟩ | ⟨o, h, hqrc, j, hj1, hj2⟩⟩ := hports _ hpc
    · obtain ⟨ref, h1, h2⟩ := single_path (env := { env with clusters := cs.map Cluster.name })
        hcs hu hst hpc (hd _ hpc) h
      exact ⟨d, hdc, i, t, ref, _, hit, h1, rfl, rfl, ⟨ch, h.1⟩, h2, ⟨j, hj⟩, rfl, by simp⟩
    · obtain ⟨ref, P, h1, h2, h3, h4, h5, h6⟩ := readout_path
        (env := { env with clusters := cs.map Cluster.name }) hcs hu hst hpc (hd _ hpc) h
      obtain ⟨ho, hod, hfl, mode, hmode⟩ := h
      have hfl' := FirstLink.linked hfl
      refine ⟨d, hdc, i, t, ref, P, hit, h1, h2, h3, ⟨o, hfl'⟩, h6, ?_, ?_, ?_⟩
      · refine ⟨j, ?_⟩
        unfold Supports
        cases hm : P.measure with
        | none => simp only; left; rw [h4]; exact hj1
        | some l =>
          simp only
          refine ⟨by rw [h4]; exact hj1, fun x hx => ?_⟩
          have := (h5 l hm).2.2 x hx
          exact hj2 x this.1 this.2
      · cases hm : P.measure with
        | none => unfold validateMeasure; rw [hm]
        | some l =>
          obtain ⟨g1, g2, g3⟩ := h5 l hm
          refine validate_readout hm (by rw [h4]; exact hod) (j := j) (by rw [h4]; exact hj1)
            (fun x hx => hj2 x (g3 x hx).1 (g3 x hx).2) g1 g2 mode ?_
          intro x hx
          have := (hmode _ _ _ (g3 x hx).1).2.2
          rcases this with h | h
          · exact absurd h (g3 x hx).2
          · exact h.2
      · intro ht _
        rw [h4]; exact hqrc ht
  have hdname : ∀ d ∈ cs, ∀ d' ∈ cs, d.name = d'.name → d = d' := by
    intro d hd1 d' hd2 he
    exact (List.inj_on_of_nodup_map hcs) hd1 hd2 he
  -- the modules of a cluster
  have hclu : ∀ c ∈ cs, ∃ ns, clusterModules false st c = .ok ns := by
    intro c hc
    unfold clusterModules
    simp only
    have hsup : supportAll false (clusterRefs st c.name)
        (usedModules st.heap (clusterRefs st c.name) c.modules) st.heap = st.heap := rfl
    rw [hsup]
    have hin : ∀ e ∈ clusterRefs st c.name, ∃ P t, st.heap[e.2]? = some P ∧
        (P.module, t) ∈ c.modules ∧ validateMeasure t P = .ok () := by
      rintro ⟨⟨p, x⟩, ref⟩ he
      have hg := (mem_clusterRefs hv.1.1).mp he
      have hused := hv.2 _ _ _ _ hg
      obtain ⟨d, hdc, i, t, ref', P, g1, g2, g3, g4, g5, g6, g7, g8, g9⟩ := hobj _ hused
      rw [g6] at hg
      split at hg
      · rename_i hn
        simp only [Option.some.injEq] at hg
        subst hg
        have := hdname c hc d hdc hn
        subst this
        exact ⟨P, t, g2, by rw [g4]; exact g1, g8⟩
      · simp at hg
    rw [if_pos]
    · have : validateModules ((usedModules st.heap (clusterRefs st c.name) c.modules).map
          (fun e => (⟨c.name, e.1, e.2, modulePaths st.heap (clusterRefs st c.name) e.1⟩ : Module))) =
          .ok () := by
        apply validateModules_of
        intro m hm e he
        obtain ⟨⟨i, t⟩, hit, rfl⟩ := List.mem_map.mp hm
        simp only at he ⊢
        obtain ⟨ref, h1, h2, h3⟩ := mem_modulePaths.mp he
        obtain ⟨P, t', g1, g2, g3⟩ := hin _ h1
        simp only at g1
        rw [h2, Option.some.injEq] at g1
        subst g1
        have ht : t = t' := by
          have a := Dict.get?_of_mem (d := c.modules) (hms c hc) (List.mem_filter.mp hit).1
          have b := Dict.get?_of_mem (d := c.modules) (hms c hc) g2
          rw [h3, a, Option.some.injEq] at b
          exact b
        rw [ht]; exact g3
      rw [this]
      exact ⟨_, rfl⟩
    · rw [List.all_eq_true]
      intro e he
      obtain ⟨P, t, g1, g2, _⟩ := hin e he
      simp only [g1, Option.map_some, Option.any_some, List.contains_iff_mem]
      refine List.mem_map.mpr ⟨(P.module, t), List.mem_filter.mpr ⟨g2, ?_⟩, rfl⟩
      have : e ∈ moduleRefs st.heap (clusterRefs st c.name) P.module :=
        List.mem_filter.mpr ⟨he, by simp [g1]⟩
      simp only [Bool.not_eq_true', List.isEmpty_eq_false_iff]
      exact List.ne_nil_of_mem this
  obtain ⟨ms, hcol⟩ := collect_of hclu
  have hmods : ∀ m ∈ ms, ∃ ss, prepareModule k log m = .ok ss := by
    intro m hm
    obtain ⟨d, hdc, k1, k2, k3, k4, k5⟩ := module_known hv.1 hcol hm
    -- the port-clocks of the module
    have hpcs : ∀ e ∈ m.pcs, e.1 ∈ used ∧ (∃ ch, Wired env.graph e.1.1 d.name m.idx ch) ∧
        (∃ j, Supports m.type j e.2) ∧ (m.type = .qrc → e.2.measure.isSome → e.2.chan.idx < 2) := by
      intro e he
      obtain ⟨ref, P, t1, t2, t3, t4, t5⟩ := k5 e he
      have hused := hv.2 _ _ _ _ t1
      obtain ⟨d', hdc', i, t, ref', P', g1, g2, g3, g4, g5, g6, g7, g8, g9⟩ := hobj _ hused
      have hP : e.2 = P := by
        by_contra hne
        have := (t5 hne).1
        simp at this
      have t1' : Dict.get? st.tab (d.name, (e.1.1, e.1.2)) = some ref := t1
      rw [g6] at t1'
      split at t1'
      · rename_i hn
        simp only [Option.some.injEq] at t1'
        subst t1'
        rw [g2, Option.some.injEq] at t2
        have := hdname d hdc d' hdc' hn
        subst this
        have hi : i = m.idx := by rw [← g4, t2, t3]
        subst hi
        have ht : t = m.type := by
          have a := Dict.get?_of_mem (d := d.modules) (hms d hdc) g1
          have b := Dict.get?_of_mem (d := d.modules) (hms d hdc) k2
          rw [a, Option.some.injEq] at b
          exact b
        subst ht
        rw [hP, ← t2]
        exact ⟨hused, g5, g7, g9⟩
      · simp at t1'
    have hcnt : m.pcs.length ≤ (if m.type = .qtm then 8 else 6) := by
      have := hcount d hdc m.idx m.type k2 (m.pcs.map Prod.fst) k3 (by
        intro pc hpc
        obtain ⟨e, he, rfl⟩ := List.mem_map.mp hpc
        have := hpcs e he
        exact ⟨this.1, this.2.1⟩)
      simpa using this
    have hres : ∃ res, sequencerToPortclock (allowed m.type) m.pcs = .ok res := by
      by_cases hq : m.type = .qrc
      · rw [hq]
        refine reservation_qrc m.pcs (fun e he => ?_) (Or.inr ⟨?_, fun e he => ?_⟩)
        · have := (hpcs e he).2.2.1
          rw [hq] at this; exact this
        · rw [hq] at hcnt; simpa using hcnt
        · exact (hpcs e he).2.2.2 hq
      · exact (reservation_complete m.type hq m.pcs k3).mpr ⟨fun e he => (hpcs e he).2.2.1, hcnt⟩
    obtain ⟨res, hres⟩ := hres
    unfold prepareModule
    rw [if_pos, hres]
    · exact ⟨_, rfl⟩
    · unfold distributeOk
      rw [Bool.or_eq_true]
      by_cases ha : m.type.acquires = true
      · exact Or.inl ha
      · right
        rw [List.all_eq_true]
        intro e he
        rw [List.all_eq_true]
        intro o ho
        rw [Bool.not_eq_true', ← Bool.not_eq_true]
        intro hao
        unfold opsOf at ho
        obtain ⟨c, hc, hcc⟩ := List.mem_filterMap.mp ho
        simp only [Option.ite_none_right_eq_some, Option.some.injEq] at hcc
        have := hacq c hc (by rw [hcc.2]; exact hao) d hdc (by rw [hcc.1.1, k1]) m.idx m.type k2
          (by rw [hcc.1.2]; exact (hpcs e he).2.1)
        exact ha (acquires_of this)
  obtain ⟨out, hout⟩ := prepareAll_of hmods
  refine ⟨out, ?_⟩
  unfold compile extract
  rw [hst]
  simp only
  rw [hcol]
  exact hout

end Verif.Connect
