/-
Ports wired to channels only.
-/
import Verif.Connect.Frame

set_option linter.unusedSimpArgs false
set_option linter.unusedVariables false

namespace Verif.Connect

open Verif.Connect.Spec

/-- The channels among the neighbours of a port. -/
def chansOf (clusters : List String) (l : List Node) : List (String × Nat × Chan) :=
  l.filterMap (fun n =>
    match n with
    | .chan c m ch => if c ∈ clusters then some (c, m, ch) else none
    | _ => none)

/-- Is a node a channel of a described cluster or a name without a dot? -/
def OkNode (clusters : List String) (n : Node) : Prop :=
  (∃ c m ch, n = .chan c m ch ∧ c ∈ clusters) ∨ (∃ s, n = .plain s ∧ s ∉ clusters)

theorem nbrStep_plain (env : Env) (q : String) (clocks : List String) (st : St) (s : String)
    (h : s ∉ env.clusters) : nbrStep env q clocks st (.plain s) = .ok st := by
  simp [nbrStep, Node.head, h, Node.parent]

theorem nbrStep_chan (env : Env) (q : String) (clocks : List String) (st : St) (c : String)
    (m : Nat) (ch : Chan) (h : c ∈ env.clusters) : nbrStep env q clocks st (.chan c m ch) =
      clockLoop env q ⟨c, m, ch, none⟩ st.heap.length clocks
        { st with heap := st.heap ++ [⟨c, m, ch, none⟩] } := by
  simp [nbrStep, Node.head, h, fromPath]

/-- The path after further channels. -/
def addAll (k : Nat) (P : Path) (l : List Chan) : Path := l.foldl (fun P ch => addTimes ch k P) P

@[simp] theorem addAll_cluster (k : Nat) (l : List Chan) : ∀ (P : Path),
    (addAll k P l).cluster = P.cluster := by
  induction l with
  | nil => exact fun _ => rfl
  | cons ch l ih =>
    intro P
    have : addAll k P (ch :: l) = addAll k (addTimes ch k P) l := rfl
    rw [this, ih, addTimes_cluster]

@[simp] theorem addAll_module (k : Nat) (l : List Chan) : ∀ (P : Path),
    (addAll k P l).module = P.module := by
  induction l with
  | nil => exact fun _ => rfl
  | cons ch l ih =>
    intro P
    have : addAll k P (ch :: l) = addAll k (addTimes ch k P) l := rfl
    rw [this, ih, addTimes_module]

theorem uses_addAll (k : Nat) (hk : 0 < k) (x : Chan) (l : List Chan) : ∀ (P : Path),
    Uses (addAll k P l) x ↔ Uses P x ∨ x ∈ l := by
  induction l with
  | nil => intro P; simp [addAll]
  | cons ch l ih =>
    intro P
    have : addAll k P (ch :: l) = addAll k (addTimes ch k P) l := rfl
    rw [this, ih, uses_addTimes _ _ _ _ hk, List.mem_cons, or_assoc]

/-- The neighbours after the first channel. -/
theorem nbrs_next (env : Env) (hnd : env.clusters.Nodup) (q : String) (clocks : List String)
    (hc : clocks ≠ []) (ref : Nat) : ∀ (l : List Node) (st : St) (P : Path),
    (∀ n ∈ l, OkNode env.clusters n) → P.cluster ∈ env.clusters → Bound st q clocks ref P →
    ((∀ e ∈ chansOf env.clusters l, e.1 = P.cluster ∧ e.2.1 = P.module) →
      ∃ st', l.foldlM (nbrStep env q clocks) st = .ok st' ∧
        Bound st' q clocks ref
          (addAll clocks.length P ((chansOf env.clusters l).map (fun e => e.2.2)))) ∧
    ((∃ e ∈ chansOf env.clusters l, ¬(e.1 = P.cluster ∧ e.2.1 = P.module)) →
      l.foldlM (nbrStep env q clocks) st = .error .valueError)
  | [], st, P, _, _, hb => by
    constructor
    · intro _; exact ⟨st, rfl, hb⟩
    · rintro ⟨e, he, _⟩; simp [chansOf] at he
  | n :: l, st, P, hok, hP, hb => by
    rcases hok n (by simp) with ⟨c, m, ch, rfl, hcl⟩ | ⟨s, rfl, hs⟩
    · have hch : chansOf env.clusters (.chan c m ch :: l) = (c, m, ch) :: chansOf env.clusters l := by
        simp [chansOf, hcl]
      have hstep := nbrStep_chan env q clocks st c m ch hcl
      have hlt : ref < st.heap.length := by
        by_contra h; rw [Bound, List.getElem?_eq_none (by omega)] at hb; simp at hb
      rw [clockLoop_next env hnd q _ _ ref clocks
        { st with heap := st.heap ++ [⟨c, m, ch, none⟩] } P hP
        ⟨by simp only; rw [List.getElem?_append_left hlt]; exact hb.1, hb.2⟩] at hstep
      simp only [hc, or_false] at hstep
      rw [hch]
      by_cases hs : c = P.cluster ∧ m = P.module
      · rw [if_pos hs] at hstep
        rw [foldlM_next _ _ _ _ _ hstep]
        have ih := nbrs_next env hnd q clocks hc ref l
          { st with heap := (st.heap ++ [(⟨c, m, ch, none⟩ : Path)]).set ref (addTimes ch clocks.length P) }
          (addTimes ch clocks.length P) (fun n hn => hok n (by simp [hn]))
          (by rw [addTimes_cluster]; exact hP)
          ⟨heap_set_get _ _ _ P (by rw [List.getElem?_append_left hlt]; exact hb.1), fun x hx cl => by
            rw [addTimes_cluster]; exact hb.2 x hx cl⟩
        rw [addTimes_cluster, addTimes_module] at ih
        constructor
        · intro h
          obtain ⟨st', h1, h2⟩ := ih.1 (fun e he => h e (by simp [he]))
          exact ⟨st', h1, h2⟩
        · rintro ⟨e, he, h⟩
          rcases List.mem_cons.mp he with rfl | he
          · exact absurd hs h
          · exact ih.2 ⟨e, he, h⟩
      · rw [if_neg hs] at hstep
        constructor
        · intro h; exact absurd (h (c, m, ch) (by simp)) hs
        · intro _; exact foldlM_error_cons _ _ _ _ _ hstep
    · have hch : chansOf env.clusters (.plain s :: l) = chansOf env.clusters l := by
        simp [chansOf]
      rw [hch, foldlM_next _ _ _ _ _ (nbrStep_plain env q clocks st s hs)]
      exact nbrs_next env hnd q clocks hc ref l st P (fun n hn => hok n (by simp [hn])) hP hb

/-- All neighbours of a new port. -/
theorem nbrs_first (env : Env) (hnd : env.clusters.Nodup) (q : String) (clocks : List String)
    (hc : clocks ≠ []) (hcn : clocks.Nodup) : ∀ (l : List Node) (st : St),
    (∀ n ∈ l, OkNode env.clusters n) →
    (∀ cl c, Dict.get? st.tab (cl, (q, c)) = none) →
    match chansOf env.clusters l with
    | [] => l.foldlM (nbrStep env q clocks) st = .ok st
    | (cl, m, ch) :: rest =>
      ((∀ e ∈ rest, e.1 = cl ∧ e.2.1 = m) → ∃ st' ref,
        l.foldlM (nbrStep env q clocks) st = .ok st' ∧
          Bound st' q clocks ref
            (addAll clocks.length ⟨cl, m, ch, none⟩ (rest.map (fun e => e.2.2)))) ∧
      ((∃ e ∈ rest, ¬(e.1 = cl ∧ e.2.1 = m)) →
        l.foldlM (nbrStep env q clocks) st = .error .valueError)
  | [], st, _, _ => by simp [chansOf, foldlM_ok_nil, pure, Except.pure]
  | n :: l, st, hok, hnew => by
    rcases hok n (by simp) with ⟨c, m, ch, rfl, hcl⟩ | ⟨s, rfl, hs⟩
    · have hch : chansOf env.clusters (.chan c m ch :: l) = (c, m, ch) :: chansOf env.clusters l := by
        simp [chansOf, hcl]
      rw [hch]
      simp only
      have hstep := nbrStep_chan env q clocks st c m ch hcl
      rw [clockLoop_first env q _ _ clocks
        { st with heap := st.heap ++ [⟨c, m, ch, none⟩] } hcn (fun c' _ cl => hnew cl c')] at hstep
      rw [foldlM_next _ _ _ _ _ hstep]
      have hb : Bound { st with
          heap := st.heap ++ [⟨c, m, ch, none⟩],
          tab := clocks.foldl (fun t x => Dict.set t (c, (q, x)) st.heap.length) st.tab }
          q clocks st.heap.length ⟨c, m, ch, none⟩ := by
        refine ⟨by simp, ?_⟩
        intro x hx cl
        simp only
        rw [foldl_set_get]
        by_cases h : cl = c
        · simp [h, hx]
        · simp [h, hnew]
      have := nbrs_next env hnd q clocks hc st.heap.length l _ ⟨c, m, ch, none⟩
        (fun n hn => hok n (by simp [hn])) hcl hb
      constructor
      · intro h
        obtain ⟨st', h1, h2⟩ := this.1 h
        exact ⟨st', _, h1, h2⟩
      · exact this.2
    · have hch : chansOf env.clusters (.plain s :: l) = chansOf env.clusters l := by
        simp [chansOf]
      rw [hch, foldlM_next _ _ _ _ _ (nbrStep_plain env q clocks st s hs)]
      exact nbrs_first env hnd q clocks hc hcn l st (fun n hn => hok n (by simp [hn])) hnew

/-! ### Ports and their clocks -/

theorem addClock_get (d : List (String × List String)) (pc : PC) (p : String) :
    Dict.get? (addClock d pc) p =
      if p = pc.1 then some ((Dict.get? d pc.1).getD [] ++ [pc.2]) else Dict.get? d p := by
  rw [addClock, Dict.get?_set]

theorem portToClocks_aux (used : List PC) : ∀ (d : List (String × List String)) (p : String),
    Dict.get? (used.foldl addClock d) p =
      match Dict.get? d p, (used.filter (fun e => e.1 = p)).map Prod.snd with
      | none, [] => none
      | none, l => some l
      | some l, l' => some (l ++ l') := by
  induction used with
  | nil =>
    intro d p
    cases h : Dict.get? d p <;> simp [h]
  | cons pc used ih =>
    intro d p
    rw [List.foldl_cons, ih, addClock_get]
    by_cases h : p = pc.1
    · subst h
      simp only [if_true]
      cases h1 : Dict.get? d pc.1 with
      | none => simp [h1]
      | some l => simp [h1]
    · rw [if_neg h, List.filter_cons, if_neg (by simp [Ne.symm h])]

theorem portToClocks_nodup (used : List PC) : (Dict.keys (portToClocks used)).Nodup := by
  have : ∀ (d : List (String × List String)), (Dict.keys d).Nodup →
      (Dict.keys (used.foldl addClock d)).Nodup := by
    induction used with
    | nil => exact fun _ h => h
    | cons pc used ih => exact fun d h => ih _ (Dict.keys_set_nodup h _ _)
  exact this [] (by simp [Dict.keys])

theorem mem_portToClocks {used : List PC} {p : String} {cs : List String} :
    (p, cs) ∈ portToClocks used ↔
      cs = (used.filter (fun e => e.1 = p)).map Prod.snd ∧ cs ≠ [] := by
  have hg := portToClocks_aux used [] p
  rw [Dict.get?_nil] at hg
  constructor
  · intro h
    have := Dict.get?_of_mem (portToClocks_nodup used) h
    rw [portToClocks, hg] at this
    cases hl : (used.filter (fun e => e.1 = p)).map Prod.snd with
    | nil => rw [hl] at this; simp at this
    | cons a l => rw [hl] at this; simp at this; subst this; simp
  · rintro ⟨rfl, hne⟩
    apply Dict.mem_of_get?
    rw [portToClocks, hg]
    cases hl : (used.filter (fun e => e.1 = p)).map Prod.snd with
    | nil => exact absurd hl hne
    | cons a l => simp

theorem clocks_nodup {used : List PC} (h : used.Nodup) (p : String) :
    ((used.filter (fun e => e.1 = p)).map Prod.snd).Nodup := by
  rw [List.nodup_map_iff_inj_on (h.filter _)]
  rintro ⟨a, b⟩ h1 ⟨c, d⟩ h2 e
  simp only [List.mem_filter, decide_eq_true_eq] at h1 h2
  simp only at e
  rw [h1.2, h2.2, e]

/-! ### All ports -/

theorem ports_keys (env : Env) : ∀ (l : List (String × List String)) (st st' : St), Valid st →
    (Dict.keys l).Nodup →
    (∀ p ∈ Dict.keys l, ∀ cl c, Dict.get? st.tab (cl, (p, c)) = none) →
    l.foldlM (portStep env) st = .ok st' →
    Valid st' ∧ st.heap.length ≤ st'.heap.length ∧
      (∀ i, i < st.heap.length → st'.heap[i]? = st.heap[i]?) ∧
      (∀ cl p c, p ∉ Dict.keys l → Dict.get? st'.tab (cl, (p, c)) = Dict.get? st.tab (cl, (p, c))) ∧
      (∀ cl p c ref, p ∈ Dict.keys l → Dict.get? st'.tab (cl, (p, c)) = some ref →
        ∃ cs, (p, cs) ∈ l ∧ c ∈ cs)
  | [], st, st', hv, _, _, h => by
    rw [foldlM_ok_nil, Except.ok.injEq] at h; subst h
    exact ⟨hv, Nat.le_refl _, fun _ _ => rfl, fun _ _ _ _ => rfl, by simp [Dict.keys]⟩
  | (q, cs) :: l, st, st', hv, hnd, hnew, h => by
    obtain ⟨s1, h1, h2⟩ := (foldlM_ok_cons ..).mp h
    have hkeys : Dict.keys ((q, cs) :: l) = q :: Dict.keys l := rfl
    rw [hkeys, List.nodup_cons] at hnd
    have hf := portStep_frame env st s1 (q, cs) hv (hnew q (by simp [hkeys])) h1
    have ih := ports_keys env l s1 st' (hf.valid hv) hnd.2 (fun p hp cl c => by
      have hpq : p ≠ q := by rintro rfl; exact hnd.1 hp
      rw [hf.keys cl p c hpq]
      exact hnew p (by simp [hkeys, hp]) cl c) h2
    refine ⟨ih.1, le_trans hf.len ih.2.1, ?_, ?_, ?_⟩
    · intro i hi
      rw [ih.2.2.1 i (lt_of_lt_of_le hi hf.len), hf.old i hi]
    · intro cl p c hp
      rw [hkeys, List.mem_cons, not_or] at hp
      rw [ih.2.2.2.1 cl p c hp.2, hf.keys cl p c hp.1]
    · intro cl p c ref hp hg
      by_cases hpl : p ∈ Dict.keys l
      · obtain ⟨cs', h3, h4⟩ := ih.2.2.2.2 cl p c ref hpl hg
        exact ⟨cs', by simp [h3], h4⟩
      · rw [hkeys, List.mem_cons] at hp
        have hpq : p = q := by tauto
        subst hpq
        rw [ih.2.2.2.1 cl p c hpl] at hg
        exact ⟨cs, by simp, (hf.refs cl c ref hg).2.2⟩

/-- What `allPaths` does for a port wired to channels. -/
theorem allPaths_port (env : Env) (hnd : env.clusters.Nodup) (used : List PC) (hu : used.Nodup)
    (st : St) (h : allPaths env used = .ok st) (p c : String) (hpc : (p, c) ∈ used)
    (hok : ∀ n ∈ neighbors env.graph (.plain p), OkNode env.clusters n) :
    match chansOf env.clusters (neighbors env.graph (.plain p)) with
    | [] => ∀ cl, Dict.get? st.tab (cl, (p, c)) = none
    | (cl, m, ch) :: rest =>
      (∀ e ∈ rest, e.1 = cl ∧ e.2.1 = m) ∧ ∃ ref,
        Bound st p ((used.filter (fun e => e.1 = p)).map Prod.snd) ref
            (addAll ((used.filter (fun e => e.1 = p)).map Prod.snd).length ⟨cl, m, ch, none⟩
              (rest.map (fun e => e.2.2))) := by
  have hcm : c ∈ (used.filter (fun e => e.1 = p)).map Prod.snd :=
    List.mem_map.mpr ⟨(p, c), by simp [hpc], rfl⟩
  have hne : (used.filter (fun e => e.1 = p)).map Prod.snd ≠ [] := by
    intro e; rw [e] at hcm; simp at hcm
  have hmem := mem_portToClocks.mpr ⟨rfl, hne⟩
  have hcn := clocks_nodup hu p
  generalize (used.filter (fun e => e.1 = p)).map Prod.snd = cs at *
  obtain ⟨l1, l2, hl⟩ := List.append_of_mem hmem
  rw [allPaths, hl, foldlM_ok_append] at h
  obtain ⟨s1, h1, h2⟩ := h
  obtain ⟨s2, h3, h4⟩ := (foldlM_ok_cons ..).mp h2
  have hkn := portToClocks_nodup used
  rw [hl] at hkn
  have hk : Dict.keys (l1 ++ (p, cs) :: l2) = Dict.keys l1 ++ p :: Dict.keys l2 := by
    simp [Dict.keys]
  rw [hk] at hkn
  rw [List.nodup_append] at hkn
  obtain ⟨k1, k2, k3⟩ := hkn
  have hv0 : Valid ⟨[], [], []⟩ := ⟨by simp [Dict.keys], by simp [Dict.get?]⟩
  have a1 := ports_keys env l1 _ s1 hv0 k1 (by simp [Dict.get?]) h1
  have hp1 : p ∉ Dict.keys l1 := fun hm => k3 p hm p (by simp) rfl
  have hnew : ∀ cl x, Dict.get? s1.tab (cl, (p, x)) = none := fun cl x => by
    rw [a1.2.2.2.1 cl p x hp1]; simp [Dict.get?]
  have hf := portStep_frame env s1 s2 (p, cs) a1.1 hnew h3
  have hp2 : p ∉ Dict.keys l2 := (List.nodup_cons.mp k2).1
  have a2 := ports_keys env l2 s2 st (hf.valid a1.1) (List.nodup_cons.mp k2).2
    (fun q hq cl x => by
      have hqp : q ≠ p := by rintro rfl; exact hp2 hq
      have hq1 : q ∉ Dict.keys l1 := fun hm => k3 q hm q (by simp [hq]) rfl
      rw [hf.keys cl q x hqp, a1.2.2.2.1 cl q x hq1]; simp [Dict.get?]) h4
  have hfold : (neighbors env.graph (.plain p)).foldlM (nbrStep env p cs) s1 = .ok s2 := by
    unfold portStep at h3
    split at h3
    · exact h3
    · simp at h3
  have hfirst := nbrs_first env hnd p cs hne hcn _ s1 hok hnew
  split at hfirst
  · rename_i hnil
    intro cl
    rw [hfold, Except.ok.injEq] at hfirst
    subst hfirst
    rw [a2.2.2.2.1 cl p c hp2]; exact hnew cl c
  · rename_i cl m ch rest hcons
    have hall : ∀ e ∈ rest, e.1 = cl ∧ e.2.1 = m := by
      by_contra hcon
      push_neg at hcon
      obtain ⟨e, he, hx⟩ := hcon
      have := hfirst.2 ⟨e, he, fun h' => hx h'.1 h'.2⟩
      rw [hfold] at this; simp at this
    refine ⟨hall, ?_⟩
    obtain ⟨st', ref, h5, h6⟩ := hfirst.1 hall
    rw [hfold, Except.ok.injEq] at h5
    subst h5
    refine ⟨ref, ?_, ?_⟩
    · have hlt : ref < s2.heap.length := by
        by_contra hcon; rw [Bound, List.getElem?_eq_none (by omega)] at h6; simp at h6
      rw [a2.2.2.1 ref hlt]; exact h6.1
    · intro x hx cl'
      rw [a2.2.2.2.1 cl' p x hp2]; exact h6.2 x hx cl'

/-- Only port-clocks that are used are bound. -/
theorem allPaths_used (env : Env) (used : List PC) (st : St) (h : allPaths env used = .ok st) :
    Valid st ∧ ∀ cl p c ref, Dict.get? st.tab (cl, (p, c)) = some ref → (p, c) ∈ used := by
  have hv0 : Valid ⟨[], [], []⟩ := ⟨by simp [Dict.keys], by simp [Dict.get?]⟩
  have a := ports_keys env _ _ st hv0 (portToClocks_nodup used) (by simp [Dict.get?]) h
  refine ⟨a.1, ?_⟩
  intro cl p c ref hg
  by_cases hp : p ∈ Dict.keys (portToClocks used)
  · obtain ⟨cs, h1, h2⟩ := a.2.2.2.2 cl p c ref hp hg
    rw [(mem_portToClocks.mp h1).1] at h2
    obtain ⟨e, he, rfl⟩ := List.mem_map.mp h2
    simp only [List.mem_filter, decide_eq_true_eq] at he
    rw [← he.2]; exact he.1
  · rw [a.2.2.2.1 cl p c hp] at hg; simp [Dict.get?] at hg

end Verif.Connect
