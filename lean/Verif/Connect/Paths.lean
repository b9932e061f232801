/-
The loops over ports, neighbours and clocks.
-/
import Verif.Connect.Spec

set_option linter.unusedSimpArgs false
set_option linter.unusedVariables false

namespace Verif.Connect

open Verif.Connect.Spec

variable {α : Type}

theorem mem_insertNew [DecidableEq α] {acc : List α} {x y : α} :
    y ∈ insertNew acc x ↔ y ∈ acc ∨ y = x := by
  unfold insertNew; split
  · rename_i h; constructor
    · exact Or.inl
    · rintro (h' | rfl) <;> assumption
  · simp

theorem foldl_insertNew_mem [DecidableEq α] (l : List α) : ∀ (acc : List α) (y : α),
    y ∈ l.foldl insertNew acc ↔ y ∈ acc ∨ y ∈ l := by
  induction l with
  | nil => simp
  | cons x l ih =>
    intro acc y
    rw [List.foldl_cons, ih, mem_insertNew, List.mem_cons, or_assoc]

theorem mem_distinct [DecidableEq α] {l : List α} {y : α} : y ∈ distinct l ↔ y ∈ l := by
  simp [distinct, foldl_insertNew_mem]

theorem insertNew_nodup [DecidableEq α] {acc : List α} {x : α} (h : acc.Nodup) :
    (insertNew acc x).Nodup := by
  unfold insertNew; split
  · exact h
  · rename_i hx
    rw [List.nodup_append]
    refine ⟨h, by simp, ?_⟩
    intro a ha b hb
    simp only [List.mem_singleton] at hb
    subst hb; intro e; subst e; exact hx ha

theorem distinct_nodup [DecidableEq α] (l : List α) : (distinct l).Nodup := by
  have : ∀ (acc : List α), acc.Nodup → (l.foldl insertNew acc).Nodup := by
    induction l with
    | nil => exact fun _ h => h
    | cons x l ih => exact fun acc h => ih _ (insertNew_nodup h)
  exact this [] List.nodup_nil

theorem mem_neighbors {g : Edges} {n m : Node} :
    m ∈ neighbors g n ↔ (n, m) ∈ g ∨ (m, n) ∈ g := by
  simp only [neighbors, mem_distinct, List.mem_flatMap, List.mem_append]
  constructor
  · rintro ⟨⟨a, b⟩, he, h | h⟩
    · split at h
      · rename_i h1; simp only at h1 h; subst h1
        simp only [List.mem_singleton] at h; subst h; exact Or.inl he
      · simp at h
    · split at h
      · rename_i h1; simp only at h1 h; subst h1
        simp only [List.mem_singleton] at h; subst h; exact Or.inr he
      · simp at h
  · rintro (h | h)
    · exact ⟨_, h, Or.inl (by simp)⟩
    · exact ⟨_, h, Or.inr (by simp)⟩

theorem mem_neighbors_linked {g : Edges} {p : String} {m : Node} :
    m ∈ neighbors g (.plain p) ↔ Linked g p m := mem_neighbors

theorem mem_nodes {g : Edges} {n : Node} : n ∈ nodes g ↔ ∃ e ∈ g, e.1 = n ∨ e.2 = n := by
  simp only [nodes, mem_distinct, List.mem_flatMap, List.mem_cons, List.not_mem_nil, or_false]
  constructor
  · rintro ⟨e, he, rfl | rfl⟩
    · exact ⟨e, he, Or.inl rfl⟩
    · exact ⟨e, he, Or.inr rfl⟩
  · rintro ⟨e, he, rfl | rfl⟩
    · exact ⟨e, he, Or.inl rfl⟩
    · exact ⟨e, he, Or.inr rfl⟩

/-! ### `add_channel_name_measure` -/

@[simp] theorem add_cluster (p : Path) (c : Chan) : (p.add c).cluster = p.cluster := by
  unfold Path.add; split
  · split <;> rfl
  · rfl

@[simp] theorem add_module (p : Path) (c : Chan) : (p.add c).module = p.module := by
  unfold Path.add; split
  · split <;> rfl
  · rfl

theorem uses_add (p : Path) (c ch : Chan) : Uses (p.add c) ch ↔ Uses p ch ∨ ch = c := by
  unfold Path.add Uses; split
  · rename_i h
    split
    · simp [h]
    · simp [h]; tauto
  · rename_i m h
    simp [h, mem_insertNew]; tauto

theorem add_measure_isSome (p : Path) (c : Chan) : (p.add c).measure.isSome := by
  unfold Path.add; split
  · split <;> rfl
  · rfl

/-- Adding `c` once for each clock. -/
def addTimes (c : Chan) : Nat → Path → Path
  | 0, p => p
  | n + 1, p => addTimes c n (p.add c)

@[simp] theorem addTimes_cluster (c : Chan) : ∀ (n : Nat) (p : Path),
    (addTimes c n p).cluster = p.cluster
  | 0, p => rfl
  | n + 1, p => by rw [addTimes, addTimes_cluster c n, add_cluster]

@[simp] theorem addTimes_module (c : Chan) : ∀ (n : Nat) (p : Path),
    (addTimes c n p).module = p.module
  | 0, p => rfl
  | n + 1, p => by rw [addTimes, addTimes_module c n, add_module]

theorem uses_addTimes (c ch : Chan) : ∀ (n : Nat) (p : Path), 0 < n →
    (Uses (addTimes c n p) ch ↔ Uses p ch ∨ ch = c)
  | 0, p, h => by omega
  | 1, p, _ => by rw [addTimes, addTimes, uses_add]
  | n + 2, p, _ => by rw [addTimes, uses_addTimes c ch (n + 1) _ (by omega), uses_add]; tauto

theorem addTimes_measure (c : Chan) : ∀ (n : Nat) (p : Path), 0 < n →
    (addTimes c n p).measure.isSome
  | 0, p, h => by omega
  | 1, p, _ => by rw [addTimes, addTimes]; exact add_measure_isSome _ _
  | n + 2, p, _ => by rw [addTimes]; exact addTimes_measure c (n + 1) _ (by omega)

/-! ### The loops for a port wired to channels -/

/-- All clocks of the list are bound to the object at `ref`, which is `P`, and to nothing else. -/
def Bound (st : St) (port : String) (clocks : List String) (ref : Nat) (P : Path) : Prop :=
  st.heap[ref]? = some P ∧
    ∀ c ∈ clocks, ∀ cl, Dict.get? st.tab (cl, (port, c)) = if cl = P.cluster then some ref else none

theorem repeatLoop_absent (path : Path) (pc : PC) (st : St) (r : Bool) : ∀ (cls : List String),
    (∀ cl ∈ cls, Dict.get? st.tab (cl, pc) = none) → repeatLoop path pc cls st r = .ok (st, r)
  | [], _ => rfl
  | cl :: cls, h => by
    rw [repeatLoop, h cl (by simp)]
    exact repeatLoop_absent path pc st r cls (fun c hc => h c (by simp [hc]))

theorem repeatLoop_one (path : Path) (pc : PC) (ref : Nat) (P : Path) : ∀ (cls : List String)
    (st : St) (r : Bool), cls.Nodup → P.cluster ∈ cls → st.heap[ref]? = some P →
    (∀ cl, Dict.get? st.tab (cl, pc) = if cl = P.cluster then some ref else none) →
    repeatLoop path pc cls st r =
      if path.cluster = P.cluster ∧ path.module = P.module then
        .ok ({ st with heap := st.heap.set ref (P.add path.chan) }, true)
      else .error .valueError
  | [], st, r, _, h, _, _ => by simp at h
  | cl :: cls, st, r, hnd, hm, hh, ht => by
    rw [repeatLoop, ht cl]
    by_cases hc : cl = P.cluster
    · rw [if_pos hc]
      simp only [hh]
      by_cases hs : path.cluster = P.cluster ∧ path.module = P.module
      · rw [if_neg (by simp [hs.1, hs.2]), if_pos hs]
        apply repeatLoop_absent
        intro c' hc'
        have : c' ≠ P.cluster := by
          intro e
          rw [List.nodup_cons] at hnd
          exact hnd.1 (hc ▸ e ▸ hc')
        simp [ht, this]
      · rw [if_pos (by tauto), if_neg hs]
    · rw [if_neg hc]
      simp only
      exact repeatLoop_one path pc ref P cls st r (List.nodup_cons.mp hnd).2
        (by rcases List.mem_cons.mp hm with e | e
            · exact absurd e.symm hc
            · exact e) hh ht

theorem heap_set_get (h : List Path) (i : Nat) (p q : Path) (hi : h[i]? = some q) :
    (h.set i p)[i]? = some p := by
  have : i < h.length := by
    by_contra hc
    rw [List.getElem?_eq_none (by omega)] at hi; simp at hi
  simp [this]

/-- A further channel for a port whose clocks are bound. -/
theorem clockLoop_next (env : Env) (hnd : env.clusters.Nodup) (port : String) (path : Path)
    (r0 ref : Nat) : ∀ (clocks : List String) (st : St) (P : Path), P.cluster ∈ env.clusters →
    Bound st port clocks ref P →
    clockLoop env port path r0 clocks st =
      if (path.cluster = P.cluster ∧ path.module = P.module) ∨ clocks = [] then
        .ok { st with heap := st.heap.set ref (addTimes path.chan clocks.length P) }
      else .error .valueError
  | [], st, P, _, hb => by
    rw [if_pos (Or.inr rfl), clockLoop, List.length_nil, addTimes]
    congr 1
    cases st with
    | mk h t l =>
      simp only [St.mk.injEq, and_true]
      apply List.ext_getElem?
      intro i
      by_cases hi : i = ref
      · subst hi; rw [heap_set_get _ _ _ _ hb.1]; exact hb.1
      · rw [List.getElem?_set_ne (Ne.symm hi)]
  | c :: clocks, st, P, hP, hb => by
    rw [clockLoop, repeatLoop_one path (port, c) ref P env.clusters st false hnd hP hb.1
      (fun cl => hb.2 c (by simp) cl)]
    by_cases hs : path.cluster = P.cluster ∧ path.module = P.module
    · rw [if_pos hs, if_pos (Or.inl hs)]
      simp only
      rw [clockLoop_next env hnd port path r0 ref clocks _ (P.add path.chan)
        (by rw [add_cluster]; exact hP)
        ⟨heap_set_get _ _ _ _ hb.1, fun c' hc' cl => by
          rw [add_cluster]; exact hb.2 c' (by simp [hc']) cl⟩]
      rw [if_pos (by left; simpa using hs)]
      simp [addTimes, List.set_set]
    · rw [if_neg hs, if_neg (by simp [hs])]

/-- The first channel of a port. -/
theorem clockLoop_first (env : Env) (port : String) (path : Path) (ref : Nat) :
    ∀ (clocks : List String) (st : St), clocks.Nodup →
    (∀ c ∈ clocks, ∀ cl, Dict.get? st.tab (cl, (port, c)) = none) →
    clockLoop env port path ref clocks st =
      .ok { st with
              tab := clocks.foldl (fun t c => Dict.set t (path.cluster, (port, c)) ref) st.tab }
  | [], st, _, _ => rfl
  | c :: clocks, st, hnd, ht => by
    rw [clockLoop, repeatLoop_absent path (port, c) st false _ (fun cl _ => ht c (by simp) cl)]
    simp only [List.foldl_cons]
    rw [clockLoop_first env port path ref clocks _ (List.nodup_cons.mp hnd).2]
    intro c' hc' cl
    have hne : c' ≠ c := by
      rintro rfl; exact (List.nodup_cons.mp hnd).1 hc'
    rw [Dict.get?_set_ne _ _ (by simp [hne])]
    exact ht c' (by simp [hc']) cl

theorem foldl_set_get (port : String) (cl0 : String) (ref : Nat) : ∀ (clocks : List String)
    (t : List ((String × PC) × Nat)) (cl p c : String),
    Dict.get? (clocks.foldl (fun t c => Dict.set t (cl0, (port, c)) ref) t) (cl, (p, c)) =
      if cl = cl0 ∧ p = port ∧ c ∈ clocks then some ref else Dict.get? t (cl, (p, c))
  | [], t, cl, p, c => by simp
  | x :: clocks, t, cl, p, c => by
    rw [List.foldl_cons, foldl_set_get port cl0 ref clocks, Dict.get?_set]
    by_cases h1 : cl = cl0 ∧ p = port ∧ c ∈ clocks
    · rw [if_pos h1, if_pos ⟨h1.1, h1.2.1, by simp [h1.2.2]⟩]
    · rw [if_neg h1]
      by_cases h2 : (cl, (p, c)) = (cl0, (port, x))
      · rw [if_pos h2, if_pos]
        simp only [Prod.mk.injEq] at h2
        exact ⟨h2.1, h2.2.1, by simp [h2.2.2]⟩
      · rw [if_neg h2, if_neg]
        rintro ⟨rfl, rfl, h3⟩
        rcases List.mem_cons.mp h3 with rfl | h3
        · exact h2 rfl
        · exact h1 ⟨rfl, rfl, h3⟩

theorem foldl_set_nodup (f : String → String × PC) (ref : Nat) : ∀ (clocks : List String)
    (t : List ((String × PC) × Nat)), (Dict.keys t).Nodup →
    (Dict.keys (clocks.foldl (fun t c => Dict.set t (f c) ref) t)).Nodup
  | [], t, h => h
  | x :: clocks, t, h => by
    rw [List.foldl_cons]
    exact foldl_set_nodup f ref clocks _ (Dict.keys_set_nodup h _ _)

end Verif.Connect
