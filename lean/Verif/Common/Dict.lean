/-
Python dicts with insertion order, as association lists.
-/
import Mathlib.Data.List.Nodup

namespace Verif.Dict

variable {K V : Type} [DecidableEq K]

/-- `d.get(k)`. -/
def get? (d : List (K × V)) (k : K) : Option V := (d.find? (fun e => e.1 == k)).map Prod.snd

/-- `d[k] = v`: an existing key keeps its position, a new one goes to the end. -/
def set (d : List (K × V)) (k : K) (v : V) : List (K × V) :=
  if d.any (fun e => e.1 == k) then d.map (fun e => if e.1 == k then (k, v) else e)
  else d ++ [(k, v)]

/-- The keys, in insertion order. -/
def keys (d : List (K × V)) : List K := d.map Prod.fst

theorem get?_nil (k : K) : get? ([] : List (K × V)) k = none := rfl

theorem get?_cons (e : K × V) (d : List (K × V)) (k : K) :
    get? (e :: d) k = if e.1 = k then some e.2 else get? d k := by
  by_cases h : e.1 = k <;> simp [get?, h]

theorem get?_eq_none_iff (d : List (K × V)) (k : K) : get? d k = none ↔ k ∉ keys d := by
  induction d with
  | nil => simp [get?, keys]
  | cons e d ih =>
    rw [get?_cons]
    by_cases h : e.1 = k
    · simp [h, keys]
    · rw [if_neg h, ih]; simp [keys, Ne.symm h]

theorem get?_isSome_iff (d : List (K × V)) (k : K) : (get? d k).isSome ↔ k ∈ keys d := by
  rw [← not_iff_not, ← get?_eq_none_iff]; simp

theorem any_iff (d : List (K × V)) (k : K) : d.any (fun e => e.1 == k) = true ↔ k ∈ keys d := by
  simp [keys]

theorem keys_map_set (d : List (K × V)) (k : K) (v : V) :
    keys (d.map (fun e => if e.1 == k then (k, v) else e)) = keys d := by
  induction d with
  | nil => rfl
  | cons e d ih =>
    simp only [keys, List.map_cons, List.map_map] at ih ⊢
    rw [ih]
    by_cases h : e.1 = k <;> simp [h]

theorem keys_set (d : List (K × V)) (k : K) (v : V) :
    keys (set d k v) = if k ∈ keys d then keys d else keys d ++ [k] := by
  unfold set
  by_cases h : d.any (fun e => e.1 == k) = true
  · rw [if_pos h, if_pos ((any_iff d k).mp h), keys_map_set]
  · rw [if_neg h, if_neg (fun x => h ((any_iff d k).mpr x))]; simp [keys]

theorem mem_keys_set (d : List (K × V)) (k k' : K) (v : V) :
    k' ∈ keys (set d k v) ↔ k' = k ∨ k' ∈ keys d := by
  rw [keys_set]
  split
  · constructor
    · exact Or.inr
    · rintro (rfl | h) <;> assumption
  · simp [or_comm]

theorem keys_set_nodup {d : List (K × V)} (h : (keys d).Nodup) (k : K) (v : V) :
    (keys (set d k v)).Nodup := by
  rw [keys_set]
  split
  · exact h
  · rename_i h2
    rw [List.nodup_append]
    refine ⟨h, by simp, ?_⟩
    intro a ha b hb
    simp only [List.mem_singleton] at hb
    subst hb
    rintro rfl
    exact h2 ha

theorem get?_set_self (d : List (K × V)) (k : K) (v : V) : get? (set d k v) k = some v := by
  unfold set
  split
  · rename_i h
    induction d with
    | nil => simp at h
    | cons e d ih =>
      rw [List.map_cons, get?_cons]
      by_cases h1 : e.1 = k
      · simp [h1]
      · have hb : (e.1 == k) = false := by simpa using h1
        rw [hb]
        simp only [Bool.false_eq_true, if_false, h1]
        exact ih (by simpa [h1] using h)
  · rename_i h
    induction d with
    | nil => simp [get?]
    | cons e d ih =>
      rw [List.cons_append, get?_cons]
      have h1 : e.1 ≠ k := by intro h1; simp [h1] at h
      rw [if_neg h1]
      apply ih
      intro h2; apply h; simp [h2]

theorem get?_set_ne (d : List (K × V)) {k k' : K} (v : V) (hk : k' ≠ k) :
    get? (set d k v) k' = get? d k' := by
  unfold set
  split
  · clear * - hk
    induction d with
    | nil => rfl
    | cons e d ih =>
      rw [List.map_cons, get?_cons, get?_cons, ih]
      by_cases h1 : e.1 = k
      · simp [h1, Ne.symm hk]
      · simp [h1]
  · clear * - hk
    induction d with
    | nil => simp [get?, Ne.symm hk]
    | cons e d ih =>
      rw [List.cons_append, get?_cons, get?_cons, ih]

theorem get?_set (d : List (K × V)) (k k' : K) (v : V) :
    get? (set d k v) k' = if k' = k then some v else get? d k' := by
  by_cases h : k' = k
  · subst h; rw [get?_set_self, if_pos rfl]
  · rw [get?_set_ne d v h, if_neg h]

/-- In a dict without repeated keys, an entry is what is looked up. -/
theorem get?_of_mem {d : List (K × V)} (h : (keys d).Nodup) {k : K} {v : V} (hm : (k, v) ∈ d) :
    get? d k = some v := by
  induction d with
  | nil => simp at hm
  | cons e d ih =>
    rw [get?_cons]
    simp only [keys, List.map_cons, List.nodup_cons] at h
    rcases List.mem_cons.mp hm with rfl | hm
    · simp
    · have : e.1 ≠ k := by
        rintro rfl
        exact h.1 (List.mem_map.mpr ⟨_, hm, rfl⟩)
      rw [if_neg this]
      exact ih h.2 hm

theorem mem_of_get? {d : List (K × V)} {k : K} {v : V} (h : get? d k = some v) : (k, v) ∈ d := by
  unfold get? at h
  obtain ⟨e, he, rfl⟩ := Option.map_eq_some_iff.mp h
  have h1 := List.find?_some he
  have h2 := List.mem_of_find?_eq_some he
  simp only [beq_iff_eq] at h1
  obtain ⟨a, b⟩ := e
  simp only at h1
  subst h1; exact h2

theorem get?_map_val {W : Type} (d : List (K × V)) (f : V → W) (k : K) :
    get? (d.map (fun e => (e.1, f e.2))) k = (get? d k).map f := by
  induction d with
  | nil => rfl
  | cons e d ih =>
    rw [List.map_cons, get?_cons, get?_cons, ih]
    split <;> simp

end Verif.Dict
