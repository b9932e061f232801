/-
Lemmas on paths, last values, and the effect of settings.
-/
import Verif.ZiPrepare.Spec
import Mathlib.Data.List.Forall2

set_option linter.unusedSimpArgs false
set_option linter.unusedVariables false

namespace Verif.ZiPrepare
open Spec

theorem covers_self (n : Node) : Covers n n := by
  unfold Covers
  induction n with
  | nil => exact .nil
  | cons a n ih => exact .cons (Or.inr rfl) ih

theorem covers_real {p n : Node} (h : Covers p n) (hp : Real p) : p = n := by
  unfold Covers at h
  induction h with
  | nil => rfl
  | cons h1 h2 ih =>
    rename_i a b l m
    have ha : a ≠ .any := by intro e; subst e; exact hp (List.mem_cons_self ..)
    rcases h1 with h1 | h1
    · exact absurd h1 ha
    · subst h1; rw [ih (fun hm => hp (List.mem_cons_of_mem _ hm))]

/-- The values that are sent to a device. -/
def sent (l : List Daq) : List (Node × Val) := (l.filter (fun d => d.fn ≠ .void)).map (fun d => (d.node, d.value))

theorem last_unique {l : List (Node × Val)} {n : Node} {v w : Val} (h1 : Last l n v) (h2 : Last l n w) : v = w := by
  obtain ⟨a, p, b, h, hc, hb⟩ := h1
  obtain ⟨a', p', b', h', hc', hb'⟩ := h2
  rw [h] at h'
  rcases List.append_eq_append_iff.1 h' with ⟨c, h3, h4⟩ | ⟨c, h3, h4⟩
  · cases c with
    | nil => simp at h4; exact h4.1.2
    | cons x c => 
      simp at h4
      have : (p', w) ∈ b := by rw [h4.2]; simp
      exact absurd hc' (hb _ this)
  · cases c with
    | nil => simp at h4; exact h4.1.2.symm
    | cons x c => 
      simp at h4
      have : (p, v) ∈ b' := by rw [h4.2]; simp
      exact absurd hc (hb' _ this)

theorem last_append {l m : List (Node × Val)} {n : Node} {v : Val} (h : Last m n v) : Last (l ++ m) n v := by
  obtain ⟨a, p, b, h, hc, hb⟩ := h
  exact ⟨l ++ a, p, b, by rw [h, List.append_assoc], hc, hb⟩

theorem last_append_left {l m : List (Node × Val)} {n : Node} {v : Val} (hm : ∀ e ∈ m, ¬ Covers e.1 n) :
    Last (l ++ m) n v ↔ Last l n v := by
  constructor
  · rintro ⟨a, p, b, h, hc, hb⟩
    rcases List.append_eq_append_iff.1 h with ⟨c, h3, h4⟩ | ⟨c, h3, h4⟩
    · exfalso
      have : (p, v) ∈ m := by rw [h4]; simp
      exact hm _ this hc
    · cases c with
      | nil =>
        exfalso
        simp at h4
        have : (p, v) ∈ m := by rw [← h4]; simp
        exact hm _ this hc
      | cons x c =>
        simp at h4
        obtain ⟨rfl, h4⟩ := h4
        exact ⟨a, p, c, by rw [h3], hc, fun e he => hb e (by rw [h4]; simp [he])⟩
  · rintro ⟨a, p, b, h, hc, hb⟩
    refine ⟨a, p, b ++ m, by rw [h]; simp, hc, ?_⟩
    intro e he
    rcases List.mem_append.1 he with he | he
    · exact hb e he
    · exact hm e he

/-- Some value is written last, if any path covers the node. -/
theorem last_exists {l : List (Node × Val)} {n : Node} (h : ∃ e ∈ l, Covers e.1 n) : ∃ v, Last l n v := by
  induction l with
  | nil => obtain ⟨e, he, _⟩ := h; cases he
  | cons x l ih =>
    by_cases hl : ∃ e ∈ l, Covers e.1 n
    · obtain ⟨v, hv⟩ := ih hl
      exact ⟨v, last_append (l := [x]) hv⟩
    · obtain ⟨e, he, hc⟩ := h
      rcases List.mem_cons.1 he with rfl | he
      · exact ⟨e.2, [], e.1, l, rfl, hc, fun f hf hcf => hl ⟨f, hf, hcf⟩⟩
      · exact absurd ⟨e, he, hc⟩ hl

theorem last_mem {l : List (Node × Val)} {n : Node} {v : Val} (h : Last l n v) : ∃ p, (p, v) ∈ l ∧ Covers p n := by
  obtain ⟨a, p, b, h, hc, _⟩ := h
  exact ⟨p, by rw [h]; simp, hc⟩

/-! ### The effect of settings -/

/-- What a step writes. -/
def Act.writes : Act → List (Node × Val)
  | .sets m => m
  | .vector n v => [(n, v)]
  | _ => []

theorem doAll_writes (h : Hw) (l : List Act) :
    (doAll h l).writes = h.writes ++ l.flatMap Act.writes := by
  unfold doAll
  induction l generalizing h with
  | nil => simp
  | cons a l ih => rw [List.foldl_cons, ih]; cases a <;> simp [act, Act.writes]

theorem doAll_append (h : Hw) (l m : List Act) : doAll h (l ++ m) = doAll (doAll h l) m := by
  unfold doAll; rw [List.foldl_append]

theorem groups_sent (l : List Daq) :
    (groups l).flatMap Act.writes = sent l := by
  induction l with
  | nil => rfl
  | cons d l ih =>
    rw [groups]
    cases hf : d.fn with
    | void => simp [sent, hf, Act.writes] at *; exact ih
    | setVector => simp [sent, hf, Act.writes] at *; exact ih
    | setValue =>
      simp only
      split
      · rename_i m more hg
        rw [hg] at ih
        simp [sent, hf, Act.writes] at *; exact ih
      · simp [sent, hf, Act.writes] at *; exact ih

theorem groups_progs (h : Hw) (l : List Act) (hl : ∀ a ∈ l, ∀ k s, a ≠ .compile k s) : (doAll h l).progs = h.progs := by
  unfold doAll
  induction l generalizing h with
  | nil => rfl
  | cons a l ih =>
    rw [List.foldl_cons, ih _ (fun a ha => hl a (by simp [ha]))]
    cases a with
    | compile k s => exact absurd rfl (hl _ (by simp) k s)
    | _ => rfl

theorem groups_no_compile (l : List Daq) : ∀ a ∈ groups l, ∀ k s, a ≠ .compile k s := by
  induction l with
  | nil => simp [groups]
  | cons d l ih =>
    rw [groups]
    cases hf : d.fn with
    | void => 
      simp only
      intro a ha
      rcases List.mem_cons.1 ha with rfl | ha
      · simp
      · exact ih a ha
    | setVector =>
      simp only
      intro a ha
      rcases List.mem_cons.1 ha with rfl | ha
      · simp
      · exact ih a ha
    | setValue =>
      simp only
      split
      · rename_i m more hg
        intro a ha
        rcases List.mem_cons.1 ha with rfl | ha
        · simp
        · exact ih a (by rw [hg]; simp [ha])
      · intro a ha
        rcases List.mem_cons.1 ha with rfl | ha
        · simp
        · exact ih a ha

/-- The programs of a device after programs were compiled. -/
theorem compile_progs (h : Hw) (l : List (Nat × String)) :
    (doAll h (l.map (fun e => .compile e.1 e.2))).progs = l.foldl (fun d e => Dict.set d e.1 ⟨e.2, h.waves⟩) h.progs ∧
    (doAll h (l.map (fun e => .compile e.1 e.2))).writes = h.writes := by
  unfold doAll
  induction l generalizing h with
  | nil => simp
  | cons e l ih =>
    rw [List.map_cons, List.foldl_cons]
    have := ih (act h (.compile e.1 e.2))
    rw [this.1, this.2]
    simp [act]

theorem acts_writes (h : Hw) (s : Settings) : (doAll h s.acts).writes = h.writes ++ sent s.daq := by
  rw [Settings.acts, doAll_append, doAll_writes, groups_sent, (compile_progs h s.awg).2]

theorem acts_progs (h : Hw) (s : Settings) :
    (doAll h s.acts).progs = s.awg.foldl (fun d e => Dict.set d e.1 ⟨e.2, h.waves⟩) h.progs := by
  rw [Settings.acts, doAll_append, groups_progs _ _ (groups_no_compile _), (compile_progs h s.awg).1]

theorem acts_rest (h : Hw) (l : List Act) : (doAll h l).waves = h.waves ∧ (doAll h l).running = h.running := by
  unfold doAll
  induction l generalizing h with
  | nil => simp
  | cons a l ih =>
    rw [List.foldl_cons]
    have := ih (act h a)
    rw [this.1, this.2]
    cases a <;> simp [act]

/-! ### Dictionaries -/

section
variable {K V W : Type} [DecidableEq K]

theorem foldl_set_of_not_mem (l : List (K × V)) (d : List (K × W)) (f : V → W) (k : K) (hk : k ∉ Dict.keys l) :
    Dict.get? (l.foldl (fun d e => Dict.set d e.1 (f e.2)) d) k = Dict.get? d k := by
  induction l generalizing d with
  | nil => rfl
  | cons e l ih =>
    rw [List.foldl_cons, ih _ (fun h => hk (by simp [Dict.keys] at h ⊢; exact Or.inr h))]
    rw [Dict.get?_set_ne]
    intro he; exact hk (by simp [Dict.keys, he])

/-- What the last one of a list sets. -/
theorem foldl_set_last (l : List (K × V)) (d : List (K × W)) (f : V → W) {a b : List (K × V)} {k : K} {v : V}
    (hl : l = a ++ (k, v) :: b) (hb : k ∉ Dict.keys b) :
    Dict.get? (l.foldl (fun d e => Dict.set d e.1 (f e.2)) d) k = some (f v) := by
  subst hl
  rw [List.foldl_append, List.foldl_cons, foldl_set_of_not_mem _ _ _ _ hb, Dict.get?_set_self]

theorem last_split (l : List (K × V)) (k : K) (h : k ∈ Dict.keys l) :
    ∃ a v b, l = a ++ (k, v) :: b ∧ k ∉ Dict.keys b := by
  induction l with
  | nil => simp [Dict.keys] at h
  | cons e l ih =>
    by_cases hl : k ∈ Dict.keys l
    · obtain ⟨a, v, b, h1, h2⟩ := ih hl
      exact ⟨e :: a, v, b, by rw [h1]; rfl, h2⟩
    · have : k = e.1 := by
        simp only [Dict.keys, List.map_cons, List.mem_cons] at h hl
        exact h.resolve_right hl
      subst this
      exact ⟨[], e.2, l, rfl, hl⟩

theorem foldl_set_get (l : List (K × V)) (k : K) (v : V) :
    Dict.get? (l.foldl (fun d e => Dict.set d e.1 e.2) []) k = some v ↔
      ∃ a b, l = a ++ (k, v) :: b ∧ k ∉ Dict.keys b := by
  constructor
  · intro h
    by_cases hk : k ∈ Dict.keys l
    · obtain ⟨a, w, b, h1, h2⟩ := last_split l k hk
      have := foldl_set_last l ([] : List (K × V)) id h1 h2
      simp only [id] at this
      rw [this] at h
      obtain rfl := Option.some.inj h
      exact ⟨a, b, h1, h2⟩
    · have := foldl_set_of_not_mem l ([] : List (K × V)) id k hk
      simp only [id] at this
      rw [this] at h
      cases h
  · rintro ⟨a, b, h1, h2⟩
    have := foldl_set_last l ([] : List (K × V)) id h1 h2
    simpa only [id] using this

theorem sameDict_get [DecidableEq V] {a b : List (K × V)} (h : sameDict a b = true) (k : K) :
    Dict.get? a k = Dict.get? b k := by
  unfold sameDict at h
  simp only [Bool.and_eq_true, List.all_eq_true, decide_eq_true_eq] at h
  by_cases ha : k ∈ Dict.keys a
  · obtain ⟨e, he, rfl⟩ := List.mem_map.1 ha
    exact (h.1 e he).symm
  · by_cases hb : k ∈ Dict.keys b
    · obtain ⟨e, he, rfl⟩ := List.mem_map.1 hb
      exact h.2 e he
    · rw [(Dict.get?_eq_none_iff a k).2 ha, (Dict.get?_eq_none_iff b k).2 hb]

theorem foldl_keys (l : List (K × V)) (d : List (K × V)) (k : K) :
    k ∈ Dict.keys (l.foldl (fun d e => Dict.set d e.1 e.2) d) ↔ k ∈ Dict.keys d ∨ k ∈ Dict.keys l := by
  induction l generalizing d with
  | nil => simp [Dict.keys]
  | cons e l ih =>
    rw [List.foldl_cons, ih, Dict.mem_keys_set]
    simp only [Dict.keys, List.map_cons, List.mem_cons]
    grind

theorem foldl_nodup (l : List (K × V)) (d : List (K × V)) (hd : (Dict.keys d).Nodup) :
    (Dict.keys (l.foldl (fun d e => Dict.set d e.1 e.2) d)).Nodup := by
  induction l generalizing d with
  | nil => exact hd
  | cons e l ih => rw [List.foldl_cons]; exact ih _ (Dict.keys_set_nodup hd _ _)

end

end Verif.ZiPrepare
