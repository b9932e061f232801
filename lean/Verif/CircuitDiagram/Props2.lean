/-
C76: lines and columns.
-/
import Verif.CircuitDiagram.Props
import Mathlib.Tactic.Linarith

set_option linter.unusedSimpArgs false
set_option linter.unusedVariables false

namespace Verif.CircuitDiagram

variable {order : List String} {res : List (String × Rat)} {s : Node}

/-! ### Lines -/

/-- **The ports that the code collects** are the ports of pulses and acquisitions of the schedule: the orders in which the
set can be traversed are exactly those of the specification. -/
theorem ports_collected (hs : Simple s) (order : List String) :
    (order.Nodup ∧ ∀ p, p ∈ order ↔ p ∈ opPorts (onlyOps s)) ↔ IsOrder order s := by
  have key : ∀ p, p ∈ opPorts (onlyOps s) ↔ IsPort s p := by
    intro p
    rw [onlyOps_eq s 0 hs, opPorts, IsPort]
    simp only [List.mem_flatMap, List.mem_map]
    constructor
    · rintro ⟨o, ⟨x, hx, rfl⟩, h⟩
      cases hg : x.2.gate with
      | some g => rw [hg] at h; simp at h
      | none =>
        rw [hg] at h
        refine ⟨x, hx, hg, ?_⟩
        simpa [List.mem_append, List.mem_filterMap, List.mem_map] using h
    · rintro ⟨x, hx, hg, h⟩
      refine ⟨x.2, ⟨x, hx, rfl⟩, ?_⟩
      rw [hg]
      simpa [List.mem_append, List.mem_filterMap, List.mem_map] using h
  rw [IsOrder]
  simp only [key]

/-- **The lines of the diagram** are those of the device elements and, if there are ports that belong to none, a line
"other". -/
theorem lines_named (hs : Fine order res s) {d : Diagram} (h : diagram order res s = .ok d) (e : String) (n : Nat) :
    (e, n) ∈ d.lines ↔ ElemLine s e n ∨ (e = "other" ∧ n = 0 ∧ ∃ p, Foreign s p) := by
  obtain ⟨-, hl, -⟩ := diagram_ok hs h
  rw [hl]
  have hne : "other" ∉ gateElems (onlyOps s) := by rw [mem_gateElems hs.simple]; exact hs.other
  have hm := mapsOk (order := order) hne hs.order.1
  have hk0 : Dict.keys ((enumFrom 0 (sortedSet (gateElems (onlyOps s)))).map (fun e => (e.1, e.2 + 1))) =
      sortedSet (gateElems (onlyOps s)) := by
    have := keys_enumFrom (sortedSet (gateElems (onlyOps s))) 0
    simp only [Dict.keys] at this
    simp only [Dict.keys, List.map_map]
    exact this
  have hany := any_foreign hs.simple hs.order
  have hnd : (Dict.keys (maps order s).elems).Nodup := by
    rw [hm.elems]
    split
    · apply Dict.keys_set_nodup; rw [hk0]; exact sortedSet_nodup _
    · rw [keys_enumFrom]; exact sortedSet_nodup _
  have hkeys : ∀ k, k ∈ Dict.keys (maps order s).elems ↔ IsElement s k ∨ (k = "other" ∧ ∃ p, Foreign s p) := by
    intro k
    rw [hm.elems]
    by_cases hf : ∃ p, Foreign s p
    · rw [if_pos (hany.2 hf), Dict.mem_keys_set, hk0, mem_sortedSet, mem_gateElems hs.simple]
      simp only [hf, and_true]; tauto
    · rw [if_neg (fun hc => hf (hany.1 hc)), keys_enumFrom, mem_sortedSet, mem_gateElems hs.simple]
      simp only [hf, and_false, or_false]
  have hget : (e, n) ∈ (maps order s).elems ↔ Dict.get? (maps order s).elems e = some n :=
    ⟨fun hc => Dict.get?_of_mem hnd hc, fun hc => Dict.mem_of_get? hc⟩
  have hfind : Dict.get? (maps order s).elems e = some n ↔ find (maps order s).elems e = .ok n := by
    rw [find]; cases Dict.get? (maps order s).elems e <;> simp
  rw [hget, hfind]
  by_cases he : IsElement s e
  · rw [elem_line hs.simple hs.order hs.other he]
    constructor
    · exact Or.inl
    · rintro (h | ⟨rfl, -, -⟩)
      · exact h
      · exact absurd he hs.other
  · by_cases hc : e = "other" ∧ ∃ p, Foreign s p
    · obtain ⟨rfl, hf⟩ := hc
      rw [find, hm.elems, if_pos (hany.2 hf), Dict.get?_set_self]
      simp only [Except.ok.injEq, true_and, hf, and_true]
      constructor
      · rintro rfl; exact Or.inr rfl
      · rintro (hc | rfl)
        · exact absurd hc.1 hs.other
        · rfl
    · have : e ∉ Dict.keys (maps order s).elems := by rw [hkeys]; rintro (h | h); exacts [he h, hc h]
      rw [find, (Dict.get?_eq_none_iff _ _).2 this]
      simp only [reduceCtorEq, false_iff]
      rintro (h | ⟨h1, -, h2⟩)
      · exact he h.1
      · exact hc ⟨h1, h2⟩

/-- **Different device elements are on different lines**, and none is on line 0 if that is the line of other ports. -/
theorem lines_distinct {e e' : String} {n : Nat} (h : ElemLine s e n) (h' : ElemLine s e' n) : e = e' := by
  have key : ∀ {e e' : String} {k k' : Nat}, IsElement s e → Rank s e k → Rank s e' k' → e < e' → k < k' := by
    rintro e e' k k' he ⟨l, hn, hl, rfl⟩ ⟨l', hn', hl', rfl⟩ hlt
    have hsub : (e :: l) ⊆ l' := by
      intro x hx
      rcases List.mem_cons.1 hx with rfl | hx
      · exact (hl' _).2 ⟨he, hlt⟩
      · have := (hl x).1 hx
        exact (hl' x).2 ⟨this.1, String.lt_trans this.2 hlt⟩
    have hnd : (e :: l).Nodup := List.nodup_cons.2 ⟨fun hc => String.lt_irrefl _ ((hl e).1 hc).2, hn⟩
    have := (List.subperm_of_subset hnd hsub).length_le
    simp only [List.length_cons] at this
    omega
  obtain ⟨he, k, hk, hh⟩ := h
  obtain ⟨he', k', hk', hh'⟩ := h'
  have hkk : k = k' := by
    rcases hh with ⟨hf, h1⟩ | ⟨hf, h1⟩ <;> rcases hh' with ⟨hf', h2⟩ | ⟨hf', h2⟩
    · omega
    · exact absurd hf hf'
    · exact absurd hf' hf
    · omega
  by_contra hne
  by_cases hlt : e < e'
  · have := key he hk hk' hlt; omega
  · have := key he' hk' hk (str_lt hlt hne); omega

/-- **Ports** are drawn on the lines of their device elements if all of them belong to one, or if the first that the code
comes across does not.  Missing: the case that an owned port comes before a foreign one, where the code is wrong (next
theorem). -/
theorem ports_placed_partial (hs : Fine order res s)
    (h : (¬ ∃ p, Foreign s p) ∨ ∃ q rest, order = q :: rest ∧ Foreign s q) (p : String) (n : Nat) :
    DrawnLine order s p n ↔ PortLine s p n := by
  rw [DrawnLine, PortLine]
  apply and_congr_right
  intro hp
  apply or_congr_right
  have hbef : Owned s p → ((∃ a q b, order = a ++ p :: b ∧ q ∈ a ∧ Foreign s q) ↔ ∃ q, Foreign s q) := by
    intro how
    constructor
    · rintro ⟨a, q, b, -, -, hq⟩; exact ⟨q, hq⟩
    · intro hq
      rcases h with h | ⟨q, rest, hord, hf⟩
      · exact absurd hq h
      · have hpo := (hs.order.2 p).2 hp
        rw [hord] at hpo
        rcases List.mem_cons.1 hpo with rfl | hpr
        · exact absurd how hf.2
        · obtain ⟨a, b, hab⟩ := List.append_of_mem hpr
          exact ⟨q :: a, q, b, by rw [hord, hab]; rfl, by simp, hf⟩
  constructor
  · rintro ⟨e, k, h1, h2, h3, h4⟩
    rw [hbef ⟨e, h1, h2⟩] at h4
    exact ⟨e, h1, h2, k, h3, h4⟩
  · rintro ⟨e, h1, h2, k, h3, h4⟩
    refine ⟨e, k, h1, h2, h3, ?_⟩
    rw [hbef ⟨e, h1, h2⟩]; exact h4

/-- **Misplaced ports.**  A port of a device element that the code comes across before the first port that belongs to none is
drawn on the line below that of its device element. -/
theorem ports_misplaced (hs : Fine order res s) {a b : List String} {p q : String} (hord : order = a ++ p :: b)
    (ha : ∀ r ∈ a, ¬ Foreign s r) (hp : Owned s p) (hq : Foreign s q) (n : Nat) :
    DrawnLine order s p n ↔ PortLine s p (n + 1) := by
  rw [DrawnLine, PortLine]
  have hpp : IsPort s p := (hs.order.2 p).1 (by rw [hord]; simp)
  have hno : ¬ ∃ a q b, order = a ++ p :: b ∧ q ∈ a ∧ Foreign s q := by
    rintro ⟨a', q', b', hab', hq', hf⟩
    have hn := hs.order.1
    have h1 : p ∉ a := by
      rw [hord, List.nodup_append] at hn
      intro hc; exact hn.2.2 p hc p (by simp) rfl
    have h2 : p ∉ a' := by
      rw [hab', List.nodup_append] at hn
      intro hc; exact hn.2.2 p hc p (by simp) rfl
    have haa : a' = a := by
      rw [hord] at hab'
      rcases List.append_eq_append_iff.1 hab' with ⟨c, hc, hd⟩ | ⟨c, hc, hd⟩
      · cases c with
        | nil => simpa using hc
        | cons x c =>
          simp only [List.cons_append, List.cons.injEq] at hd
          exact absurd (by rw [hc, hd.1]; simp) h2
      · cases c with
        | nil => simpa using hc.symm
        | cons x c =>
          simp only [List.cons_append, List.cons.injEq] at hd
          exact absurd (by rw [hc, hd.1]; simp) h1
    subst haa
    exact ha q' hq' hf
  simp only [hpp, true_and, hp, not_true, false_and, false_or, ElemLine]
  constructor
  · rintro ⟨e, k, h1, h2, h3, ⟨h4, -⟩ | ⟨-, rfl⟩⟩
    · exact absurd h4 hno
    · exact ⟨e, h1, h2, n, h3, Or.inl ⟨⟨q, hq⟩, rfl⟩⟩
  · rintro ⟨e, h1, h2, k, h3, ⟨-, h4⟩ | ⟨h4, -⟩⟩
    · have : n = k := by omega
      subst this
      exact ⟨e, n, h1, h2, h3, Or.inr ⟨hno, rfl⟩⟩
    · exact absurd ⟨q, hq⟩ h4

/-! ### Columns -/

/-- The number of columns is the largest time. -/
def Nice (pre : List (Rat × Op)) : Prop := runMax pre = steps (times pre)

theorem nice_snoc {pre : List (Rat × Op)} (h : Nice pre) {t : Rat} {o : Op} (hc : column (times pre) t = t) :
    Nice (pre ++ [(t, o)]) := by
  rw [Nice, times_snoc, steps_snoc, runMax_snoc]
  rw [column] at hc
  by_cases hl : Later (times pre) t
  · rw [if_pos hl] at hc
    rw [if_pos hl, if_pos hl, ← hc]; push_cast; ring
  · rw [if_neg hl, if_neg hl, h]; simp

/-- Everything in a node is drawn at its time; see `goodN`. -/
def GoodN (n : Node) : Prop :=
  (∃ k : Nat, depth n = k + 1) ∧ ∀ (T : Nat) (pre : List (Rat × Op)), Nice pre → (T : Rat) ≤ runMax pre + 1 →
    Nice (pre ++ leaves T n) ∧ runMax (pre ++ leaves T n) = max (runMax pre) (T + depth n - 1) ∧
    ∀ a t o b, leaves T n = a ++ (t, o) :: b → column (times (pre ++ a)) t = t ∧ ∃ k : Nat, t = k ∧ T ≤ k

theorem nice_nat {pre : List (Rat × Op)} (h : Nice pre) {T : Nat} (hT : (T : Rat) ≤ runMax pre + 1) :
    column (times pre) T = T := by
  rw [column]
  split
  · rename_i hl
    rw [← runMax_lt] at hl
    rw [h] at hl hT
    have h1 : steps (times pre) < T := by exact_mod_cast hl
    have h2 : T ≤ steps (times pre) + 1 := by exact_mod_cast hT
    have : T = steps (times pre) + 1 := by omega
    rw [this]; push_cast; rfl
  · rfl

theorem ownDepth_eq {n : Node} (h : NotFlow n) : ownDepth n = depth n := by
  cases n with
  | op o => rfl
  | sched r its => rfl
  | loop r b => exact absurd h (by simp [NotFlow])
  | cond l buf b => exact absurd h (by simp [NotFlow])

theorem goodN_loop {r : Nat} {b : Node} (hb : NotFlow b) (h : GoodN b) : GoodN (.loop r b) := by
  have hd : depth (.loop r b) = depth b := by rw [depth, ownDepth_eq hb]
  rw [GoodN, hd]
  simp only [leaves]
  exact h

theorem goodN_cond {l : String} {buf : Rat} {b : Node} (hb : NotFlow b) (h : GoodN b) : GoodN (.cond l buf b) := by
  have hd : depth (.cond l buf b) = depth b := by rw [depth, ownDepth_eq hb]
  rw [GoodN, hd]
  simp only [leaves]
  exact h

theorem split_append {α : Type} {x y a b : List α} {c : α} (h : x ++ y = a ++ c :: b) :
    (∃ b', x = a ++ c :: b') ∨ ∃ a', a = x ++ a' ∧ y = a' ++ c :: b := by
  rcases List.append_eq_append_iff.1 h with ⟨d, hc, hd⟩ | ⟨d, hc, hd⟩
  · right; exact ⟨d, hc, hd⟩
  · cases d with
    | nil =>
      right
      simp only [List.append_nil, List.nil_append] at hc hd
      exact ⟨[], by simp [hc], by simp [hd]⟩
    | cons z d =>
      left
      simp only [List.cons_append, List.cons.injEq] at hd
      exact ⟨d, by rw [hc, hd.1]⟩

theorem latest_mono : ∀ (its : Items) (m : Rat), m ≤ latest m its
  | .nil, m => by rw [latest]
  | .cons t n rest, m => by
    rw [latest]; exact le_trans (le_max_right _ _) (latest_mono rest _)

mutual
theorem goodN : ∀ (n : Node), Simple n → Seq n → Plain n → GoodN n ∧ depth n = duration n + 1
  | .op o, hs, hq, hp => by
    rw [Plain] at hp
    refine ⟨⟨⟨0, by simp [depth, ownDepth]⟩, ?_⟩, by simp [depth, ownDepth, duration, hp]⟩
    intro T pre hn hT
    have hcol := nice_nat hn hT
    rw [leaves]
    refine ⟨nice_snoc hn hcol, ?_, ?_⟩
    · rw [runMax_snoc]
      have hd : depth (.op o) = 1 := rfl
      rw [hd, add_sub_cancel_right]
      split
      · rename_i hl
        rw [← runMax_lt] at hl
        exact (max_eq_right (le_of_lt hl)).symm
      · rename_i hl
        rw [← runMax_lt, not_lt] at hl
        exact (max_eq_left hl).symm
    · intro a t o' b hab
      cases a with
      | nil =>
        simp only [List.nil_append, List.cons.injEq, Prod.mk.injEq] at hab
        obtain ⟨⟨rfl, rfl⟩, -⟩ := hab
        exact ⟨by simpa using hcol, T, rfl, le_refl _⟩
      | cons x a => simp at hab
  | .loop r b, hs, hq, hp => by
    rw [Simple] at hs
    rw [Seq] at hq
    rw [Plain] at hp
    have ih := goodN b hs.2 hq hp.2
    refine ⟨goodN_loop hs.1 ih.1, ?_⟩
    rw [depth, ownDepth_eq hs.1, ih.2, duration, hp.1]; push_cast; ring
  | .cond l buf b, hs, hq, hp => by
    rw [Simple] at hs
    rw [Seq] at hq
    rw [Plain] at hp
    have ih := goodN b hs.2 hq hp.2
    refine ⟨goodN_cond hs.1 ih.1, ?_⟩
    rw [depth, ownDepth_eq hs.1, ih.2, duration, hp.1]; ring
  | .sched r its, hs, hq, hp => by
    rw [Simple] at hs
    rw [Seq] at hq
    rw [Plain] at hp
    obtain ⟨hr, hne, hp⟩ := hp
    have hdd : depth (.sched r its) = latest 0 its + 1 := by
      show ownDepth (.sched r its) = _
      rw [ownDepth, duration, hr]
      push_cast; ring
    refine ⟨?_, by rw [hdd, duration, hr]; push_cast; ring⟩
    cases its with
    | nil => exact absurd rfl hne
    | cons u n rest =>
      rw [SimpleItems] at hs
      rw [SeqItems] at hq
      rw [PlainItems] at hp
      obtain ⟨hu, hqn, hqr⟩ := hq
      have ihn := goodN n hs.1 hqn hp.1
      have ihr := goodItems rest hs.2 hp.2
      obtain ⟨⟨k, hk⟩, hgn⟩ := ihn.1
      have hdur : duration n = k := by have := ihn.2; rw [hk] at this; linarith
      have hlat : latest 0 (.cons u n rest) = latest (k : Nat) rest := by
        rw [latest, hu, hdur]; congr 1; rw [zero_add]; exact max_eq_left (Nat.cast_nonneg _)
      rw [GoodN, hdd, hlat]
      simp only [leaves, leavesItems]
      have hsome : SeqItems (some ((0 : Nat), ((k + 1 : Nat) : Rat))) rest := by
        have : u + depth n = ((k + 1 : Nat) : Rat) := by rw [hu, hk]; push_cast; ring
        rw [this, hu] at hqr
        simpa using hqr
      refine ⟨?_, ?_⟩
      · obtain ⟨m, hm⟩ := (ihr 0 (k + 1) k hsome).1
        exact ⟨m, by rw [hm]⟩
      · intro T pre hn hT
        have hTu : (T : Rat) + u = T := by rw [hu, add_zero]
        rw [hTu]
        obtain ⟨hn1, hm1, hc1⟩ := hgn T pre hn hT
        have hk' : (T : Rat) + depth n - 1 = T + k := by rw [hk]; ring
        rw [hk'] at hm1
        have hge : (T : Rat) + k ≤ runMax (pre ++ leaves T n) := by rw [hm1]; exact le_max_right _ _
        obtain ⟨hn2, hm2, hc2⟩ := (ihr 0 (k + 1) k hsome).2 T (pre ++ leaves T n) hn1 hge
          (by have : (0 : Rat) ≤ k := Nat.cast_nonneg k
              push_cast; linarith) (by push_cast; linarith)
        rw [← List.append_assoc]
        refine ⟨hn2, ?_, ?_⟩
        · rw [hm2, hm1]
          have hl : (k : Rat) ≤ latest (k : Nat) rest := latest_mono rest _
          rw [max_assoc, max_eq_right (a := (T : Rat) + k) (by linarith)]
          congr 1; ring
        · intro a t o b hab
          rcases split_append hab with ⟨b', hb'⟩ | ⟨a', rfl, ha'⟩
          · exact hc1 a t o b' hb'
          · have := hc2 a' t o b ha'
            simpa using this
theorem goodItems : ∀ (its : Items), SimpleItems its → PlainItems its → ∀ (p q m : Nat),
    SeqItems (some ((p : Rat), (q : Rat))) its →
    (∃ k : Nat, latest (m : Rat) its = k) ∧
    ∀ (T : Nat) (pre : List (Rat × Op)), Nice pre → (T : Rat) + m ≤ runMax pre → (T : Rat) + p ≤ runMax pre + 1 →
      (T : Rat) + q ≤ runMax pre + 1 →
      Nice (pre ++ leavesItems T its) ∧ runMax (pre ++ leavesItems T its) = max (runMax pre) (T + latest (m : Rat) its) ∧
      ∀ a t o b, leavesItems T its = a ++ (t, o) :: b → column (times (pre ++ a)) t = t ∧ ∃ k : Nat, t = k ∧ T ≤ k
  | .nil, hs, hp, p, q, m, hq => by
    refine ⟨⟨m, by rw [latest]⟩, ?_⟩
    intro T pre hn hm hT hT'
    rw [leavesItems, latest]
    simp only [List.append_nil]
    refine ⟨hn, (max_eq_left hm).symm, ?_⟩
    intro a t o b hab; simp at hab
  | .cons u n rest, hs, hp, p, q, m, hq => by
    rw [SimpleItems] at hs
    rw [PlainItems] at hp
    rw [SeqItems] at hq
    obtain ⟨hu, hqn, hqr⟩ := hq
    have ihn := goodN n hs.1 hqn hp.1
    obtain ⟨⟨k, hk⟩, hgn⟩ := ihn.1
    have hdur : duration n = k := by have := ihn.2; rw [hk] at this; linarith
    obtain ⟨v, hv⟩ : ∃ v : Nat, u = v ∧ (v = p ∨ v = q) := by
      rcases hu with rfl | rfl
      · exact ⟨p, rfl, Or.inl rfl⟩
      · exact ⟨q, rfl, Or.inr rfl⟩
    obtain ⟨rfl, hvpq⟩ := hv
    have hsome : SeqItems (some ((v : Rat), ((v + k + 1 : Nat) : Rat))) rest := by
      have : (v : Rat) + depth n = ((v + k + 1 : Nat) : Rat) := by rw [hk]; push_cast; ring
      rw [this] at hqr
      exact hqr
    have hlat : latest (m : Rat) (.cons v n rest) = latest ((max (v + k) m : Nat) : Rat) rest := by
      rw [latest, hdur]; push_cast; rfl
    have ihr := goodItems rest hs.2 hp.2 v (v + k + 1) (max (v + k) m) hsome
    rw [hlat]
    refine ⟨ihr.1, ?_⟩
    intro T pre hn hm hT hT'
    rw [leavesItems]
    have hTu : (T : Rat) + v = ((T + v : Nat) : Rat) := by push_cast; rfl
    have hle : ((T + v : Nat) : Rat) ≤ runMax pre + 1 := by
      rw [← hTu]; rcases hvpq with rfl | rfl <;> assumption
    obtain ⟨hn1, hm1, hc1⟩ := hgn (T + v) pre hn hle
    rw [hTu]
    have hk' : ((T + v : Nat) : Rat) + depth n - 1 = T + v + k := by rw [hk]; push_cast; ring
    rw [hk'] at hm1
    have hge : (T : Rat) + v + k ≤ runMax (pre ++ leaves ((T + v : Nat) : Rat) n) := by rw [hm1]; exact le_max_right _ _
    have hge' : runMax pre ≤ runMax (pre ++ leaves ((T + v : Nat) : Rat) n) := by rw [hm1]; exact le_max_left _ _
    have hk0 : (0 : Rat) ≤ k := Nat.cast_nonneg k
    have aux : ∀ R : Rat, (T : Rat) + v + k ≤ R → runMax pre ≤ R → (T : Rat) + ((max (v + k) m : Nat) : Rat) ≤ R ∧
        (T : Rat) + v ≤ R + 1 ∧ (T : Rat) + ((v + k + 1 : Nat) : Rat) ≤ R + 1 := by
      intro R h1 h2
      push_cast
      refine ⟨?_, by linarith, by linarith⟩
      rcases le_total ((v : Rat) + k) m with h | h
      · rw [max_eq_right h]; linarith
      · rw [max_eq_left h]; linarith
    obtain ⟨x1, x2, x3⟩ := aux _ hge hge'
    obtain ⟨hn2, hm2, hc2⟩ := ihr.2 T (pre ++ leaves ((T + v : Nat) : Rat) n) hn1 x1 x2 x3
    rw [← List.append_assoc]
    refine ⟨hn2, ?_, ?_⟩
    · rw [hm2, hm1]
      have hl : ((max (v + k) m : Nat) : Rat) ≤ latest ((max (v + k) m : Nat) : Rat) rest := latest_mono rest _
      have hl2 : (v : Rat) + k ≤ ((max (v + k) m : Nat) : Rat) := by push_cast; exact le_max_left _ _
      rw [max_assoc, max_eq_right (a := (T : Rat) + v + k) (by linarith)]
    · intro a t o b hab
      rcases split_append hab with ⟨b', hb'⟩ | ⟨a', rfl, ha'⟩
      · obtain ⟨h1, k', h2, h3⟩ := hc1 a t o b' hb'
        exact ⟨h1, k', h2, by omega⟩
      · have := hc2 a' t o b ha'
        simpa using this
end

theorem goodTop : ∀ (its : Items), SimpleItems its → PlainTop.PlainTopItems its → ∀ (prev : Option (Nat × Nat)),
    SeqItems (prev.map (fun x => ((x.1 : Rat), (x.2 : Rat)))) its →
    ∀ (pre : List (Rat × Op)), Nice pre →
      (∀ p q, prev = some (p, q) → (p : Rat) ≤ runMax pre + 1 ∧ (q : Rat) ≤ runMax pre + 1) →
      ∀ a t o b, leavesItems 0 its = a ++ (t, o) :: b → column (times (pre ++ a)) t = t ∧ ∃ k : Nat, t = k
  | .nil, hs, hp, prev, hq, pre, hn, hprev, a, t, o, b, hab => by rw [leavesItems] at hab; simp at hab
  | .cons u n rest, hs, hp, prev, hq, pre, hn, hprev, a, t, o, b, hab => by
    rw [SimpleItems] at hs
    have hpr : PlainTop.PlainTopItems rest := by
      cases n <;> · rw [PlainTop.PlainTopItems] at hp; first | exact hp.2 | skip
                    all_goals simp
    have hv : ∃ v : Nat, u = v ∧ (v : Rat) ≤ runMax pre + 1 ∧ Seq n ∧ SeqItems (some (u, u + depth n)) rest := by
      cases prev with
      | none =>
        simp only [Option.map_none] at hq
        rw [SeqItems] at hq
        have h0 : (0 : Rat) ≤ runMax pre := by rw [hn]; exact Nat.cast_nonneg _
        exact ⟨0, by rw [hq.1]; simp, by push_cast; linarith, hq.2⟩
      | some pq =>
        obtain ⟨p, q⟩ := pq
        simp only [Option.map_some] at hq
        rw [SeqItems] at hq
        obtain ⟨h1, h2⟩ := hprev p q rfl
        rcases hq.1 with h | h
        · exact ⟨p, h, h1, hq.2⟩
        · exact ⟨q, h, h2, hq.2⟩
    obtain ⟨v, rfl, hle, hqn, hqr⟩ := hv
    have hgn : GoodN n := by
      cases n with
      | op o =>
        rw [PlainTop.PlainTopItems] at hp
        · exact (goodN _ hs.1 hqn hp.1).1
        all_goals simp
      | sched r its =>
        rw [PlainTop.PlainTopItems] at hp
        · exact (goodN _ hs.1 hqn hp.1).1
        all_goals simp
      | loop r b =>
        rw [PlainTop.PlainTopItems] at hp
        have hs1 := hs.1
        rw [Simple] at hs1
        rw [Seq] at hqn
        exact goodN_loop hs1.1 (goodN b hs1.2 hqn hp.1).1
      | cond l buf b =>
        rw [PlainTop.PlainTopItems] at hp
        have hs1 := hs.1
        rw [Simple] at hs1
        rw [Seq] at hqn
        exact goodN_cond hs1.1 (goodN b hs1.2 hqn hp.1).1
    obtain ⟨⟨k, hk⟩, hg⟩ := hgn
    obtain ⟨hn1, hm1, hc1⟩ := hg v pre hn hle
    rw [leavesItems, zero_add] at hab
    rcases split_append hab with ⟨b', hb'⟩ | ⟨a', rfl, ha'⟩
    · obtain ⟨h1, k', h2, -⟩ := hc1 a t o b' hb'
      exact ⟨h1, k', h2⟩
    · have hk' : (v : Rat) + depth n - 1 = v + k := by rw [hk]; ring
      rw [hk'] at hm1
      have hge : (v : Rat) + k ≤ runMax (pre ++ leaves (v : Rat) n) := by rw [hm1]; exact le_max_right _ _
      have hk0 : (0 : Rat) ≤ k := Nat.cast_nonneg k
      have hsome : SeqItems ((some (v, v + k + 1)).map (fun x : Nat × Nat => ((x.1 : Rat), (x.2 : Rat)))) rest := by
        simp only [Option.map_some]
        have : (v : Rat) + depth n = ((v + k + 1 : Nat) : Rat) := by rw [hk]; push_cast; ring
        rw [this] at hqr
        exact hqr
      have := goodTop rest hs.2 hpr (some (v, v + k + 1)) hsome (pre ++ leaves (v : Rat) n) hn1 (by
        intro p q hpq
        simp only [Option.some.injEq, Prod.mk.injEq] at hpq
        obtain ⟨rfl, rfl⟩ := hpq
        refine ⟨by linarith, by push_cast; linarith⟩) a' t o b ha'
      simpa using this

/-- **Columns.**  If operations are added after or together with the one before, and only what the schedule directly contains
is repeated, every operation is drawn in the column of its time.  Missing: other schedules, where the code is wrong (see
`Examples.out_of_sight`). -/
theorem columns_partial (h1 : Simple s) (h2 : Seq s) (h3 : PlainTop s) {pre post : List (Rat × Op)} {t : Rat} {o : Op}
    (h : leaves 0 s = pre ++ (t, o) :: post) : column (times pre) t = t ∧ ∃ k : Nat, t = k := by
  cases s with
  | sched r its =>
    rw [Simple] at h1
    rw [Seq] at h2
    rw [leaves] at h
    have := goodTop its h1 h3 none (by simpa using h2) [] (by simp [Nice, runMax, times, steps, stepsFrom]) (by simp)
      pre t o post h
    simpa using this
  | _ => exact absurd h3 (by simp [PlainTop])

/-- **Nothing is drawn outside the diagram** in these schedules. -/
theorem visible_partial (hs : Fine order res s) (h2 : Seq s) (h3 : PlainTop s) {d : Diagram}
    (hd : diagram order res s = .ok d) {pre post : List (Rat × Op)} {t : Rat} {o : Op}
    (h : leaves 0 s = pre ++ (t, o) :: post) : d.left < column (times pre) t ∧ column (times pre) t < d.right := by
  obtain ⟨-, -, hl, hr⟩ := diagram_ok hs hd
  obtain ⟨hc, k, hk⟩ := columns_partial hs.simple h2 h3 h
  have hnice : ∀ (l : List (Rat × Op)) (post : List (Rat × Op)), leaves 0 s = l ++ post → Nice l := by
    intro l
    induction l using List.reverseRecOn with
    | nil => intro _ _; simp [Nice, runMax, times, steps, stepsFrom]
    | append_singleton l x ih =>
      intro post hp
      have hp' : leaves 0 s = l ++ (x.1, x.2) :: post := by rw [hp]; simp
      exact nice_snoc (ih _ hp') (columns_partial hs.simple h2 h3 hp').1
  have hall := hnice (leaves 0 s) [] (by simp)
  rw [Nice] at hall
  have hmax : t ≤ runMax (leaves 0 s) := by
    by_contra hcc
    rw [not_le, runMax_lt] at hcc
    exact lt_irrefl t (hcc.2 t (by rw [h]; simp [times]))
  rw [hl, hr, hc, ← hall]
  constructor
  · rw [hk]; have : (0 : Rat) ≤ k := Nat.cast_nonneg k; linarith
  · linarith

/-- **The brackets of a loop** span the columns of what is inside, if that comes after everything before the loop.  Missing:
loops at the start or together with other operations, where the code is wrong (see `Examples.first_loop`). -/
theorem brackets_span_partial (h1 : Simple s) (h2 : Seq s) (h3 : PlainTop s) {u : Use} (hu : u ∈ flows [] 0 s)
    (hlater : ∀ x ∈ u.inside, 0 < x.1 ∧ ∀ y ∈ u.before, y.1 < x.1) :
    (∀ x ∈ u.inside, ((steps (times u.before) + 1 : Nat) : Rat) ≤ x.1 ∧ x.1 ≤ steps (times (u.before ++ u.inside))) ∧
    (u.inside ≠ [] → (∃ x ∈ u.inside, x.1 = ((steps (times u.before) + 1 : Nat) : Rat)) ∧
      ∃ x ∈ u.inside, x.1 = steps (times (u.before ++ u.inside))) := by
  obtain ⟨c, hc⟩ := flows_prefix s [] 0 u hu
  rw [List.nil_append] at hc
  have hnice : ∀ (l : List (Rat × Op)) (post : List (Rat × Op)), leaves 0 s = l ++ post → Nice l := by
    intro l
    induction l using List.reverseRecOn with
    | nil => intro _ _; simp [Nice, runMax, times, steps, stepsFrom]
    | append_singleton l x ih =>
      intro post hp
      have hp' : leaves 0 s = l ++ (x.1, x.2) :: post := by rw [hp]; simp
      exact nice_snoc (ih _ hp') (columns_partial h1 h2 h3 hp').1
  have hn1 := hnice u.before (u.inside ++ c) (by rw [hc]; simp)
  have hn2 := hnice (u.before ++ u.inside) c hc
  rw [Nice] at hn1 hn2
  refine ⟨?_, ?_⟩
  · intro x hx
    obtain ⟨a, b, hab⟩ := List.append_of_mem hx
    obtain ⟨-, k, hk⟩ := columns_partial h1 h2 h3 (pre := u.before ++ a) (t := x.1) (o := x.2) (post := b ++ c)
      (by rw [hc, hab]; simp)
    constructor
    · have hlt : runMax u.before < x.1 := by
        rw [runMax_lt]
        refine ⟨(hlater x hx).1, ?_⟩
        intro v hv
        obtain ⟨y, hy, rfl⟩ := List.mem_map.1 hv
        exact (hlater x hx).2 y hy
      rw [hn1, hk] at hlt
      rw [hk]
      have : steps (times u.before) < k := by exact_mod_cast hlt
      exact_mod_cast this
    · rw [← hn2]
      by_contra hcc
      rw [not_le, runMax_lt] at hcc
      exact lt_irrefl _ (hcc.2 x.1 (List.mem_map.2 ⟨x, by simp [hx], rfl⟩))
  · intro hne
    constructor
    · cases hin : u.inside with
      | nil => exact absurd hin hne
      | cons x rest =>
        refine ⟨x, by simp, ?_⟩
        obtain ⟨hcol, -⟩ := columns_partial h1 h2 h3 (pre := u.before) (t := x.1) (o := x.2) (post := rest ++ c)
          (by rw [hc, hin]; simp)
        rw [column, if_pos] at hcol
        · rw [← hcol]; push_cast; rfl
        · have hx := hlater x (by rw [hin]; simp)
          refine ⟨hx.1, ?_⟩
          intro v hv
          obtain ⟨y, hy, rfl⟩ := List.mem_map.1 hv
          exact hx.2 y hy
    · rw [← hn2]
      have hmem : ∀ (l : List Rat) (a : Rat), l.foldl max a = a ∨ l.foldl max a ∈ l := by
        intro l
        induction l with
        | nil => intro a; left; rfl
        | cons b l ih =>
          intro a
          rw [List.foldl_cons]
          rcases ih (max a b) with h | h
          · rw [h]
            rcases le_total a b with hab | hab
            · right; rw [max_eq_right hab]; simp
            · left; exact max_eq_left hab
          · right; simp [h]
      obtain ⟨x, hx⟩ := List.exists_mem_of_ne_nil _ hne
      have hlo : ∀ y ∈ u.before ++ u.inside, y.1 ≤ runMax (u.before ++ u.inside) := by
        intro y hy
        by_contra hcc
        rw [not_le, runMax_lt] at hcc
        exact lt_irrefl _ (hcc.2 y.1 (List.mem_map.2 ⟨y, hy, rfl⟩))
      have hxle := hlo x (by simp [hx])
      rcases hmem (times (u.before ++ u.inside)) 0 with h | h
      · have hx0 := (hlater x hx).1
        rw [runMax, h] at hxle
        linarith
      · obtain ⟨y, hy, hyt⟩ := List.mem_map.1 h
        rcases List.mem_append.1 hy with hyb | hyi
        · have hlt := (hlater x hx).2 y hyb
          rw [hyt] at hlt
          rw [runMax] at hxle
          linarith
        · exact ⟨y, hyi, hyt⟩

end Verif.CircuitDiagram
