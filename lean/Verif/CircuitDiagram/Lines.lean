/-
The lines of device elements and ports.
-/
import Verif.CircuitDiagram.Lemmas
import Mathlib.Data.List.Perm.Subperm
import Mathlib.Data.List.TakeWhile

set_option linter.unusedSimpArgs false
set_option linter.unusedVariables false

namespace Verif.CircuitDiagram

theorem prefix_iff (p e : String) : Prefix p e ↔ e = owner p := by
  constructor
  · rintro ⟨hc, h⟩
    rcases h with rfl | ⟨rest, h⟩
    · rw [owner]
      have : List.takeWhile (fun c => c != ':') p.toList = p.toList := by
        rw [List.takeWhile_eq_self_iff]
        intro c hcm
        simp only [bne_iff_ne, ne_eq]
        rintro rfl; exact hc hcm
      rw [this, String.ofList_toList]
    · rw [owner, h]
      have : List.takeWhile (fun c => c != ':') (e.toList ++ ':' :: rest) = e.toList := by
        rw [List.takeWhile_append_of_pos]
        · simp
        · intro c hcm
          simp only [bne_iff_ne, ne_eq]
          rintro rfl; exact hc hcm
      rw [this, String.ofList_toList]
  · rintro rfl
    constructor
    · rw [owner, String.toList_ofList]
      intro h
      have := List.mem_takeWhile_imp h
      simp at this
    · rw [owner]
      by_cases h : ':' ∈ p.toList
      · right
        rw [String.toList_ofList]
        have hs := List.takeWhile_append_dropWhile (p := fun c => c != ':') (l := p.toList)
        cases hd : List.dropWhile (fun c => c != ':') p.toList with
        | nil =>
          rw [List.dropWhile_eq_nil_iff] at hd
          have := hd _ h
          simp at this
        | cons c rest =>
          have hne : List.dropWhile (fun c => c != ':') p.toList ≠ [] := by rw [hd]; simp
          have hh := List.head_dropWhile_not (fun c => c != ':') hne
          simp only [hd, List.head_cons] at hh
          have hc : c = ':' := by simpa using hh
          refine ⟨rest, ?_⟩
          rw [hc] at hd
          rw [← hd]; exact hs.symm
      · left
        have : List.takeWhile (fun c => c != ':') p.toList = p.toList := by
          rw [List.takeWhile_eq_self_iff]
          intro c hcm
          simp only [bne_iff_ne, ne_eq]
          rintro rfl; exact h hcm
        rw [this, String.ofList_toList]

theorem str_lt {a b : String} (h : ¬ a < b) (hne : a ≠ b) : b < a := by
  by_contra hc
  exact hne (String.le_antisymm (String.not_lt.1 hc) (String.not_lt.1 h))

theorem mem_insertSorted (e a : String) : ∀ l, a ∈ insertSorted e l ↔ a = e ∨ a ∈ l
  | [] => by simp [insertSorted]
  | b :: l => by
    rw [insertSorted]
    split
    · simp
    · split
      · rename_i h; subst h; simp
      · simp only [List.mem_cons, mem_insertSorted e a l]; tauto

theorem insertSorted_sorted (e : String) : ∀ l : List String, l.Pairwise (· < ·) → (insertSorted e l).Pairwise (· < ·)
  | [], h => by simp [insertSorted]
  | b :: l, h => by
    rw [List.pairwise_cons] at h
    rw [insertSorted]
    split
    · rename_i hlt
      rw [List.pairwise_cons, List.pairwise_cons]
      refine ⟨?_, h⟩
      intro x hx
      rcases List.mem_cons.1 hx with rfl | hx
      · exact hlt
      · exact String.lt_trans hlt (h.1 x hx)
    · rename_i hlt
      split
      · rw [List.pairwise_cons]; exact h
      · rename_i hne
        rw [List.pairwise_cons]
        refine ⟨?_, insertSorted_sorted e l h.2⟩
        intro x hx
        rcases (mem_insertSorted e x l).1 hx with rfl | hx
        · exact str_lt hlt hne
        · exact h.1 x hx

theorem mem_sortedSet (a : String) : ∀ l, a ∈ sortedSet l ↔ a ∈ l
  | [] => by simp [sortedSet]
  | b :: l => by rw [sortedSet, mem_insertSorted, mem_sortedSet a l, List.mem_cons]

theorem sortedSet_sorted : ∀ l : List String, (sortedSet l).Pairwise (· < ·)
  | [] => by simp [sortedSet]
  | b :: l => insertSorted_sorted b _ (sortedSet_sorted l)

theorem sortedSet_nodup (l : List String) : (sortedSet l).Nodup :=
  (sortedSet_sorted l).imp (fun h hc => by subst hc; exact String.lt_irrefl _ h)

theorem keys_enumFrom : ∀ (l : List String) (k : Nat), Dict.keys (enumFrom k l) = l
  | [], k => rfl
  | e :: l, k => by
    have := keys_enumFrom l (k + 1)
    simp only [Dict.keys] at this
    simp [enumFrom, Dict.keys, this]

/-- The number of names before `e`. -/
def before (l : List String) (e : String) : Nat := (l.filter (fun a => decide (a < e))).length

theorem get?_enumFrom (e : String) : ∀ (l : List String) (k : Nat), l.Pairwise (· < ·) → e ∈ l →
    Dict.get? (enumFrom k l) e = some (k + before l e)
  | [], k, h, he => by simp at he
  | a :: l, k, h, he => by
    rw [List.pairwise_cons] at h
    rw [enumFrom, Dict.get?_cons]
    by_cases hae : a = e
    · subst hae
      simp only [if_pos]
      have : before (a :: l) a = 0 := by
        rw [before, List.length_eq_zero_iff, List.filter_eq_nil_iff]
        intro x hx
        simp only [decide_eq_true_eq]
        rcases List.mem_cons.1 hx with rfl | hx
        · exact String.lt_irrefl _
        · exact String.lt_asymm (h.1 x hx)
      rw [this]; rfl
    · simp only [if_neg hae]
      have hel : e ∈ l := by
        rcases List.mem_cons.1 he with rfl | h'
        · exact absurd rfl hae
        · exact h'
      rw [get?_enumFrom e l (k + 1) h.2 hel]
      have : before (a :: l) e = before l e + 1 := by
        simp [before, h.1 e hel]
      rw [this]; congr 1; omega

/-- Ports that belong to no device element. -/
def alien (els : List String) (p : String) : Bool := decide (owner p ∉ els)

/-- The maps after some ports. -/
structure MapsOk (els : List String) (m : Maps) (done : List String) : Prop where
  other : m.other = done.any (alien els)
  elems : m.elems = if done.any (alien els) then
      Dict.set ((enumFrom 0 (sortedSet els)).map (fun e => (e.1, e.2 + 1))) "other" 0
    else enumFrom 0 (sortedSet els)
  keys : ∀ p, p ∈ Dict.keys m.ports ↔ p ∈ done
  ports : ∀ a p b, done = a ++ p :: b → Dict.get? m.ports p = some
    (if alien els p then 0 else before (sortedSet els) (owner p) + if a.any (alien els) then 1 else 0)

theorem get?_elems {els : List String} {m : Maps} {done : List String} (h : MapsOk els m done) (ho : "other" ∉ els)
    {e : String} (he : e ∈ els) :
    Dict.get? m.elems e = some (before (sortedSet els) e + if done.any (alien els) then 1 else 0) := by
  rw [h.elems]
  have h1 := get?_enumFrom e (sortedSet els) 0 (sortedSet_sorted els) ((mem_sortedSet e els).2 he)
  split
  · rw [Dict.get?_set_ne _ _ (by rintro rfl; exact ho he)]
    have := Dict.get?_map_val (enumFrom 0 (sortedSet els)) (fun v => v + 1) e
    rw [this, h1]; simp
  · rw [h1]; simp

theorem mapsOk_step {els : List String} (ho : "other" ∉ els) {m : Maps} {done : List String} (h : MapsOk els m done)
    (p : String) (hp : p ∉ done) : MapsOk els (mapPort els m p) (done ++ [p]) := by
  have key : ∀ (v : Nat) (ports' : List (String × Nat)), ports' = Dict.set m.ports p v →
      (v = if alien els p then 0 else before (sortedSet els) (owner p) + if done.any (alien els) then 1 else 0) →
      (∀ q, q ∈ Dict.keys ports' ↔ q ∈ done ++ [p]) ∧
      ∀ a q b, done ++ [p] = a ++ q :: b → Dict.get? ports' q = some
        (if alien els q then 0 else before (sortedSet els) (owner q) + if a.any (alien els) then 1 else 0) := by
    intro v ports' hp' hv
    subst hp'
    constructor
    · intro q
      rw [Dict.mem_keys_set, h.keys]; simp [or_comm]
    · intro a q b hab
      rcases List.append_eq_append_iff.1 hab with ⟨c, hc, hd⟩ | ⟨c, hc, hd⟩
      · cases c with
        | nil =>
          simp only [List.append_nil, List.nil_append, List.cons.injEq] at hc hd
          obtain ⟨rfl, -⟩ := hd
          rw [Dict.get?_set_self, hv, hc]
        | cons x c => simp at hd
      · cases c with
        | nil =>
          simp only [List.append_nil, List.nil_append, List.cons.injEq] at hc hd
          obtain ⟨rfl, -⟩ := hd
          rw [Dict.get?_set_self, hv, hc]
        | cons x c =>
          simp only [List.cons_append, List.cons.injEq] at hd
          obtain ⟨rfl, -⟩ := hd
          have hq : q ≠ p := by rintro rfl; exact hp (by rw [hc]; simp)
          rw [Dict.get?_set_ne _ _ hq]
          exact h.ports a q c hc
  have hany : (done ++ [p]).any (alien els) = (done.any (alien els) || alien els p) := by simp
  rw [mapPort]
  by_cases hown : owner p ∈ els
  · rw [if_pos hown]
    have hal : alien els p = false := by simp [alien, hown]
    have hge := get?_elems h ho hown
    have hk := key ((Dict.get? m.elems (owner p)).getD 0) _ rfl (by rw [hge, hal]; rfl)
    refine ⟨?_, ?_, hk.1, hk.2⟩
    · simp only; rw [hany, hal, Bool.or_false]; exact h.other
    · simp only; rw [hany, hal, Bool.or_false]; exact h.elems
  · rw [if_neg hown]
    have hal : alien els p = true := by simp [alien, hown]
    have hanyt : (done ++ [p]).any (alien els) = true := by rw [hany, hal]; simp
    cases hoth : m.other with
    | false =>
      have hk := key 0 _ rfl (by rw [hal]; rfl)
      refine ⟨?_, ?_, hk.1, hk.2⟩
      · simp [hanyt, alien, hown]
      · rw [hanyt]
        have he := h.elems
        rw [← h.other, hoth] at he
        simp only [Bool.not_false, if_true, he, Bool.false_eq_true, if_false]
    | true =>
      simp only [Bool.not_true, Bool.false_eq_true, if_false]
      have he := h.elems
      rw [← h.other, hoth, if_pos rfl] at he
      have hk := key ((Dict.get? m.elems "other").getD 0) _ rfl (by rw [hal, he, Dict.get?_set_self]; simp)
      refine ⟨?_, ?_, hk.1, hk.2⟩
      · simp only; rw [hanyt]
      · simp only; rw [hanyt, if_pos rfl]; exact he

theorem mapsOk_foldl {els : List String} (ho : "other" ∉ els) : ∀ (order : List String) (m : Maps) (done : List String),
    MapsOk els m done → (done ++ order).Nodup → MapsOk els (order.foldl (mapPort els) m) (done ++ order)
  | [], m, done, h, hn => by simpa using h
  | p :: order, m, done, h, hn => by
    have hp : p ∉ done := by
      rw [List.nodup_append] at hn
      intro hp; exact hn.2.2 p hp p (by simp) rfl
    have := mapsOk_foldl ho order (mapPort els m p) (done ++ [p]) (mapsOk_step ho h p hp) (by simpa using hn)
    simpa using this

theorem mapsOk {order : List String} {s : Node} (ho : "other" ∉ gateElems (onlyOps s)) (hn : order.Nodup) :
    MapsOk (gateElems (onlyOps s)) (maps order s) order := by
  have := mapsOk_foldl ho order ⟨enumFrom 0 (sortedSet (gateElems (onlyOps s))), [], false⟩ []
    ⟨by simp, by simp, by simp [Dict.keys], by simp⟩ (by simpa using hn)
  simpa [maps] using this

theorem mem_gateElems {s : Node} (h : Simple s) (e : String) : e ∈ gateElems (onlyOps s) ↔ IsElement s e := by
  rw [onlyOps_eq s 0 h, gateElems, IsElement]
  simp only [List.mem_flatMap, List.mem_map, elemsOf]
  constructor
  · rintro ⟨o, ⟨x, hx, rfl⟩, he⟩
    cases hg : x.2.gate with
    | none => rw [hg] at he; simp at he
    | some g => rw [hg] at he; exact ⟨x, hx, g, hg, he⟩
  · rintro ⟨x, hx, g, hg, he⟩
    exact ⟨x.2, ⟨x, hx, rfl⟩, by rw [hg]; exact he⟩

theorem owned_iff {s : Node} (h : Simple s) (p : String) : Owned s p ↔ owner p ∈ gateElems (onlyOps s) := by
  rw [mem_gateElems h, Owned]
  constructor
  · rintro ⟨e, he, hi⟩; rw [prefix_iff] at he; subst he; exact hi
  · intro hi; exact ⟨owner p, (prefix_iff _ _).2 rfl, hi⟩

theorem rank_before {s : Node} (h : Simple s) (e : String) (k : Nat) :
    Rank s e k ↔ k = before (sortedSet (gateElems (onlyOps s))) e := by
  have key : ∀ l : List String, l.Nodup → (∀ e', e' ∈ l ↔ IsElement s e' ∧ e' < e) →
      l.length = before (sortedSet (gateElems (onlyOps s))) e := by
    intro l hn hl
    rw [before]
    apply List.Perm.length_eq
    rw [List.perm_ext_iff_of_nodup hn ((sortedSet_nodup _).filter _)]
    intro a
    rw [hl, List.mem_filter, mem_sortedSet, mem_gateElems h]; simp
  constructor
  · rintro ⟨l, hn, hl, rfl⟩; exact key l hn hl
  · rintro rfl
    refine ⟨(sortedSet (gateElems (onlyOps s))).filter (fun a => decide (a < e)), (sortedSet_nodup _).filter _, ?_, rfl⟩
    intro e'
    rw [List.mem_filter, mem_sortedSet, mem_gateElems h]; simp

theorem foreign_iff {s : Node} (h : Simple s) {order : List String} (ho : IsOrder order s) (p : String) :
    Foreign s p ↔ p ∈ order ∧ alien (gateElems (onlyOps s)) p = true := by
  rw [Foreign, owned_iff h, ho.2]; simp [alien]

theorem any_foreign {s : Node} (h : Simple s) {order : List String} (ho : IsOrder order s) :
    order.any (alien (gateElems (onlyOps s))) = true ↔ ∃ p, Foreign s p := by
  simp only [List.any_eq_true, foreign_iff h ho]

/-- **The lines of the device elements.** -/
theorem elem_line {s : Node} (h : Simple s) {order : List String} (ho : IsOrder order s) (hother : ¬ IsElement s "other")
    {e : String} (he : IsElement s e) (n : Nat) :
    find (maps order s).elems e = .ok n ↔ ElemLine s e n := by
  have hne : "other" ∉ gateElems (onlyOps s) := by rw [mem_gateElems h]; exact hother
  have hm := mapsOk (order := order) hne ho.1
  have hge := get?_elems hm hne ((mem_gateElems h e).2 he)
  rw [find, hge, ElemLine]
  simp only [Except.ok.injEq, rank_before h, exists_eq_left, he, true_and]
  have hany := any_foreign h ho
  by_cases hf : ∃ p, Foreign s p
  · rw [if_pos (hany.2 hf)]; simp only [hf, not_true, false_and, or_false, true_and]; exact eq_comm
  · rw [if_neg (fun hc => hf (hany.1 hc))]; simp only [hf, not_false_iff, false_and, false_or, true_and]; exact eq_comm

/-- **The lines that ports are drawn on.** -/
theorem port_line {s : Node} (h : Simple s) {order : List String} (ho : IsOrder order s) (hother : ¬ IsElement s "other")
    (p : String) (n : Nat) : find (maps order s).ports p = .ok n ↔ DrawnLine order s p n := by
  have hne : "other" ∉ gateElems (onlyOps s) := by rw [mem_gateElems h]; exact hother
  have hm := mapsOk (order := order) hne ho.1
  by_cases hp : p ∈ order
  · obtain ⟨a, b, hab⟩ := List.append_of_mem hp
    have hg := hm.ports a p b hab
    have huniq : (∃ a' q b', order = a' ++ p :: b' ∧ q ∈ a' ∧ Foreign s q) ↔ a.any (alien (gateElems (onlyOps s))) = true := by
      constructor
      · rintro ⟨a', q, b', hab', hq, hfq⟩
        have haa : a' = a := by
          have hn := ho.1
          have h1 : p ∉ a := by
            rw [hab, List.nodup_append] at hn
            intro hc; exact hn.2.2 p hc p (by simp) rfl
          have h2 : p ∉ a' := by
            rw [hab', List.nodup_append] at hn
            intro hc; exact hn.2.2 p hc p (by simp) rfl
          rw [hab] at hab'
          rcases List.append_eq_append_iff.1 hab' with ⟨c, hc, hd⟩ | ⟨c, hc, hd⟩
          · cases c with
            | nil => simpa using hc
            | cons x c =>
              simp only [List.cons_append, List.cons.injEq] at hd
              exact absurd (by rw [hc, hd.1]; simp) h2
          · cases c with
            | nil => simpa using hc.symm
            | cons x c =>
              simp only [List.cons_append, List.cons.injEq] at hd
              exact absurd (by rw [hc, hd.1]; simp) h1
        subst haa
        rw [List.any_eq_true]
        exact ⟨q, hq, ((foreign_iff h ho q).1 hfq).2⟩
      · intro hany
        rw [List.any_eq_true] at hany
        obtain ⟨q, hq, hal⟩ := hany
        exact ⟨a, q, b, hab, hq, (foreign_iff h ho q).2 ⟨by rw [hab]; simp [hq], hal⟩⟩
    rw [find, hg, DrawnLine, huniq]
    simp only [Except.ok.injEq, (ho.2 p).1 hp, true_and, prefix_iff, exists_eq_left, rank_before h, owned_iff h,
      ]
    simp only [← mem_gateElems h]
    by_cases hal : owner p ∈ gateElems (onlyOps s)
    · have hax : alien (gateElems (onlyOps s)) p = false := by simp [alien, hal]
      rw [hax]
      simp only [Bool.false_eq_true, if_false, hal, not_true, false_and, false_or]
      by_cases hf : a.any (alien (gateElems (onlyOps s))) = true
      · rw [if_pos hf]
        constructor
        · rintro rfl; exact ⟨_, _, rfl, hal, rfl, Or.inl ⟨hf, rfl⟩⟩
        · rintro ⟨e, k, rfl, -, rfl, ⟨-, rfl⟩ | ⟨hc, -⟩⟩
          · rfl
          · exact absurd hf hc
      · rw [if_neg hf]
        constructor
        · rintro rfl; exact ⟨_, _, rfl, hal, rfl, Or.inr ⟨hf, rfl⟩⟩
        · rintro ⟨e, k, rfl, -, rfl, ⟨hc, -⟩ | ⟨-, rfl⟩⟩
          · exact absurd hc hf
          · rfl
    · have hax : alien (gateElems (onlyOps s)) p = true := by simp [alien, hal]
      rw [hax]
      simp only [if_true, hal, not_false_iff, true_and]
      constructor
      · rintro rfl; exact Or.inl rfl
      · rintro (rfl | ⟨e, k, rfl, hc, -⟩)
        · rfl
        · exact absurd hc hal
  · have : Dict.get? (maps order s).ports p = none := by
      rw [Dict.get?_eq_none_iff, hm.keys]; exact hp
    rw [find, this, DrawnLine]
    simp only [reduceCtorEq, false_iff, not_and]
    intro hc; exact absurd ((ho.2 p).2 hc) hp

theorem length_map_elems {s : Node} (h : Simple s) {order : List String} (ho : IsOrder order s)
    (hother : ¬ IsElement s "other") : LineCount s (maps order s).elems.length := by
  have hne : "other" ∉ gateElems (onlyOps s) := by rw [mem_gateElems h]; exact hother
  have hm := mapsOk (order := order) hne ho.1
  have hlen : (enumFrom 0 (sortedSet (gateElems (onlyOps s)))).length = (sortedSet (gateElems (onlyOps s))).length := by
    have := keys_enumFrom (sortedSet (gateElems (onlyOps s))) 0
    rw [← congrArg List.length this, Dict.keys, List.length_map]
  refine ⟨sortedSet (gateElems (onlyOps s)), sortedSet_nodup _, fun e => by rw [mem_sortedSet, mem_gateElems h], ?_⟩
  have hany := any_foreign h ho
  by_cases hf : ∃ p, Foreign s p
  · left
    refine ⟨hf, ?_⟩
    rw [hm.elems, if_pos (hany.2 hf)]
    have hk := Dict.keys_set ((enumFrom 0 (sortedSet (gateElems (onlyOps s)))).map (fun e => (e.1, e.2 + 1))) "other" 0
    have hkm : Dict.keys ((enumFrom 0 (sortedSet (gateElems (onlyOps s)))).map (fun e => (e.1, e.2 + 1))) =
        sortedSet (gateElems (onlyOps s)) := by
      have := keys_enumFrom (sortedSet (gateElems (onlyOps s))) 0
      simp only [Dict.keys] at this
      simp only [Dict.keys, List.map_map]
      exact this
    rw [hkm, if_neg (by rw [mem_sortedSet]; exact hne)] at hk
    have := congrArg List.length hk
    rw [Dict.keys, List.length_map, List.length_append] at this
    rw [this]; simp
  · right
    refine ⟨hf, ?_⟩
    rw [hm.elems, if_neg (fun hc => hf (hany.1 hc)), hlen]

/-- Lines are numbered from 0. -/
theorem elem_line_lt {s : Node} (h : Simple s) {order : List String} (ho : IsOrder order s)
    (hother : ¬ IsElement s "other") {e : String} {n k : Nat} (hk : Rank s e k) (he : IsElement s e) (hc : LineCount s n) :
    k < n ∧ ((∃ p, Foreign s p) → k + 1 < n) := by
  obtain ⟨l, hn, hl, hh⟩ := hc
  obtain ⟨l', hn', hl', rfl⟩ := hk
  have hlt : l'.length < l.length := by
    have hsub : (e :: l') ⊆ l := by
      intro x hx
      rcases List.mem_cons.1 hx with rfl | hx
      · exact (hl _).2 he
      · exact (hl x).2 ((hl' x).1 hx).1
    have hnd : (e :: l').Nodup := by
      rw [List.nodup_cons]
      exact ⟨fun hc => String.lt_irrefl _ ((hl' e).1 hc).2, hn'⟩
    have := (List.subperm_of_subset hnd hsub).length_le
    simp only [List.length_cons] at this
    omega
  rcases hh with ⟨hf, rfl⟩ | ⟨hf, rfl⟩
  · exact ⟨by omega, fun _ => by omega⟩
  · exact ⟨hlt, fun hc => absurd hc hf⟩

end Verif.CircuitDiagram
