/-
Lemmas for the JSON round trip.
-/
import Verif.Json.Spec

set_option linter.unusedSimpArgs false
set_option linter.unusedVariables false

namespace Verif.Json
open Spec

theorem listifyL_eq (l : List Val) : listifyL l = l.map listify := by
  induction l with
  | nil => simp [listifyL]
  | cons v l ih => simp [listifyL, ih]

theorem listifyD_eq (d : List (Key × Val)) :
    listifyD d = d.map (fun e => (listifyKey e.1, listify e.2)) := by
  induction d with
  | nil => simp [listifyD]
  | cons e d ih => obtain ⟨k, v⟩ := e; simp [listifyD, ih]

theorem foldl_set_append {K V : Type} [DecidableEq K] (acc l : List (K × V))
    (h : (Dict.keys (acc ++ l)).Nodup) :
    l.foldl (fun d e => Dict.set d e.1 e.2) acc = acc ++ l := by
  induction l generalizing acc with
  | nil => simp
  | cons e l ih =>
    have hn : e.1 ∉ Dict.keys acc := by
      intro hm
      simp only [Dict.keys, List.map_append, List.map_cons] at h hm
      exact (List.nodup_append.mp h).2.2 _ hm _ List.mem_cons_self rfl
    have hs : Dict.set acc e.1 e.2 = acc ++ [e] := by
      unfold Dict.set
      rw [if_neg]
      intro hc
      exact hn ((Dict.any_iff acc e.1).mp hc)
    simp only [List.foldl_cons, hs]
    rw [ih]
    · simp
    · simpa using h

theorem ofItems_nodup {l : List (Key × Val)} (h : (l.map Prod.fst).Nodup) : ofItems l = l := by
  unfold ofItems
  rw [foldl_set_append]
  · simp
  · simpa [Dict.keys] using h

theorem set_map {K V : Type} [DecidableEq K] {d : List (K × V)} {k : K} {v : V}
    (h : k ∈ Dict.keys d) :
    Dict.set d k v = d.map (fun e => if e.1 = k then (k, v) else e) := by
  unfold Dict.set
  rw [if_pos ((Dict.any_iff d k).mpr h)]
  apply List.map_congr_left
  intro e _
  simp

theorem strKeys_listify {d : List (Key × Val)} (h : ∀ e ∈ d, ∃ s, e.1 = Key.str s) :
    (d.map (fun e => (listifyKey e.1, listify e.2))).map Prod.fst = d.map Prod.fst := by
  rw [List.map_map]
  apply List.map_congr_left
  intro e he
  obtain ⟨s, hs⟩ := h e he
  simp [hs, listifyKey]

/-- The value is written, and what is written is read back. -/
def RT (E : Env) (v : Val) : Prop := ∃ j, enc E v = .ok j ∧ dec E j = .ok (listify v)

theorem encList_rt (E : Env) {l : List Val} (h : ∀ v ∈ l, RT E v) :
    ∃ js, encList E l = .ok js ∧ decList E js = .ok (l.map listify) := by
  induction l with
  | nil => exact ⟨[], by simp [encList, decList]⟩
  | cons v l ih =>
    obtain ⟨j, h1, h2⟩ := h v List.mem_cons_self
    obtain ⟨js, h3, h4⟩ := ih (fun w hw => h w (List.mem_cons_of_mem _ hw))
    refine ⟨j :: js, ?_, ?_⟩
    · simp only [encList, h1, h3]; rfl
    · simp only [decList, h2, h4]; rfl

theorem encDict_rt (E : Env) {d : List (Key × Val)} (hk : ∀ e ∈ d, ∃ s, e.1 = Key.str s)
    (h : ∀ e ∈ d, RT E e.2) :
    ∃ js, encDict E d = .ok js ∧ decMembers E js = .ok (listifyD d) := by
  induction d with
  | nil => exact ⟨[], by simp [encDict, decMembers, listifyD]⟩
  | cons e d ih =>
    obtain ⟨k, v⟩ := e
    obtain ⟨s, hs⟩ := hk _ List.mem_cons_self
    simp only at hs
    subst hs
    obtain ⟨j, h1, h2⟩ := h _ List.mem_cons_self
    obtain ⟨js, h3, h4⟩ := ih (fun e he => hk e (List.mem_cons_of_mem _ he))
      (fun e he => h e (List.mem_cons_of_mem _ he))
    simp only at h1 h2
    refine ⟨(s, j) :: js, ?_, ?_⟩
    · simp only [encDict, h1, h3, keyText]; rfl
    · simp only [decMembers, h2, h4, listifyD, listifyKey]; rfl

theorem get?_str_none {d : List (Key × Val)}
    (h : ∀ e ∈ d, ∃ s, e.1 = Key.str s ∧ s ≠ "deserialization_type") :
    Dict.get? d (.str DT) = none := by
  rw [Dict.get?_eq_none_iff]
  intro hm
  simp only [Dict.keys, List.mem_map] at hm
  obtain ⟨e, he, h1⟩ := hm
  obtain ⟨s, hs, hne⟩ := h e he
  rw [h1] at hs
  exact hne (by simpa [DT] using hs.symm)

/-- A dictionary without the reserved key is read as itself. -/
theorem dec_obj_plain (E : Env) {js : List (String × Json)} {d : List (Key × Val)}
    (h : decMembers E js = .ok d)
    (hk : ∀ e ∈ d, ∃ s, e.1 = Key.str s ∧ s ≠ "deserialization_type")
    (hn : (d.map Prod.fst).Nodup) : dec E (.obj js) = .ok (.dict d) := by
  simp only [dec, h, bind, Except.bind]
  rw [ofItems_nodup hn, decodeDict, get?_str_none hk]

theorem after {d : List (Key × Val)} (h : StrKeys d) :
    (∀ e ∈ listifyD d, ∃ s, e.1 = Key.str s ∧ s ≠ "deserialization_type") ∧
    ((listifyD d).map Prod.fst).Nodup := by
  constructor
  · intro e he
    rw [listifyD_eq, List.mem_map] at he
    obtain ⟨e', he', rfl⟩ := he
    obtain ⟨s, hs, hne⟩ := h.1 e' he'
    exact ⟨s, by simp [hs, listifyKey], hne⟩
  · rw [listifyD_eq, strKeys_listify (fun e he => (h.1 e he).imp fun s hs => hs.1)]
    exact h.2

theorem dict_rt (E : Env) {d : List (Key × Val)} (hk : StrKeys d) (h : ∀ e ∈ d, RT E e.2) :
    ∃ js, encDict E d = .ok js ∧ dec E (.obj js) = .ok (.dict (listifyD d)) := by
  obtain ⟨js, h1, h2⟩ := encDict_rt E (fun e he => (hk.1 e he).imp fun s hs => hs.1) h
  exact ⟨js, h1, dec_obj_plain E h2 (after hk).1 (after hk).2⟩

/-- Reading an object with a state. -/
theorem dec_state (E : Env) {k : Kind} {q : String} {js : List (String × Json)} {v : Val}
    (hq : Known E k q) (h : dec E (.obj js) = .ok v) :
    dec E (state q js) = setState (.user k q) [(.str DT, .str q), (.str "data", v)] := by
  have hd : decMembers E [(DT, .str q), ("data", .obj js)] =
      .ok [(Key.str DT, Val.str q), (Key.str "data", v)] := by
    have h0 : dec E (.str q) = .ok (.str q) := by simp [dec]
    simp only [decMembers, h, h0]; rfl
  unfold state
  rw [dec, hd]
  simp only [bind, Except.bind]
  have hn : ofItems [(Key.str DT, Val.str q), (Key.str "data", v)] =
      [(Key.str DT, Val.str q), (Key.str "data", v)] := by
    apply ofItems_nodup
    simp [DT]
  rw [hn, decodeDict]
  have h1 : Dict.get? [(Key.str DT, Val.str q), (Key.str "data", v)] (Key.str DT) =
      some (Val.str q) := by simp [Dict.get?_cons]
  have h2 : Dict.get? [(Key.str DT, Val.str q), (Key.str "data", v)] (Key.str "mode") = none := by
    simp [Dict.get?_cons, DT, Dict.get?_nil]
  have h3 : resolve E q = .ok (.user k q) := by
    obtain ⟨hr, hi⟩ := hq
    simp only [reserved, List.mem_cons, List.not_mem_nil, or_false, not_or] at hr
    simp [resolve, defaultNames, enumNames, hr, hi]
  rw [h1]
  simp only [h3, bind, Except.bind, h2]

theorem stateData_state (q : String) (d : List (Key × Val)) :
    stateData [(.str DT, .str q), (.str "data", .dict d)] = .ok d := by
  simp [stateData, Dict.get?_cons, DT]

/-! ### Operations -/

theorem get?_of_mem' {d : List (Key × Val)} (h : (d.map Prod.fst).Nodup) {k : Key} {v : Val}
    (hm : (k, v) ∈ d) : Dict.get? d k = some v := Dict.get?_of_mem h hm

theorem mem_listifyD {d : List (Key × Val)} {s : String} {v : Val} (h : (Key.str s, v) ∈ d) :
    (Key.str s, listify v) ∈ listifyD d := by
  rw [listifyD_eq]
  exact List.mem_map.mpr ⟨_, h, rfl⟩

theorem num_number {v : Val} {x : Rat} (h : Number v x) : num (listify v) = some x := by
  cases h <;> simp [listify, num]

theorem infoEnd_rt {v : Val} {x : Rat} (hok : ∀ I, v = .dict I → StrKeys I) (h : EndOf v x) :
    infoEnd (listify v) = .ok x := by
  obtain ⟨I, a, b, t, u, rfl, ha, hb, hna, hnb, rfl⟩ := h
  have hn := (after (hok I rfl)).2
  simp only [listify, infoEnd, get?_of_mem' hn (mem_listifyD ha), get?_of_mem' hn (mem_listifyD hb),
    num_number hna, num_number hnb]

theorem mapM_infoEnd {l : List Val} {ends : List Rat}
    (hok : ∀ v ∈ l, ∀ I, v = .dict I → StrKeys I) (h : List.Forall₂ EndOf l ends) :
    (l.map listify).mapM infoEnd = .ok ends := by
  induction h with
  | nil => rfl
  | cons h1 _ ih =>
    rw [List.map_cons, List.mapM_cons, infoEnd_rt (hok _ List.mem_cons_self) h1,
      ih (fun v hv => hok v (List.mem_cons_of_mem _ hv))]
    rfl

theorem foldl_max (l : List Rat) (x : Rat) :
    (∀ y ∈ x :: l, y ≤ l.foldl max x) ∧ l.foldl max x ∈ x :: l := by
  induction l generalizing x with
  | nil => simp
  | cons y l ih =>
    simp only [List.foldl_cons]
    obtain ⟨h1, h2⟩ := ih (max x y)
    constructor
    · intro z hz
      simp only [List.mem_cons] at hz
      have hm := h1 (max x y) List.mem_cons_self
      rcases hz with rfl | rfl | hz
      · exact le_trans (le_max_left _ _) hm
      · exact le_trans (le_max_right _ _) hm
      · exact h1 z (List.mem_cons_of_mem _ hz)
    · rcases List.mem_cons.mp h2 with h | h
      · rw [h]
        rcases max_choice x y with hc | hc <;> rw [hc] <;> simp
      · exact List.mem_cons_of_mem _ (List.mem_cons_of_mem _ h)

theorem maxDefault_largest {l : List Rat} {r : Rat} (h : Largest l r) : maxDefault l = r := by
  rcases h with ⟨rfl, rfl⟩ | ⟨hm, hle⟩
  · rfl
  · cases l with
    | nil => simp at hm
    | cons x l =>
      obtain ⟨h1, h2⟩ := foldl_max l x
      exact le_antisymm (hle _ h2) (h1 _ hm)

end Verif.Json
