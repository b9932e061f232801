/-
Lemmas for the JSON round trip: operations, schedules, compiled schedules.
-/
import Verif.Json.Lemmas

set_option linter.unusedSimpArgs false
set_option linter.unusedVariables false

namespace Verif.Json
open Spec

theorem ok_dict {E : Env} {d : List (Key × Val)} (h : Ok E (.dict d)) :
    StrKeys d ∧ ∀ e ∈ d, Ok E e.2 := by
  cases h with
  | dict _ h1 h2 => exact ⟨h1, h2⟩

theorem ok_list {E : Env} {l : List Val} (h : Ok E (.list l)) : ∀ v ∈ l, Ok E v := by
  cases h with
  | list _ h1 => exact h1

theorem mem_of_listifyD {d : List (Key × Val)} (hk : ∀ e ∈ d, ∃ s, e.1 = Key.str s) {s : String}
    {w : Val} (h : (Key.str s, w) ∈ listifyD d) : ∃ v, (Key.str s, v) ∈ d ∧ w = listify v := by
  rw [listifyD_eq, List.mem_map] at h
  obtain ⟨⟨k, v⟩, he, h1⟩ := h
  obtain ⟨t, ht⟩ := hk _ he
  simp only at ht
  subst ht
  simp only [listifyKey, Prod.mk.injEq, Key.str.injEq] at h1
  obtain ⟨rfl, rfl⟩ := h1
  exact ⟨v, he, rfl⟩

theorem keysOf {d : List (Key × Val)} (h : StrKeys d) : ∀ e ∈ d, ∃ s, e.1 = Key.str s :=
  fun e he => (h.1 e he).imp fun _ hs => hs.1

theorem legacy_rt {E : Env} {d : List (Key × Val)} {r : Rat} (hk : StrKeys d)
    (hd : ∀ e ∈ d, Ok E e.2) (hop : OpData d r) :
    legacyGateInfo (listifyD d) = .ok (listifyD d) := by
  unfold legacyGateInfo
  cases hg : Dict.get? (listifyD d) (Key.str "gate_info") with
  | none => rfl
  | some g' =>
    obtain ⟨g, hm, rfl⟩ := mem_of_listifyD (keysOf hk) (Dict.mem_of_get? hg)
    rcases hop.1 g hm with rfl | ⟨G, rfl, hq⟩
    · simp [listify]
    · have hG := (ok_dict (hd _ hm)).1
      simp only [listify]
      cases hq' : Dict.get? (listifyD G) (Key.str "qubits") with
      | none => rfl
      | some v' =>
        obtain ⟨v, hv, rfl⟩ := mem_of_listifyD (keysOf hG) (Dict.mem_of_get? hq')
        rw [hq v hv]
        simp [listify]

theorem update_rt {E : Env} {d : List (Key × Val)} {r : Rat} (hk : StrKeys d)
    (hd : ∀ e ∈ d, Ok E e.2) (hop : OpData d r) : updateDuration (listifyD d) = .ok r := by
  obtain ⟨_, P, A, ends, hP, hA, hE, hL⟩ := hop
  have hn := (after hk).2
  unfold updateDuration
  rw [get?_of_mem' hn (mem_listifyD hP), get?_of_mem' hn (mem_listifyD hA)]
  simp only [listify, listifyL_eq]
  rw [← List.map_append, mapM_infoEnd ?_ hE]
  · simp only [bind, Except.bind, maxDefault_largest hL]
  · intro v hv I hI
    subst hI
    rcases List.mem_append.mp hv with h | h
    · exact (ok_dict (ok_list (hd _ hP) _ h)).1
    · exact (ok_dict (ok_list (hd _ hA) _ h)).1

/-! ### Schedules -/

/-- A key as a value. -/
def keyVal : Key → Val
  | .str s => .str s
  | .senum c s => .senum c s
  | .int i => .int i
  | .bool b => .bool b
  | .none => .none
  | .flt q => .flt q
  | .npint w i => .npint w i
  | .tup l => .tuple (l.map .str)

theorem dec_initText (E : Env) {name text : String} {v : Val} (hn : name ∈ defaultNames)
    (h : construct E (.builtin name) (.str text) = .ok v) :
    dec E (initText name text) = .ok v := by
  have h0 (s : String) : dec E (.str s) = .ok (.str s) := by simp [dec]
  have hd : decMembers E [(DT, .str name), ("mode", .str "__init__"), ("data", .str text)] =
      .ok [(Key.str DT, Val.str name), (Key.str "mode", .str "__init__"),
        (Key.str "data", .str text)] := by
    simp only [decMembers, h0]; rfl
  unfold initText
  rw [dec, hd]
  simp only [bind, Except.bind]
  rw [ofItems_nodup (by simp [DT]), decodeDict]
  have hr : resolve E name = .ok (.builtin name) := by simp [resolve, hn]
  simp [Dict.get?_cons, DT, hr, bind, Except.bind, h]

theorem npint_rt (E : Env) (w : Bool) (i : Int) :
    dec E (initText (intName w) (E.int i)) = .ok (.npint w i) := by
  cases w <;> apply dec_initText
  · simp [intName, defaultNames]
  · simp [intName, construct, E.readInt_int]
  · simp [intName, defaultNames]
  · simp [intName, construct, E.readInt_int]

theorem cplx_rt (E : Env) (np : Bool) (re im : Rat) :
    dec E (initText (cplxName np) (E.cplx re im)) = .ok (.cplx np re im) := by
  cases np <;> apply dec_initText
  · simp [cplxName, defaultNames]
  · simp [cplxName, construct, E.readCplx_cplx]
  · simp [cplxName, defaultNames]
  · simp [cplxName, construct, E.readCplx_cplx]

/-- A key that is no tuple comes back. -/
theorem encKey_rt (E : Env) {k : Key} (h : ∀ l, k ≠ .tup l) :
    ∃ v, dec E (encKey E.toText k) = .ok v ∧ asKey v = .ok (listifyKey k) := by
  cases k with
  | npint w i => exact ⟨_, npint_rt E w i, rfl⟩
  | tup l => exact absurd rfl (h l)
  | _ => exact ⟨_, by simp only [encKey, dec]; rfl, rfl⟩

theorem encItems_rt (E : Env) {S : List (Key × Val)} (hk : ∀ e ∈ S, ∀ l, e.1 ≠ .tup l)
    (h : ∀ e ∈ S, RT E e.2) :
    ∃ js vs, encItems E S = .ok js ∧ dec E (.arr js) = .ok (.list vs) ∧
      vs.mapM asPair = .ok (listifyD S) := by
  induction S with
  | nil => exact ⟨[], [], by simp [encItems], by simp [dec, decList]; rfl, rfl⟩
  | cons e S ih =>
    obtain ⟨k, v⟩ := e
    obtain ⟨j, h1, h2⟩ := h _ List.mem_cons_self
    obtain ⟨js, vs, h3, h4, h5⟩ := ih (fun e he => hk e (List.mem_cons_of_mem _ he))
      (fun e he => h e (List.mem_cons_of_mem _ he))
    obtain ⟨kv, h6, h7⟩ := encKey_rt E (hk _ List.mem_cons_self)
    simp only at h1 h2 h6 h7
    refine ⟨.arr [encKey E.toText k, j] :: js, .list [kv, listify v] :: vs, ?_, ?_, ?_⟩
    · simp only [encItems, h1, h3]; rfl
    · have h8 : decList E js = .ok vs := by
        simp only [dec] at h4
        cases hd : decList E js with
        | error e => rw [hd] at h4; simp [bind, Except.bind] at h4
        | ok w => rw [hd] at h4; simp [bind, Except.bind] at h4; rw [h4]
      have h9 : dec E (.arr [encKey E.toText k, j]) = .ok (.list [kv, listify v]) := by
        simp only [dec, decList, h6, h2]; rfl
      rw [dec]
      simp only [decList, h9, h8]; rfl
    · rw [List.mapM_cons, h5]
      simp only [asPair, h7, listifyD]; rfl

theorem decMembers_cons (E : Env) {s : String} {j : Json} {js : List (String × Json)} {v : Val}
    {r : List (Key × Val)} (h1 : dec E j = .ok v) (h2 : decMembers E js = .ok r) :
    decMembers E ((s, j) :: js) = .ok ((.str s, v) :: r) := by
  simp only [decMembers, h1, h2]; rfl

/-- What is read of the data of a schedule before `__setstate__`: for the schedulables a list of
pairs, the rest as it was. -/
def Raw (d r : List (Key × Val)) : Prop :=
  List.Forall₂ (fun e e' => e'.1 = listifyKey e.1 ∧
    if e.1 = .str "schedulables" then
      ∃ S vs, e.2 = .dict S ∧ e'.2 = .list vs ∧ vs.mapM asPair = .ok (listifyD S)
    else e'.2 = listify e.2) d r

theorem encSchedule_rt (E : Env) {d : List (Key × Val)} (hk : ∀ e ∈ d, ∃ s, e.1 = Key.str s)
    (hs : ∀ v, (Key.str "schedulables", v) ∈ d → ∃ S, v = .dict S)
    (hS : ∀ S, (Key.str "schedulables", Val.dict S) ∈ d →
      (∀ e ∈ S, ∀ l, e.1 ≠ Key.tup l) ∧ ∀ e ∈ S, RT E e.2)
    (h : ∀ e ∈ d, e.1 ≠ .str "schedulables" → RT E e.2) :
    ∃ js r, encSchedule E d = .ok js ∧ decMembers E js = .ok r ∧ Raw d r := by
  induction d with
  | nil => exact ⟨[], [], by simp [encSchedule], by simp [decMembers], List.Forall₂.nil⟩
  | cons e d ih =>
    obtain ⟨k, v⟩ := e
    obtain ⟨s, hs'⟩ := hk _ List.mem_cons_self
    simp only at hs'
    subst hs'
    obtain ⟨js, r, h3, h4, h5⟩ := ih (fun e he => hk e (List.mem_cons_of_mem _ he))
      (fun v hv => hs v (List.mem_cons_of_mem _ hv))
      (fun S hm => hS S (List.mem_cons_of_mem _ hm))
      (fun e he => h e (List.mem_cons_of_mem _ he))
    by_cases hc : s = "schedulables"
    · subst hc
      obtain ⟨S, rfl⟩ := hs v List.mem_cons_self
      obtain ⟨hSk, hSv⟩ := hS S List.mem_cons_self
      obtain ⟨jl, vs, h6, h7, h8⟩ := encItems_rt E hSk hSv
      refine ⟨("schedulables", .arr jl) :: js, (.str "schedulables", .list vs) :: r, ?_, ?_, ?_⟩
      · simp only [encSchedule, h6, h3]; rfl
      · exact decMembers_cons E h7 h4
      · exact List.Forall₂.cons ⟨rfl, by simp only [↓reduceIte]; exact ⟨S, vs, rfl, rfl, h8⟩⟩ h5
    · obtain ⟨j, h1, h2⟩ := h _ List.mem_cons_self (by simpa using hc)
      refine ⟨(s, j) :: js, (.str s, listify v) :: r, ?_, ?_, ?_⟩
      · rw [encSchedule]
        · simp only [keyText, h1, h3]; rfl
        · intro S hkS _
          exact hc (by simpa using hkS)
      · exact decMembers_cons E h2 h4
      · exact List.Forall₂.cons ⟨rfl, by simp [hc]⟩ h5

theorem raw_keys {d r : List (Key × Val)} (h : Raw d r) :
    r.map Prod.fst = (listifyD d).map Prod.fst := by
  induction h with
  | nil => simp [listifyD]
  | cons h1 _ ih => simp [listifyD, h1.1, ih]

theorem mem_raw {d r : List (Key × Val)} (h : Raw d r) {S : List (Key × Val)}
    (hm : (Key.str "schedulables", Val.dict S) ∈ d) :
    ∃ vs, (Key.str "schedulables", Val.list vs) ∈ r ∧ vs.mapM asPair = .ok (listifyD S) := by
  induction h with
  | nil => simp at hm
  | @cons e e' _ _ h1 _ ih =>
    rcases List.mem_cons.mp hm with h2 | h2
    · obtain ⟨h3, h4⟩ := h1
      rw [← h2] at h3 h4
      simp only [↓reduceIte] at h4
      obtain ⟨S', vs, h5, h6, h7⟩ := h4
      cases h5
      refine ⟨vs, List.mem_cons.mpr (Or.inl ?_), h7⟩
      rw [← h6]
      simp only [listifyKey] at h3
      rw [← h3]
    · obtain ⟨vs, h3, h4⟩ := ih h2
      exact ⟨vs, List.mem_cons_of_mem _ h3, h4⟩

theorem raw_set {d r : List (Key × Val)} (hk : ∀ e ∈ d, ∃ s, e.1 = Key.str s)
    (hn : (d.map Prod.fst).Nodup) (h : Raw d r)
    {S : List (Key × Val)} (hm : (Key.str "schedulables", Val.dict S) ∈ d) :
    Dict.set r (Key.str "schedulables") (.dict (listifyD S)) = listifyD d := by
  obtain ⟨vs, hv, _⟩ := mem_raw h hm
  rw [set_map (List.mem_map.mpr ⟨_, hv, rfl⟩), listifyD_eq d]
  have hS : ∀ S', (Key.str "schedulables", Val.dict S') ∈ d → S' = S := by
    intro S' h'
    have h1 := Dict.get?_of_mem hn h'
    have h2 := Dict.get?_of_mem hn hm
    rw [h1] at h2
    simpa using h2
  clear hm hv hn
  induction h with
  | nil => rfl
  | @cons e e' _ _ h1 _ ih =>
    simp only [List.map_cons, List.cons.injEq]
    constructor
    · obtain ⟨k, v⟩ := e
      obtain ⟨k', v'⟩ := e'
      obtain ⟨s, hs⟩ := hk _ List.mem_cons_self
      simp only at hs h1
      subst hs
      obtain ⟨h3, h4⟩ := h1
      simp only [listifyKey] at h3
      subst h3
      by_cases hc : Key.str s = Key.str "schedulables"
      · rw [if_pos hc] at h4
        obtain ⟨S', vs', rfl, rfl, h5⟩ := h4
        have hc' : s = "schedulables" := by simpa using hc
        subst hc'
        rw [hS S' List.mem_cons_self]
        simp [listify, listifyKey]
      · rw [if_neg hc] at h4
        simp [hc, h4, listifyKey]
    · exact ih (fun e he => hk e (List.mem_cons_of_mem _ he))
        (fun S' h' => hS S' (List.mem_cons_of_mem _ h'))

theorem setSchedulables_rt {d r : List (Key × Val)} (hk : ∀ e ∈ d, ∃ s, e.1 = Key.str s)
    (hn : (d.map Prod.fst).Nodup) (hrn : (r.map Prod.fst).Nodup) (h : Raw d r)
    {S : List (Key × Val)} (hm : (Key.str "schedulables", Val.dict S) ∈ d)
    (hS : ((listifyD S).map Prod.fst).Nodup) :
    setSchedulables r = .ok (listifyD d) := by
  obtain ⟨vs, hv, hp⟩ := mem_raw h hm
  unfold setSchedulables
  rw [get?_of_mem' hrn hv]
  simp only [hp, bind, Except.bind, ofItems_nodup hS]
  rw [raw_set hk hn h hm]

end Verif.Json
