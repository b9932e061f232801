/-
Lemmas for the JSON round trip: compiled schedules.
-/
import Verif.Json.Lemmas2

set_option linter.unusedSimpArgs false
set_option linter.unusedVariables false

namespace Verif.Json
open Spec

/-- Entry by entry: the same keys, the values related by `f`. -/
def Rel (f : Key × Val → Val → Prop) (d r : List (Key × Val)) : Prop :=
  List.Forall₂ (fun e e' => e'.1 = listifyKey e.1 ∧ f e e'.2) d r

theorem rel_keys {f : Key × Val → Val → Prop} {d r : List (Key × Val)} (h : Rel f d r) :
    r.map Prod.fst = (listifyD d).map Prod.fst := by
  induction h with
  | nil => simp [listifyD]
  | cons h1 _ ih => simp [listifyD, h1.1, ih]

theorem rel_mem {f : Key × Val → Val → Prop} {d r : List (Key × Val)} (h : Rel f d r) {s : String}
    {v : Val} (hm : (Key.str s, v) ∈ d) : ∃ w, (Key.str s, w) ∈ r ∧ f (Key.str s, v) w := by
  induction h with
  | nil => simp at hm
  | @cons e e' _ _ h1 _ ih =>
    rcases List.mem_cons.mp hm with h2 | h2
    · obtain ⟨h3, h4⟩ := h1
      rw [← h2] at h3 h4
      simp only [listifyKey] at h3
      exact ⟨e'.2, List.mem_cons.mpr (Or.inl (by rw [← h3])), h4⟩
    · obtain ⟨w, h3, h4⟩ := ih h2
      exact ⟨w, List.mem_cons_of_mem _ h3, h4⟩

theorem rel_set {f g : Key × Val → Val → Prop} {d r : List (Key × Val)}
    (hk : ∀ e ∈ d, ∃ s, e.1 = Key.str s) (h : Rel f d r) {s : String} {x : Val}
    (hs : Key.str s ∈ Dict.keys r)
    (hg1 : ∀ e ∈ d, e.1 = .str s → g e x) (hg2 : ∀ e ∈ d, e.1 ≠ .str s → ∀ w, f e w → g e w) :
    Rel g d (Dict.set r (.str s) x) := by
  rw [set_map hs]
  clear hs
  induction h with
  | nil => exact List.Forall₂.nil
  | @cons e e' _ _ h1 _ ih =>
    rw [List.map_cons]
    refine List.Forall₂.cons ?_ (ih (fun e he => hk e (List.mem_cons_of_mem _ he))
      (fun e he => hg1 e (List.mem_cons_of_mem _ he))
      (fun e he => hg2 e (List.mem_cons_of_mem _ he)))
    obtain ⟨t, ht⟩ := hk _ List.mem_cons_self
    obtain ⟨h3, h4⟩ := h1
    rw [ht] at h3
    simp only [listifyKey] at h3
    by_cases hc : e'.1 = .str s
    · rw [if_pos hc]
      have hes : e.1 = .str s := by rw [ht, ← h3, hc]
      exact ⟨by simp [hes, listifyKey], hg1 e List.mem_cons_self hes⟩
    · rw [if_neg hc]
      refine ⟨by simp [h3, ht, listifyKey], hg2 e List.mem_cons_self ?_ _ h4⟩
      intro hes
      exact hc (by rw [h3, ← ht, hes])

theorem rel_eq {d r : List (Key × Val)} (h : Rel (fun e w => w = listify e.2) d r) :
    r = listifyD d := by
  induction h with
  | nil => simp [listifyD]
  | @cons e e' _ _ h1 _ ih =>
    obtain ⟨k', v'⟩ := e'
    obtain ⟨k, v⟩ := e
    obtain ⟨h3, h4⟩ := h1
    simp only at h3 h4
    rw [h3, h4, listifyD, ih]

theorem mem_keys_of_rel {f : Key × Val → Val → Prop} {d r : List (Key × Val)} (h : Rel f d r)
    {s : String} {v : Val} (hm : (Key.str s, v) ∈ d) : Key.str s ∈ Dict.keys r := by
  obtain ⟨w, hw, _⟩ := rel_mem h hm
  exact List.mem_map.mpr ⟨_, hw, rfl⟩

/-! ### Acquisition channels -/

theorem acq_value_rt (E : Env) {n p b c : Val} (hn : RT E n) (hp : RT E p) (hb : RT E b)
    (hc : RT E c) :
    ∃ j v, enc E (.obj .acqdata acqQual [(.str "acq_index_dim_name", n), (.str "protocol", p),
        (.str "bin_mode", b), (.str "coords", c)] 0) = .ok j ∧ dec E j = .ok v ∧
      acqValue v = .ok (listify (.obj .acqdata acqQual [(.str "acq_index_dim_name", n),
        (.str "protocol", p), (.str "bin_mode", b), (.str "coords", c)] 0)) := by
  have hk : StrKeys [(Key.str "acq_index_dim_name", n), (.str "protocol", p),
      (.str "bin_mode", b), (.str "coords", c)] := by
    constructor
    · intro e he
      simp only [List.mem_cons, List.not_mem_nil, or_false] at he
      rcases he with rfl | rfl | rfl | rfl <;> exact ⟨_, rfl, by decide⟩
    · simp
  obtain ⟨js, h1, h2⟩ := dict_rt E hk (by
    intro e he
    simp only [List.mem_cons, List.not_mem_nil, or_false] at he
    rcases he with rfl | rfl | rfl | rfl <;> assumption)
  refine ⟨.obj js, _, ?_, h2, ?_⟩
  · simp only [enc, h1]; rfl
  · simp [acqValue, listifyD, listifyKey, fromKwargs, acqFields, Dict.keys, Dict.get?_cons, listify,
      List.mapM_cons, bind, Except.bind, pure, Except.pure]

theorem channel_rt (E : Env) {k : Key} {v : Val} {w : Val} {j : Json} (hk : ∀ l, k ≠ .tup l)
    (h1 : dec E j = .ok w) (h2 : acqValue w = .ok (listify v)) :
    ∃ u, dec E (.obj [("key", encKey E.toText k), ("value", j)]) = .ok u ∧
      setChannel u = .ok (listifyKey k, listify v) := by
  obtain ⟨kv, h6, h7⟩ := encKey_rt E hk
  refine ⟨.dict [(.str "key", kv), (.str "value", w)], ?_, ?_⟩
  · apply dec_obj_plain
    · exact decMembers_cons E h6 (decMembers_cons E h1 rfl)
    · intro e he
      simp only [List.mem_cons, List.not_mem_nil, or_false] at he
      rcases he with rfl | rfl <;> exact ⟨_, rfl, by decide⟩
    · simp
  · simp [setChannel, Dict.get?_cons, h7, h2, bind, Except.bind]

theorem decList_of_dec {E : Env} {js : List Json} {vs : List Val}
    (h : dec E (.arr js) = .ok (.list vs)) : decList E js = .ok vs := by
  simp only [dec] at h
  cases hd : decList E js with
  | error e => rw [hd] at h; simp [bind, Except.bind] at h
  | ok w => rw [hd] at h; simp [bind, Except.bind] at h; rw [h]

theorem encChannels_rt (E : Env) {A : List (Key × Val)} (hk : ∀ x ∈ A, ∀ l, x.1 ≠ .tup l)
    (hv : ∀ x ∈ A, ∃ j w, enc E x.2 = .ok j ∧ dec E j = .ok w ∧ acqValue w = .ok (listify x.2)) :
    ∃ js vs, encChannels E A = .ok js ∧ dec E (.arr js) = .ok (.list vs) ∧
      vs.mapM setChannel = .ok (listifyD A) := by
  induction A with
  | nil => exact ⟨[], [], by simp [encChannels], by simp [dec, decList]; rfl, rfl⟩
  | cons e A ih =>
    obtain ⟨k, v⟩ := e
    obtain ⟨j, w, h1, h2, h2'⟩ := hv _ List.mem_cons_self
    obtain ⟨js, vs, h3, h4, h5⟩ := ih (fun e he => hk e (List.mem_cons_of_mem _ he))
      (fun e he => hv e (List.mem_cons_of_mem _ he))
    simp only at h1 h2 h2'
    obtain ⟨u, h6, h7⟩ := channel_rt E (hk _ List.mem_cons_self) h2 h2'
    simp only at h6 h7
    refine ⟨.obj [("key", encKey E.toText k), ("value", j)] :: js, u :: vs, ?_, ?_, ?_⟩
    · simp only [encChannels, h1, h3]; rfl
    · rw [dec]
      simp only [decList, h6, decList_of_dec h4]; rfl
    · rw [List.mapM_cons, h5, h7]
      simp only [listifyD]; rfl

/-! ### Components -/

/-- What is read of a component: a list of channels, the rest as it was. -/
def RawComp (e : Key × Val) (w : Val) : Prop :=
  if e.1 = .str "acq_channels_data" then
    ∃ A vs, e.2 = .dict A ∧ w = .list vs ∧ vs.mapM setChannel = .ok (listifyD A)
  else w = listify e.2

theorem encComponent_rt (E : Env) {d : List (Key × Val)} (hk : ∀ e ∈ d, ∃ s, e.1 = Key.str s)
    (hs : ∀ v, (Key.str "acq_channels_data", v) ∈ d → ∃ A, v = .dict A)
    (hS : ∀ A, (Key.str "acq_channels_data", Val.dict A) ∈ d →
      (∀ x ∈ A, ∀ l, x.1 ≠ Key.tup l) ∧
      ∀ x ∈ A, ∃ j w, enc E x.2 = .ok j ∧ dec E j = .ok w ∧ acqValue w = .ok (listify x.2))
    (h : ∀ e ∈ d, e.1 ≠ .str "acq_channels_data" → RT E e.2) :
    ∃ js r, encComponent E d = .ok js ∧ decMembers E js = .ok r ∧ Rel RawComp d r := by
  induction d with
  | nil => exact ⟨[], [], by simp [encComponent], by simp [decMembers], List.Forall₂.nil⟩
  | cons e d ih =>
    obtain ⟨k, v⟩ := e
    obtain ⟨s, hs'⟩ := hk _ List.mem_cons_self
    simp only at hs'
    subst hs'
    obtain ⟨js, r, h3, h4, h5⟩ := ih (fun e he => hk e (List.mem_cons_of_mem _ he))
      (fun v hv => hs v (List.mem_cons_of_mem _ hv))
      (fun S hm => hS S (List.mem_cons_of_mem _ hm))
      (fun e he => h e (List.mem_cons_of_mem _ he))
    by_cases hc : s = "acq_channels_data"
    · subst hc
      obtain ⟨S, rfl⟩ := hs v List.mem_cons_self
      obtain ⟨hSk, hSv⟩ := hS S List.mem_cons_self
      obtain ⟨jl, vs, h6, h7, h8⟩ := encChannels_rt E hSk hSv
      refine ⟨("acq_channels_data", .arr jl) :: js, (.str "acq_channels_data", .list vs) :: r,
        ?_, ?_, ?_⟩
      · simp only [encComponent, h6, h3]; rfl
      · exact decMembers_cons E h7 h4
      · exact List.Forall₂.cons ⟨rfl, by
          simp only [RawComp, ↓reduceIte]; exact ⟨S, vs, rfl, rfl, h8⟩⟩ h5
    · obtain ⟨j, h1, h2⟩ := h _ List.mem_cons_self (by simpa using hc)
      refine ⟨(s, j) :: js, (.str s, listify v) :: r, ?_, ?_, ?_⟩
      · rw [encComponent]
        · simp only [keyText, h1, h3]; rfl
        · intro S hkS _
          exact hc (by simpa using hkS)
      · exact decMembers_cons E h2 h4
      · exact List.Forall₂.cons ⟨rfl, by simp [RawComp, hc]⟩ h5

theorem strKeys_of_rel {f : Key × Val → Val → Prop} {d r : List (Key × Val)} (hk : StrKeys d)
    (h : Rel f d r) : (∀ e ∈ r, ∃ s, e.1 = Key.str s ∧ s ≠ "deserialization_type") ∧
      (r.map Prod.fst).Nodup := by
  have hkeys := rel_keys h
  constructor
  · intro e he
    have hm : e.1 ∈ (listifyD d).map Prod.fst := by
      rw [← hkeys]; exact List.mem_map.mpr ⟨_, he, rfl⟩
    obtain ⟨e', he', h1⟩ := List.mem_map.mp hm
    rw [← h1]
    exact (after hk).1 e' he'
  · rw [hkeys]; exact (after hk).2

theorem component_rt (E : Env) {d : List (Key × Val)} (hk : StrKeys d)
    (hA : ∀ v, (Key.str "acq_channels_data", v) ∈ d → ∃ A, v = .dict A ∧ Channels A)
    (hF : ∀ A, (Key.str "acq_channels_data", Val.dict A) ∈ d → ∀ x ∈ A, ∀ q f r,
      x.2 = .obj .acqdata q f r → ∀ y ∈ f, RT E y.2)
    (h : ∀ e ∈ d, e.1 ≠ .str "acq_channels_data" → RT E e.2) :
    ∃ js r, encComponent E d = .ok js ∧ dec E (.obj js) = .ok (.dict r) ∧
      setComponent (.dict r) = .ok (.dict (listifyD d)) := by
  have hch : ∀ A, (Key.str "acq_channels_data", Val.dict A) ∈ d → Channels A := by
    intro A hm
    obtain ⟨A', hA', hc⟩ := hA _ hm
    cases hA'
    exact hc
  obtain ⟨js, r, h1, h2, h3⟩ := encComponent_rt E (keysOf hk)
    (fun v hv => (hA v hv).imp fun A h => h.1)
    (fun A hm => ⟨(hch A hm).1, fun x hx => by
      obtain ⟨n, p, b, c, hx2⟩ := (hch A hm).2.2 x hx
      have hy := hF A hm x hx _ _ _ hx2
      rw [hx2]
      exact acq_value_rt E (hy (.str "acq_index_dim_name", n) (by simp))
        (hy (.str "protocol", p) (by simp)) (hy (.str "bin_mode", b) (by simp))
        (hy (.str "coords", c) (by simp))⟩) h
  obtain ⟨hrk, hrn⟩ := strKeys_of_rel hk h3
  refine ⟨js, r, h1, dec_obj_plain E h2 hrk hrn, ?_⟩
  simp only [setComponent]
  by_cases hm : Key.str "acq_channels_data" ∈ Dict.keys d
  · obtain ⟨e, he, he1⟩ := List.mem_map.mp hm
    obtain ⟨k, v⟩ := e
    simp only at he1
    subst he1
    obtain ⟨A, rfl, hc⟩ := hA v he
    obtain ⟨w, hw, hr⟩ := rel_mem h3 he
    simp only [RawComp, ↓reduceIte] at hr
    obtain ⟨A', vs, hAA, rfl, hvs⟩ := hr
    cases hAA
    rw [get?_of_mem' hrn hw]
    simp only [hvs, bind, Except.bind]
    have hnA : ((listifyD A).map Prod.fst).Nodup := by
      rw [listifyD_eq, List.map_map]
      exact hc.2.1
    rw [ofItems_nodup hnA]
    congr 2
    apply rel_eq
    apply rel_set (keysOf hk) h3 (mem_keys_of_rel h3 he)
    · intro e he' hes
      obtain ⟨k', v'⟩ := e
      simp only at hes
      subst hes
      have h5 := Dict.get?_of_mem hk.2 he'
      have h6 := Dict.get?_of_mem hk.2 he
      rw [h5] at h6
      simp only [Option.some.injEq] at h6
      rw [h6, listify]
    · intro e he' hes w hw'
      simpa [RawComp, hes] using hw'
  · have hr : Rel (fun e w => w = listify e.2) d r := by
      unfold Rel at h3 ⊢
      have hd : ∀ e ∈ d, e.1 ≠ .str "acq_channels_data" := by
        intro e he hes
        exact hm (List.mem_map.mpr ⟨e, he, hes⟩)
      clear h1 h2 hrk hrn hm hch hA hF h hk
      induction h3 with
      | nil => exact List.Forall₂.nil
      | cons h4 _ ih =>
        refine List.Forall₂.cons ⟨h4.1, ?_⟩ (ih (fun e he => hd e (List.mem_cons_of_mem _ he)))
        simpa [RawComp, hd _ List.mem_cons_self] using h4.2
    have hre := rel_eq hr
    have hnone : Dict.get? r (.str "acq_channels_data") = none := by
      rw [Dict.get?_eq_none_iff]
      intro hmr
      have : Key.str "acq_channels_data" ∈ (listifyD d).map Prod.fst := by
        rw [← rel_keys h3]; exact hmr
      rw [listifyD_eq, strKeys_listify (keysOf hk)] at this
      exact hm this
    rw [hnone, hre]

end Verif.Json
