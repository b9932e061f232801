/-
Lemmas for the JSON round trip: compiled instructions, and all the cases together.
-/
import Verif.Json.Lemmas3

set_option linter.unusedSimpArgs false
set_option linter.unusedVariables false

namespace Verif.Json
open Spec

theorem listify_not_dict {v : Val} (h : ∀ D, v ≠ .dict D) : ∀ D, listify v ≠ .dict D := by
  intro D
  cases v <;> simp [listify] at h ⊢

theorem setComponent_other {v : Val} (h : ∀ D, v ≠ .dict D) : setComponent v = .ok v := by
  cases v <;> simp [setComponent] at h ⊢

/-- One component is written and read back. -/
def CompRT (E : Env) (v : Val) : Prop :=
  (∃ D, v = .dict D ∧ ∃ js r, encComponent E D = .ok js ∧ dec E (.obj js) = .ok (.dict r) ∧
      setComponent (.dict r) = .ok (.dict (listifyD D))) ∨
  ((∀ D, v ≠ .dict D) ∧ RT E v)

/-- `data["compiled_instructions"]` with each component set. -/
def setComponents (C : List (Key × Val)) : Except Err (List (Key × Val)) :=
  C.mapM (fun e => do .ok (e.1, ← setComponent e.2))

theorem encComponents_rt (E : Env) {C : List (Key × Val)} (hk : ∀ e ∈ C, ∃ s, e.1 = Key.str s)
    (h : ∀ c ∈ C, CompRT E c.2) :
    ∃ js r, encComponents E C = .ok js ∧ decMembers E js = .ok r ∧
      r.map Prod.fst = (listifyD C).map Prod.fst ∧ setComponents r = .ok (listifyD C) := by
  induction C with
  | nil =>
    exact ⟨[], [], by simp [encComponents], by simp [decMembers], by simp [listifyD], rfl⟩
  | cons e C ih =>
    obtain ⟨k, v⟩ := e
    obtain ⟨s, hs'⟩ := hk _ List.mem_cons_self
    simp only at hs'
    subst hs'
    obtain ⟨js, r, h3, h4, h5, h5'⟩ := ih (fun e he => hk e (List.mem_cons_of_mem _ he))
      (fun e he => h e (List.mem_cons_of_mem _ he))
    rcases h _ List.mem_cons_self with ⟨D, hD, jl, w, h6, h7, h8⟩ | ⟨hD, j, h6, h7⟩
    · simp only at hD
      subst hD
      refine ⟨(s, .obj jl) :: js, (.str s, .dict w) :: r, ?_, decMembers_cons E h7 h4, ?_, ?_⟩
      · simp only [encComponents, keyText, h6, h3]; rfl
      · simp [listifyD, listifyKey, h5]
      · unfold setComponents at h5' ⊢
        rw [List.mapM_cons, h5']
        simp only [h8, listifyD, listifyKey, listify]; rfl
    · simp only at hD h6 h7
      refine ⟨(s, j) :: js, (.str s, listify v) :: r, ?_, decMembers_cons E h7 h4, ?_, ?_⟩
      · rw [encComponents]
        · simp only [keyText, h6, h3]; rfl
        · exact fun D hd => hD D hd
      · simp [listifyD, listifyKey, h5]
      · unfold setComponents at h5' ⊢
        rw [List.mapM_cons, h5']
        simp only [setComponent_other (listify_not_dict hD), listifyD, listifyKey]; rfl

/-- What is read of the data of a compiled schedule before `__setstate__`. -/
def RawCompiled (e : Key × Val) (w : Val) : Prop :=
  if e.1 = .str "schedulables" then
    ∃ S vs, e.2 = .dict S ∧ w = .list vs ∧ vs.mapM asPair = .ok (listifyD S)
  else if e.1 = .str "compiled_instructions" then
    ∃ C C', e.2 = .dict C ∧ w = .dict C' ∧ setComponents C' = .ok (listifyD C)
  else w = listify e.2

theorem encCompiled_rt (E : Env) {d : List (Key × Val)} (hk : ∀ e ∈ d, ∃ s, e.1 = Key.str s)
    (hs : ∀ v, (Key.str "schedulables", v) ∈ d → ∃ S, v = .dict S)
    (hS : ∀ S, (Key.str "schedulables", Val.dict S) ∈ d →
      (∀ e ∈ S, ∀ l, e.1 ≠ Key.tup l) ∧ ∀ e ∈ S, RT E e.2)
    (hc : ∀ v, (Key.str "compiled_instructions", v) ∈ d → ∃ C, v = .dict C ∧ StrKeys C ∧
      ∀ c ∈ C, CompRT E c.2)
    (h : ∀ e ∈ d, e.1 ≠ .str "schedulables" → e.1 ≠ .str "compiled_instructions" → RT E e.2) :
    ∃ js r, encCompiled E d = .ok js ∧ decMembers E js = .ok r ∧ Rel RawCompiled d r := by
  induction d with
  | nil => exact ⟨[], [], by simp [encCompiled], by simp [decMembers], List.Forall₂.nil⟩
  | cons e d ih =>
    obtain ⟨k, v⟩ := e
    obtain ⟨s, hs'⟩ := hk _ List.mem_cons_self
    simp only at hs'
    subst hs'
    obtain ⟨js, r, h3, h4, h5⟩ := ih (fun e he => hk e (List.mem_cons_of_mem _ he))
      (fun v hv => hs v (List.mem_cons_of_mem _ hv))
      (fun S hm => hS S (List.mem_cons_of_mem _ hm))
      (fun v hv => hc v (List.mem_cons_of_mem _ hv))
      (fun e he => h e (List.mem_cons_of_mem _ he))
    by_cases hc1 : s = "schedulables"
    · subst hc1
      obtain ⟨S, rfl⟩ := hs v List.mem_cons_self
      obtain ⟨hSk, hSv⟩ := hS S List.mem_cons_self
      obtain ⟨jl, vs, h6, h7, h8⟩ := encItems_rt E hSk hSv
      refine ⟨("schedulables", .arr jl) :: js, (.str "schedulables", .list vs) :: r, ?_, ?_, ?_⟩
      · simp only [encCompiled, h6, h3]; rfl
      · exact decMembers_cons E h7 h4
      · exact List.Forall₂.cons ⟨rfl, by
          simp only [RawCompiled, ↓reduceIte]; exact ⟨S, vs, rfl, rfl, h8⟩⟩ h5
    · by_cases hc2 : s = "compiled_instructions"
      · subst hc2
        obtain ⟨C, rfl, hCk, hCc⟩ := hc v List.mem_cons_self
        obtain ⟨jl, w, h6, h7, h8, h9⟩ := encComponents_rt E (keysOf hCk) hCc
        have hw : dec E (.obj jl) = .ok (.dict w) := by
          apply dec_obj_plain E h7
          · intro e he
            have hm : e.1 ∈ (listifyD C).map Prod.fst := by
              rw [← h8]; exact List.mem_map.mpr ⟨_, he, rfl⟩
            obtain ⟨e', he', h1⟩ := List.mem_map.mp hm
            rw [← h1]
            exact (after hCk).1 e' he'
          · rw [h8]; exact (after hCk).2
        refine ⟨("compiled_instructions", .obj jl) :: js,
          (.str "compiled_instructions", .dict w) :: r, ?_, ?_, ?_⟩
        · simp only [encCompiled, h6, h3]; rfl
        · exact decMembers_cons E hw h4
        · exact List.Forall₂.cons ⟨rfl, by
            simp only [RawCompiled, Key.str.injEq, hc1, ↓reduceIte]
            exact ⟨C, w, rfl, rfl, h9⟩⟩ h5
      · obtain ⟨j, h1, h2⟩ := h _ List.mem_cons_self (by simpa using hc1) (by simpa using hc2)
        refine ⟨(s, j) :: js, (.str s, listify v) :: r, ?_, ?_, ?_⟩
        · rw [encCompiled]
          · simp only [keyText, h1, h3]; rfl
          · intro S hkS _
            exact hc1 (by simpa using hkS)
          · intro S hkS _
            exact hc2 (by simpa using hkS)
        · exact decMembers_cons E h2 h4
        · exact List.Forall₂.cons ⟨rfl, by simp [RawCompiled, hc1, hc2]⟩ h5

theorem setCompiled_rt {q : String} {d r : List (Key × Val)} {C S : List (Key × Val)}
    (hk : StrKeys d) (h : Rel RawCompiled d r)
    (hm : (Key.str "schedulables", Val.dict S) ∈ d)
    (hS : ((listifyD S).map Prod.fst).Nodup)
    (hc : (Key.str "compiled_instructions", Val.dict C) ∈ d) :
    setCompiled q [(.str DT, .str q), (.str "data", .dict r)] =
      .ok (.obj .compiled q (listifyD d) 0) := by
  obtain ⟨hrk, hrn⟩ := strKeys_of_rel hk h
  unfold setCompiled
  rw [stateData_state]
  obtain ⟨w, hw, hr⟩ := rel_mem h hc
  simp only [RawCompiled, Key.str.injEq, String.reduceEq, ↓reduceIte] at hr
  obtain ⟨C0, C', hCC, rfl, hset⟩ := hr
  cases hCC
  simp only [bind, Except.bind]
  rw [get?_of_mem' hrn hw]
  unfold setComponents at hset
  simp only [bind, Except.bind] at hset
  simp only [hset]
  have hraw : Raw d (Dict.set r (.str "compiled_instructions") (.dict (listifyD C))) := by
    show Rel (fun e w => if e.1 = .str "schedulables" then
      ∃ S vs, e.2 = .dict S ∧ w = .list vs ∧ vs.mapM asPair = .ok (listifyD S)
      else w = listify e.2) d _
    apply rel_set (keysOf hk) h (mem_keys_of_rel h hc)
    · intro e he hes
      obtain ⟨k', v'⟩ := e
      simp only at hes
      subst hes
      have h5 := Dict.get?_of_mem hk.2 he
      have h6 := Dict.get?_of_mem hk.2 hc
      rw [h5] at h6
      simp only [Option.some.injEq] at h6
      subst h6
      simp [listify]
    · intro e he hes w' hw'
      simpa [RawCompiled, hes] using hw'
  have hn2 : ((Dict.set r (.str "compiled_instructions")
      (Val.dict (listifyD C))).map Prod.fst).Nodup := by
    rw [raw_keys hraw]; exact (after hk).2
  rw [setSchedulables_rt (keysOf hk) hk.2 hn2 hraw hm hS]

/-! ### All values -/

theorem hasSchedulables_of_mem {d S : List (Key × Val)} (hn : (d.map Prod.fst).Nodup)
    (hm : (Key.str "schedulables", Val.dict S) ∈ d) : hasSchedulables d = true := by
  unfold hasSchedulables
  rw [get?_of_mem' hn hm]

theorem unique_entry {d : List (Key × Val)} (hn : (d.map Prod.fst).Nodup) {k : Key} {v w : Val}
    (h1 : (k, v) ∈ d) (h2 : (k, w) ∈ d) : v = w := by
  have h5 := Dict.get?_of_mem hn h1
  have h6 := Dict.get?_of_mem hn h2
  rw [h5] at h6
  simpa using h6

theorem schedulables_rt {E : Env} {d : List (Key × Val)} (hk : StrKeys d)
    (hs : ∃ S, (Key.str "schedulables", Val.dict S) ∈ d)
    (hok : ∀ e ∈ d, e.1 = .str "schedulables" → Ok E e.2) :
    ∃ S, (Key.str "schedulables", Val.dict S) ∈ d ∧ StrKeys S ∧
      (∀ v, (Key.str "schedulables", v) ∈ d → v = .dict S) ∧ ∀ e ∈ S, Ok E e.2 := by
  obtain ⟨S, hS⟩ := hs
  obtain ⟨h1, h2⟩ := ok_dict (hok _ hS rfl)
  exact ⟨S, hS, h1, fun v hv => unique_entry hk.2 hv hS, h2⟩

theorem strKeys_no_tup {S : List (Key × Val)} (h : StrKeys S) : ∀ e ∈ S, ∀ l, e.1 ≠ Key.tup l := by
  intro e he l
  obtain ⟨s, hs, _⟩ := h.1 e he
  simp [hs]

theorem dec_cls (E : Env) {n : String} (hn : n ∈ defaultNames) :
    dec E (encCls (.builtin n)) = .ok (.cls (.builtin n)) := by
  have h0 (s : String) : dec E (.str s) = .ok (.str s) := by simp [dec]
  have hd : decMembers E [(DT, .str n), ("mode", .str "type")] =
      .ok [(Key.str DT, Val.str n), (Key.str "mode", .str "type")] := by
    simp only [decMembers, h0]; rfl
  unfold encCls
  rw [dec, hd]
  simp only [bind, Except.bind]
  rw [ofItems_nodup (by simp [DT]), decodeDict]
  have hr : resolve E n = .ok (.builtin n) := by simp [resolve, hn]
  simp [Dict.get?_cons, DT, hr, bind, Except.bind]

theorem array_rt (E : Env) {js : List Json} {l : List Val} (h : decList E js = .ok l) :
    dec E (.obj [(DT, .str "ndarray"), ("mode", .str "__init__"), ("data", .arr js)]) =
      .ok (.array l) := by
  have h0 (s : String) : dec E (.str s) = .ok (.str s) := by simp [dec]
  have h1 : dec E (.arr js) = .ok (.list l) := by simp only [dec, h]; rfl
  have hd : decMembers E [(DT, .str "ndarray"), ("mode", .str "__init__"), ("data", .arr js)] =
      .ok [(Key.str DT, Val.str "ndarray"), (Key.str "mode", .str "__init__"),
        (Key.str "data", .list l)] := by
    simp only [decMembers, h0, h1]; rfl
  rw [dec, hd]
  simp only [bind, Except.bind]
  rw [ofItems_nodup (by simp [DT]), decodeDict]
  have hr : resolve E "ndarray" = .ok (.builtin "ndarray") := by simp [resolve, defaultNames]
  simp [Dict.get?_cons, DT, hr, bind, Except.bind, construct]

theorem refmag_rt (E : Env) {q : String} {v u : Val} (hq : Known E .refmag q) (hv : RT E v)
    (hu : RT E u) : RT E (.obj .refmag q [(.str "value", v), (.str "unit", u)] 0) := by
  obtain ⟨jv, hv1, hv2⟩ := hv
  obtain ⟨ju, hu1, hu2⟩ := hu
  refine ⟨.obj [("value", jv), ("unit", ju), (DT, .str q)], ?_, ?_⟩
  · simp only [enc, encDict, keyText, hv1, hu1]; rfl
  · have h0 : dec E (.str q) = .ok (.str q) := by simp [dec]
    have hd : decMembers E [("value", jv), ("unit", ju), (DT, .str q)] =
        .ok [(Key.str "value", listify v), (Key.str "unit", listify u), (Key.str DT, Val.str q)] := by
      exact decMembers_cons E hv2 (decMembers_cons E hu2 (decMembers_cons E h0 rfl))
    rw [dec, hd]
    simp only [bind, Except.bind]
    rw [ofItems_nodup (by simp [DT]), decodeDict]
    have h3 : resolve E q = .ok (.user .refmag q) := by
      obtain ⟨hr, hi⟩ := hq
      simp only [reserved, List.mem_cons, List.not_mem_nil, or_false, not_or] at hr
      simp [resolve, defaultNames, enumNames, hr, hi]
    simp [Dict.get?_cons, DT, h3, bind, Except.bind, setState, setRefMag, listify, listifyD,
      listifyKey, Dict.get?_nil]

theorem timing_rt (E : Env) {q : String} {a b c t : Val} (hq : Known E .timing q) (ha : RT E a)
    (hb : RT E b) (hc : RT E c) (ht : RT E t) :
    RT E (.obj .timing q [(.str "ref_schedulable", a), (.str "ref_pt", b),
      (.str "ref_pt_new", c), (.str "rel_time", t)] 0) := by
  have hk : StrKeys [(Key.str "ref_schedulable", a), (.str "ref_pt", b),
      (.str "ref_pt_new", c), (.str "rel_time", t)] := by
    constructor
    · intro e he
      simp only [List.mem_cons, List.not_mem_nil, or_false] at he
      rcases he with rfl | rfl | rfl | rfl <;> exact ⟨_, rfl, by decide⟩
    · simp
  obtain ⟨js, h1, h2⟩ := dict_rt E hk (by
    intro e he
    simp only [List.mem_cons, List.not_mem_nil, or_false] at he
    rcases he with rfl | rfl | rfl | rfl <;> assumption)
  refine ⟨state q js, by simp only [enc, h1]; rfl, ?_⟩
  rw [dec_state E hq h2]
  simp [setState, stateData_state, bind, Except.bind, listify, listifyD, listifyKey, fromKwargs,
    timingFields, Dict.keys, Dict.get?_cons, List.mapM_cons, pure, Except.pure]

theorem schedule_rt (E : Env) {q : String} {d S : List (Key × Val)} (hq : Known E .schedule q)
    (hk : StrKeys d) (hS : (Key.str "schedulables", Val.dict S) ∈ d) (hSk : StrKeys S)
    (hSrt : ∀ e ∈ S, RT E e.2) (h : ∀ e ∈ d, RT E e.2) : RT E (.obj .schedule q d 0) := by
  obtain ⟨js, r, h1, h2, h3⟩ := encSchedule_rt E (keysOf hk)
    (fun v hv => ⟨S, unique_entry hk.2 hv hS⟩)
    (fun S' hS' => by
      have := unique_entry hk.2 hS' hS
      cases this
      exact ⟨strKeys_no_tup hSk, hSrt⟩)
    (fun e he _ => h e he)
  refine ⟨state q js, ?_, ?_⟩
  · simp only [enc, hasSchedulables_of_mem hk.2 hS, ↓reduceIte, h1]; rfl
  · obtain ⟨hrk, hrn⟩ := strKeys_of_rel hk (show Rel (fun e w => if e.1 = .str "schedulables" then
      ∃ S vs, e.2 = .dict S ∧ w = .list vs ∧ vs.mapM asPair = .ok (listifyD S)
      else w = listify e.2) d r from h3)
    rw [dec_state E hq (dec_obj_plain E h2 hrk hrn)]
    have hsome : (Dict.get? [(Key.str DT, Val.str q), (Key.str "data", Val.dict r)]
        (Key.str "data")).isSome = true := by simp [Dict.get?_cons, DT]
    simp only [setState, setSchedule, hsome, ↓reduceIte, stateData_state, bind, Except.bind,
      setSchedulables_rt (keysOf hk) hk.2 hrn h3 hS (after hSk).2, listify]

theorem compiled_rt (E : Env) {q : String} {d S C : List (Key × Val)} (hq : Known E .compiled q)
    (hk : StrKeys d) (hS : (Key.str "schedulables", Val.dict S) ∈ d) (hSk : StrKeys S)
    (hSrt : ∀ e ∈ S, RT E e.2) (hC : (Key.str "compiled_instructions", Val.dict C) ∈ d)
    (hCk : StrKeys C) (hCc : ∀ c ∈ C, CompRT E c.2)
    (hCh : ∀ c ∈ C, componentOk c.2 = true)
    (h : ∀ e ∈ d, e.1 ≠ .str "compiled_instructions" → RT E e.2) :
    RT E (.obj .compiled q d 0) := by
  obtain ⟨js, r, h1, h2, h3⟩ := encCompiled_rt E (keysOf hk)
    (fun v hv => ⟨S, unique_entry hk.2 hv hS⟩)
    (fun S' hS' => by
      have := unique_entry hk.2 hS' hS
      cases this
      exact ⟨strKeys_no_tup hSk, hSrt⟩)
    (fun v hv => ⟨C, unique_entry hk.2 hv hC, hCk, hCc⟩)
    (fun e he _ h2 => h e he h2)
  have hi : hasInstructions d = true := by
    unfold hasInstructions
    rw [get?_of_mem' hk.2 hC]
    simp only [List.all_eq_true]
    exact hCh
  refine ⟨state q js, ?_, ?_⟩
  · simp only [enc, hasSchedulables_of_mem hk.2 hS, hi, Bool.and_self, ↓reduceIte, h1]; rfl
  · obtain ⟨hrk, hrn⟩ := strKeys_of_rel hk h3
    rw [dec_state E hq (dec_obj_plain E h2 hrk hrn)]
    simp only [setState, setCompiled_rt hk h3 hS (after hSk).2 hC, listify]

theorem ok_rt_aux (E : Env) {v : Val} (h : Ok E v) :
    RT E v ∧ ∀ d, v = .dict d → ∀ e ∈ d, RT E e.2 := by
  induction h with
  | none => exact ⟨⟨_, by simp [enc]; rfl, by simp [dec, listify]⟩, by intro d hd; cases hd⟩
  | bool b => exact ⟨⟨_, by simp [enc]; rfl, by simp [dec, listify]⟩, by intro d hd; cases hd⟩
  | int i => exact ⟨⟨_, by simp [enc]; rfl, by simp [dec, listify]⟩, by intro d hd; cases hd⟩
  | flt q => exact ⟨⟨_, by simp [enc]; rfl, by simp [dec, listify]⟩, by intro d hd; cases hd⟩
  | str s => exact ⟨⟨_, by simp [enc]; rfl, by simp [dec, listify]⟩, by intro d hd; cases hd⟩
  | senum c s => exact ⟨⟨.str s, by simp [enc], by simp [dec, listify]⟩, by intro d hd; cases hd⟩
  | cplx np re im =>
    exact ⟨⟨_, by simp only [enc]; rfl, by simp only [listify]; exact cplx_rt E np re im⟩,
      by intro d hd; cases hd⟩
  | npint w i =>
    exact ⟨⟨_, by simp only [enc]; rfl, by simp only [listify]; exact npint_rt E w i⟩,
      by intro d hd; cases hd⟩
  | builtin n hn =>
    exact ⟨⟨_, by simp only [enc]; rfl, by simp only [listify]; exact dec_cls E hn⟩,
      by intro d hd; cases hd⟩
  | list l _ ih =>
    obtain ⟨js, h1, h2⟩ := encList_rt E (fun v hv => (ih v hv).1)
    exact ⟨⟨.arr js, by simp only [enc, h1]; rfl,
      by simp only [dec, h2, listify, listifyL_eq]; rfl⟩, by intro d hd; cases hd⟩
  | tuple l _ ih =>
    obtain ⟨js, h1, h2⟩ := encList_rt E (fun v hv => (ih v hv).1)
    exact ⟨⟨.arr js, by simp only [enc, h1]; rfl,
      by simp only [dec, h2, listify, listifyL_eq]; rfl⟩, by intro d hd; cases hd⟩
  | array l _ ih =>
    obtain ⟨js, h1, h2⟩ := encList_rt E (fun v hv => (ih v hv).1)
    refine ⟨⟨_, by simp only [enc, h1]; rfl, ?_⟩, by intro d hd; cases hd⟩
    rw [array_rt E h2]
    simp only [listify, listifyL_eq]
  | dict d hk _ ih =>
    have ih' : ∀ e ∈ d, RT E e.2 := fun e he => (ih e he).1
    obtain ⟨js, h1, h2⟩ := dict_rt E hk ih'
    exact ⟨⟨.obj js, by simp only [enc, h1]; rfl, by rw [h2]; simp only [listify]⟩,
      by intro d' hd; cases hd; exact ih'⟩
  | operation q d r hq hk hop hd ih =>
    obtain ⟨js, h1, h2⟩ := dict_rt E hk (fun e he => (ih e he).1)
    refine ⟨⟨state q js, by simp only [enc, h1]; rfl, ?_⟩, by intro d hd; cases hd⟩
    rw [dec_state E hq h2]
    simp only [setState, setOperation, stateData_state, bind, Except.bind, legacy_rt hk hd hop,
      update_rt hk hd hop, listify]
  | schedule q d hq hk hs hd ih =>
    obtain ⟨S, hS, hSk, _, _⟩ := schedulables_rt hk hs (fun e he _ => hd e he)
    exact ⟨schedule_rt E hq hk hS hSk ((ih _ hS).2 S rfl) (fun e he => (ih e he).1),
      by intro d hd; cases hd⟩
  | schedulable q d hq hk _ ih =>
    obtain ⟨js, h1, h2⟩ := dict_rt E hk (fun e he => (ih e he).1)
    refine ⟨⟨state q js, by simp only [enc, h1]; rfl, ?_⟩, by intro d hd; cases hd⟩
    rw [dec_state E hq h2]
    simp only [setState, stateData_state, bind, Except.bind, listify]
  | resource q d hq hk _ ih =>
    obtain ⟨js, h1, h2⟩ := dict_rt E hk (fun e he => (ih e he).1)
    refine ⟨⟨state q js, by simp only [enc, h1]; rfl, ?_⟩, by intro d hd; cases hd⟩
    rw [dec_state E hq h2]
    simp only [setState, stateData_state, bind, Except.bind, listify]
  | timing q a b c t hq _ _ _ _ iha ihb ihc iht =>
    exact ⟨timing_rt E hq iha.1 ihb.1 ihc.1 iht.1, by intro d hd; cases hd⟩
  | refmag q v u hq _ _ ihv ihu =>
    exact ⟨refmag_rt E hq ihv.1 ihu.1, by intro d hd; cases hd⟩
  | compiled q d C hq hk hs hC hCk hd hplain hcomp hD hA hF ih ihplain ihD ihF =>
    refine ⟨?_, by intro d hd; cases hd⟩
    obtain ⟨S, hS, hSk, _, _⟩ := schedulables_rt hk hs
      (fun e he h1 => hd e he (by rw [h1]; decide))
    refine compiled_rt E hq hk hS hSk ((ih _ hS (by simp)).2 S rfl) hC hCk ?_ ?_
      (fun e he h1 => (ih e he h1).1)
    · intro c hc
      by_cases hcd : ∃ D, c.2 = .dict D
      · obtain ⟨D, hcD⟩ := hcd
        left
        exact ⟨D, hcD, component_rt E (hcomp c hc D hcD) (hA c hc D hcD)
          (fun A hAm x hx q f r hxq y hy => (ihF c hc D hcD A hAm x hx q f r hxq y hy).1)
          (fun e he h1 => (ihD c hc D hcD e he h1).1)⟩
      · right
        have hcd' : ∀ D, c.2 ≠ .dict D := fun D hD => hcd ⟨D, hD⟩
        exact ⟨hcd', (ihplain c hc hcd').1⟩
    · intro c hc
      cases hv : c.2 with
      | dict D =>
        simp only [componentOk]
        cases hg : Dict.get? D (Key.str "acq_channels_data") with
        | none => rfl
        | some w =>
          obtain ⟨A, rfl, _⟩ := hA c hc D hv w (Dict.mem_of_get? hg)
          rfl
      | _ => rfl

theorem ok_rt (E : Env) {v : Val} (h : Ok E v) : RT E v := (ok_rt_aux E h).1

end Verif.Json
