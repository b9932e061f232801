/-
Lemmas on circuit-to-device compilation.
-/
import Verif.Circuit.Spec
import Mathlib.Tactic.SplitIfs
import Mathlib.Tactic.Tauto

set_option linter.unusedSimpArgs false
set_option linter.unusedVariables false

namespace Verif.Circuit

open Verif

variable {P U C : Type}

theorem bind_ok {α β : Type} {x : Except Err α} {f : α → Except Err β} {b : β} :
    (x >>= f) = Except.ok b ↔ ∃ a, x = .ok a ∧ f a = .ok b := by
  cases x with
  | error e => constructor
               · intro h; cases h
               · rintro ⟨a, h, _⟩; cases h
  | ok a => constructor
            · intro h; exact ⟨a, rfl, h⟩
            · rintro ⟨a', h, h'⟩; cases h; exact h'

theorem infoOf_eq (d : Op P U C) : infoOf d = (pulsesOf d, acqsOf d) := by cases d <;> rfl

theorem own_eq (op : Op P U C) : own op = fun k => Dict.get? (ownOverrides op) k := by
  funext k
  cases op with
  | leaf g p a => cases g <;> rfl
  | _ => rfl

theorem delayOf_eq : (delayOf : Op P U C → Option Rat) = delayAfter := by
  funext op; cases op <;> rfl

theorem dropDelay_eq : (dropDelay : Op P U C → Op P U C) = withoutDelay := by
  funext op; cases op <;> rfl

/-! ### Dictionaries -/

theorem get?_merge (a b : Kw) (k : String) :
    Dict.get? (merge a b) k = (Dict.get? b k).or (Dict.get? a k) := by
  induction b with
  | nil => simp [merge, Dict.get?_nil]
  | cons e b ih =>
    simp only [merge, List.foldr_cons] at ih ⊢
    rw [Dict.get?_set, Dict.get?_cons, ih]
    by_cases h : e.1 = k
    · simp [h]
    · simp [h, Ne.symm h]

theorem get?_override (e : String × V) (kw : Kw) (k : String) :
    Dict.get? (override e kw) k =
      if e.1 = k ∧ (Dict.get? kw k).isSome then some e.2 else Dict.get? kw k := by
  unfold override
  by_cases h : e.1 = k
  · subst h
    by_cases h2 : (Dict.get? kw e.1).isSome
    · simp [h2, Dict.get?_set]
    · simp [h2]
  · by_cases h2 : (Dict.get? kw e.1).isSome
    · simp [h2, h, Dict.get?_set, Ne.symm h]
    · simp [h2, h]

theorem get?_applyOverrides (ov kw : Kw) (k : String) :
    Dict.get? (applyOverrides ov kw) k =
      if (Dict.get? kw k).isSome then (Dict.get? ov k).or (Dict.get? kw k) else none := by
  induction ov with
  | nil =>
    simp only [applyOverrides, List.foldr_nil, Dict.get?_nil, Option.none_or]
    split_ifs with h
    · rfl
    · simpa using h
  | cons e ov ih =>
    simp only [applyOverrides, List.foldr_cons] at ih ⊢
    rw [get?_override, Dict.get?_cons, ih]
    by_cases h : e.1 = k
    · by_cases h2 : (Dict.get? kw k).isSome
      · simp [h, h2, Option.isSome_or]
      · simp [h, h2]
    · simp [h]

/-! ### Arguments -/

theorem addInfo_ok (g : Gate) (ks : List String) (kw kw' : Kw) :
    addInfo g ks kw = .ok kw' → (∀ k ∈ ks, (Dict.get? g.info k).isSome) ∧
      ∀ k, Dict.get? kw' k = if k ∈ ks then Dict.get? g.info k else Dict.get? kw k := by
  induction ks generalizing kw with
  | nil => intro h; cases h; simp
  | cons x ks ih =>
    intro h
    simp only [addInfo] at h
    cases he : Dict.get? g.info x with
    | none => simp [he] at h
    | some v =>
      simp only [he] at h
      obtain ⟨h1, h2⟩ := ih _ h
      refine ⟨by intro k hk; rcases List.mem_cons.mp hk with rfl | hk
                 · simp [he]
                 · exact h1 k hk, fun k => ?_⟩
      rw [h2, Dict.get?_set]
      by_cases hk : k ∈ ks
      · simp [hk]
      · by_cases hx : k = x
        · subst hx; simp [hk, he]
        · simp [hk, hx]

theorem addInfo_total (g : Gate) (ks : List String) (kw : Kw)
    (h : ∀ k ∈ ks, (Dict.get? g.info k).isSome) : ∃ kw', addInfo g ks kw = .ok kw' := by
  induction ks generalizing kw with
  | nil => exact ⟨kw, rfl⟩
  | cons x ks ih =>
    obtain ⟨v, hv⟩ := Option.isSome_iff_exists.mp (h x (by simp))
    simp only [addInfo, hv]
    exact ih _ (fun k hk => h k (by simp [hk]))

theorem selectMux_ok (i : Nat) (v w : V) : selectMux i v = .ok w ↔ part i v = some w := by
  cases v with
  | num x => simp [selectMux, part]
  | other n => simp [selectMux, part]
  | list l =>
    simp only [selectMux, part]
    cases l[i]? <;> simp

theorem addInfoMux_ok (g : Gate) (i : Nat) (ks : List String) (kw kw' : Kw) :
    addInfoMux g i ks kw = .ok kw' →
      (∀ k ∈ ks, ∃ v w, Dict.get? g.info k = some v ∧ part i v = some w) ∧
      ∀ k, Dict.get? kw' k = if k ∈ ks then (Dict.get? g.info k).bind (part i) else Dict.get? kw k := by
  induction ks generalizing kw with
  | nil => intro h; cases h; simp
  | cons x ks ih =>
    intro h
    simp only [addInfoMux] at h
    cases he : Dict.get? g.info x with
    | none => simp [he] at h
    | some v =>
      simp only [he] at h
      cases hs : selectMux i v with
      | error e => simp [hs] at h
      | ok w =>
        simp only [hs] at h
        have hp := (selectMux_ok i v w).mp hs
        obtain ⟨h1, h2⟩ := ih _ h
        refine ⟨by intro k hk; rcases List.mem_cons.mp hk with rfl | hk
                   · exact ⟨v, w, he, hp⟩
                   · exact h1 k hk, fun k => ?_⟩
        rw [h2, Dict.get?_set]
        by_cases hk : k ∈ ks
        · simp [hk]
        · by_cases hx : k = x
          · subst hx; simp [hk, he, hp]
          · simp [hk, hx]

theorem addInfoMux_total (g : Gate) (i : Nat) (ks : List String) (kw : Kw)
    (h : ∀ k ∈ ks, ∃ v w, Dict.get? g.info k = some v ∧ part i v = some w) :
    ∃ kw', addInfoMux g i ks kw = .ok kw' := by
  induction ks generalizing kw with
  | nil => exact ⟨kw, rfl⟩
  | cons x ks ih =>
    obtain ⟨v, w, hv, hw⟩ := h x (by simp)
    simp only [addInfoMux, hv, (selectMux_ok i v w).mpr hw]
    exact ih _ (fun k hk => h k (by simp [hk]))

theorem setDelay_ok (g : Gate) (kw kw' : Kw) : setDelay g kw = .ok kw' →
    (g.measure = true → g.applyDelay = false → ∃ x, IsNum (Dict.get? kw "acq_delay") x) ∧
    ∀ k, Dict.get? kw' k =
      if g.measure = true ∧ g.applyDelay = false ∧ k = "next_operation_delay" then
        match Dict.get? kw "acq_delay" with
        | some (.num x) => some (.num (-x))
        | _ => none
      else Dict.get? kw k := by
  intro h
  unfold setDelay at h
  by_cases hc : g.measure = true ∧ g.applyDelay = false
  · rw [if_pos hc] at h
    cases ha : Dict.get? kw "acq_delay" with
    | none => simp [ha] at h
    | some v =>
      cases v with
      | num x =>
        simp only [ha] at h
        cases h
        refine ⟨fun _ _ => ⟨x, rfl⟩, fun k => ?_⟩
        rw [Dict.get?_set]
        by_cases hk : k = "next_operation_delay" <;> simp [hk, hc]
      | list l => simp [ha] at h
      | other n => simp [ha] at h
  · rw [if_neg hc] at h
    cases h
    refine ⟨fun h1 h2 => absurd ⟨h1, h2⟩ hc, fun k => ?_⟩
    rw [if_neg (fun h => hc ⟨h.1, h.2.1⟩)]

theorem setDelay_total (g : Gate) (kw : Kw)
    (h : g.measure = true → g.applyDelay = false → ∃ x, IsNum (Dict.get? kw "acq_delay") x) :
    ∃ kw', setDelay g kw = .ok kw' := by
  unfold setDelay
  by_cases hc : g.measure = true ∧ g.applyDelay = false
  · rw [if_pos hc]
    obtain ⟨x, hx⟩ := h hc.1 hc.2
    rw [IsNum] at hx
    simp [hx]
  · rw [if_neg hc]; exact ⟨_, rfl⟩

theorem argsSingle_unique {g : Gate} {o : OpCfg P U C} {ov : Ov} {a b : String → Option V}
    (h : ArgsSingle g o ov a) (h' : ArgsSingle g o ov b) : a = b := by
  funext k; rw [h.arg k, h'.arg k]

theorem argsMux_unique {g : Gate} {o : OpCfg P U C} {i : Nat} {ov : Ov} {a b : String → Option V}
    (h : ArgsMux g o i ov a) (h' : ArgsMux g o i ov b) : a = b := by
  funext k; rw [h.arg k, h'.arg k]

theorem callFactory_ok (o : OpCfg P U C) (kw : Kw) (d : Op P U C) :
    callFactory o kw = .ok d ↔ ∃ f, o.factory = some f ∧ f (Dict.get? kw) = .ok d := by
  unfold callFactory
  cases o.factory <;> simp

theorem single_args (g : Gate) (o : OpCfg P U C) (ov kw kw' : Kw) (h1 : setDelay g o.kwargs = .ok kw)
    (h2 : addInfo g (o.gateKeys.getD []) kw = .ok kw') :
    ArgsSingle g o (Dict.get? ov) (Dict.get? (applyOverrides ov kw')) := by
  obtain ⟨a1, a2⟩ := setDelay_ok g _ _ h1
  obtain ⟨b1, b2⟩ := addInfo_ok g _ _ _ h2
  refine ⟨b1, a1, fun k => ?_⟩
  rw [get?_applyOverrides, b2, a2]
  rfl

theorem deviceRepr_ok (g : Gate) (o : OpCfg P U C) (ov : Kw) (d : Op P U C) :
    deviceRepr g o ov = .ok d ↔
      ∃ f args, o.factory = some f ∧ ArgsSingle g o (Dict.get? ov) args ∧ f args = .ok d := by
  unfold deviceRepr
  constructor
  · intro h
    obtain ⟨kw, h1, h⟩ := bind_ok.mp h
    obtain ⟨kw', h2, h⟩ := bind_ok.mp h
    obtain ⟨f, hf, hd⟩ := (callFactory_ok _ _ _).mp h
    exact ⟨f, _, hf, single_args g o ov kw kw' h1 h2, hd⟩
  · rintro ⟨f, args, hf, ha, hd⟩
    obtain ⟨kw, h1⟩ := setDelay_total g o.kwargs ha.delay
    obtain ⟨kw', h2⟩ := addInfo_total g (o.gateKeys.getD []) kw ha.has
    refine bind_ok.mpr ⟨kw, h1, bind_ok.mpr ⟨kw', h2, (callFactory_ok _ _ _).mpr ⟨f, hf, ?_⟩⟩⟩
    rw [argsSingle_unique (single_args g o ov kw kw' h1 h2) ha]
    exact hd

theorem mux_args (g : Gate) (o : OpCfg P U C) (i : Nat) (ov kw kw' : Kw)
    (h1 : addInfoMux g i (o.gateKeys.getD []) o.kwargs = .ok kw) (h2 : setDelay g kw = .ok kw') :
    ArgsMux g o i (Dict.get? ov) (Dict.get? (applyOverrides ov kw')) := by
  obtain ⟨a1, a2⟩ := setDelay_ok g _ _ h2
  obtain ⟨b1, b2⟩ := addInfoMux_ok g i _ _ _ h1
  refine ⟨b1, fun x y => ?_, fun k => ?_⟩
  · obtain ⟨z, hz⟩ := a1 x y
    exact ⟨z, by rw [b2] at hz; exact hz⟩
  · rw [get?_applyOverrides, a2, b2, b2]
    rfl

theorem deviceReprMux_ok (g : Gate) (o : OpCfg P U C) (i : Nat) (ov : Kw) (d : Op P U C) :
    deviceReprMux g o i ov = .ok d ↔
      ∃ f args, o.factory = some f ∧ ArgsMux g o i (Dict.get? ov) args ∧ f args = .ok d := by
  unfold deviceReprMux
  constructor
  · intro h
    obtain ⟨kw, h1, h⟩ := bind_ok.mp h
    obtain ⟨kw', h2, h⟩ := bind_ok.mp h
    obtain ⟨f, hf, hd⟩ := (callFactory_ok _ _ _).mp h
    exact ⟨f, _, hf, mux_args g o i ov kw kw' h1 h2, hd⟩
  · rintro ⟨f, args, hf, ha, hd⟩
    obtain ⟨kw, h1⟩ := addInfoMux_total g i (o.gateKeys.getD []) o.kwargs ha.has
    have hb := (addInfoMux_ok g i _ _ _ h1).2
    obtain ⟨kw', h2⟩ := setDelay_total g kw (fun x y => by
      obtain ⟨z, hz⟩ := ha.delay x y
      exact ⟨z, by rw [hb]; exact hz⟩)
    refine bind_ok.mpr ⟨kw, h1, bind_ok.mpr ⟨kw', h2, (callFactory_ok _ _ _).mpr ⟨f, hf, ?_⟩⟩⟩
    rw [argsMux_unique (mux_args g o i ov kw kw' h1 h2) ha]
    exact hd

/-! ### Configurations -/

theorem elementCfg_ok (cfg : Cfg P U C) (el ty : String) (o : OpCfg P U C) :
    elementCfg cfg el ty = .ok o ↔ OnElement cfg el ty o := by
  unfold elementCfg OnElement
  cases Dict.get? cfg.elements el with
  | none => simp
  | some ops => cases h : Dict.get? ops ty <;> simp [h]

theorem edgeCfg_ok (cfg : Cfg P U C) (g : Gate) (a b : String) (o : OpCfg P U C) :
    edgeCfg cfg g a b = .ok o ↔ OnEdge cfg g a b o := by
  unfold edgeCfg OnEdge findEdge
  cases hab : Dict.get? cfg.edges (a, b) with
  | some m =>
    simp only [Option.isSome_some, if_true, hab]
    cases h : Dict.get? m g.type <;> simp [h, hab, bind, Except.bind]
  | none =>
    by_cases hs : g.symmetric = true
    · by_cases he : a = b
      · subst he
        simp [hab, hs, bind, Except.bind]
      · have hd : [(a, b), (b, a)].dedup = [(a, b), (b, a)] := by
          rw [List.dedup_eq_self]; simp [he]
        cases hba : Dict.get? cfg.edges (b, a) with
        | none => simp [hab, hs, hd, hba, bind, Except.bind]
        | some m =>
          cases h : Dict.get? m g.type <;> simp [hab, hs, hd, hba, h, bind, Except.bind]
    · simp [hab, hs, bind, Except.bind]

end Verif.Circuit
