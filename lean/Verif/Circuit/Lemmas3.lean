/-
The compiler meets its specification: compensation, gates and the recursion.
-/
import Verif.Circuit.Lemmas2

set_option linter.unusedSimpArgs false
set_option linter.unusedVariables false

namespace Verif.Circuit

open Verif

variable {P U C : Type}

/-! ### Pulse compensation -/

theorem number_ok (kw : Kw) (k : String) (x : Rat) : number kw k = .ok x ↔ IsNum (Dict.get? kw k) x := by
  unfold number IsNum
  cases Dict.get? kw k with
  | none => simp
  | some v => cases v <;> simp

theorem comp_lookup (cfg : Cfg P U C) (el : String) :
    ((Dict.get? cfg.elements el).bind (fun e => Dict.get? e "pulse_compensation") = none ∧
      ∀ o, ¬ OnElement cfg el "pulse_compensation" o) ∨
    ∃ o, (Dict.get? cfg.elements el).bind (fun e => Dict.get? e "pulse_compensation") = some o ∧
      ∀ o', OnElement cfg el "pulse_compensation" o' ↔ o' = o := by
  unfold OnElement
  cases h : Dict.get? cfg.elements el with
  | none => left; simp
  | some e =>
    cases h2 : Dict.get? e "pulse_compensation" with
    | none => left; simp [h2]
    | some o => right; exact ⟨o, by simp [h2], by intro o'; simp [h2, eq_comm]⟩

theorem compLoop_sound (cfg : Cfg P U C) (port : PortOf) (els : List String) :
    ∀ pre amps grid rate r, CompSettings cfg port pre amps grid rate →
      compLoop cfg port els amps grid rate = .ok r → CompSettings cfg port (pre ++ els) r.1 r.2.1 r.2.2 := by
  induction els with
  | nil =>
    intro pre amps grid rate r hs h
    have h := Except.ok.inj h
    subst h
    simpa using hs
  | cons el els ih =>
    intro pre amps grid rate r hs h
    have happ : pre ++ el :: els = (pre ++ [el]) ++ els := by simp
    rw [happ]
    rcases comp_lookup cfg el with ⟨hn, hno⟩ | ⟨o, ho, hiff⟩
    · simp only [compLoop, hn] at h
      refine ih _ _ _ _ _ ⟨?_, ?_, ?_⟩ h
      · intro hall
        exact hs.empty (fun e he => hall e (by simp [he]))
      · intro e he o hoe
        simp only [List.mem_append, List.mem_singleton] at he
        rcases he with he | rfl
        · exact hs.agree e he o hoe
        · exact absurd hoe (hno o)
      · intro p x hp
        obtain ⟨pr, e, po, o, h1, h2, h3, h4, h5⟩ := hs.amp p x hp
        refine ⟨pr, e, po ++ [el], o, by simp [h1], h2, h3, h4, ?_⟩
        intro e' he' o' ho'
        simp only [List.mem_append, List.mem_singleton] at he'
        rcases he' with he' | rfl
        · exact h5 e' he' o' ho'
        · exact absurd ho' (hno o')
    · simp only [compLoop, ho] at h
      by_cases hf : o.factory.isSome
      · simp [hf] at h
      · rw [if_neg hf] at h
        obtain ⟨g, hg, h⟩ := bind_ok.mp h
        by_cases hgrid : grid ≠ none ∧ grid ≠ some g
        · rw [if_pos hgrid] at h; cases h
        rw [if_neg hgrid] at h
        obtain ⟨rt, hrt, h⟩ := bind_ok.mp h
        by_cases hrate : rate ≠ none ∧ rate ≠ some rt
        · rw [if_pos hrate] at h; cases h
        rw [if_neg hrate] at h
        obtain ⟨p, hp, h⟩ := bind_ok.mp h
        obtain ⟨x, hx, h⟩ := bind_ok.mp h
        rw [number_ok] at hg hrt hx
        refine ih _ _ _ _ _ ⟨?_, ?_, ?_⟩ h
        · intro hall
          exact absurd ((hiff o).mpr rfl) (hall el (by simp) o)
        · intro e he o' hoe
          simp only [List.mem_append, List.mem_singleton] at he
          rcases he with he | rfl
          · obtain ⟨a1, a2, ⟨g', a3, a3'⟩, ⟨r', a4, a4'⟩, q, a5, a5'⟩ := hs.agree e he o' hoe
            have hgg : some g = some g' := by
              rw [a3'] at hgrid
              simp only [ne_eq, reduceCtorEq, not_false_eq_true, true_and, not_not] at hgrid
              exact hgrid.symm
            have hrr : some rt = some r' := by
              rw [a4'] at hrate
              simp only [ne_eq, reduceCtorEq, not_false_eq_true, true_and, not_not] at hrate
              exact hrate.symm
            refine ⟨a1, a2, ⟨g', a3, hgg⟩, ⟨r', a4, hrr⟩, q, a5, ?_⟩
            rw [Dict.get?_set]
            split_ifs <;> simp [a5']
          · have := (hiff o').mp hoe
            subst this
            refine ⟨by simpa using hf, ⟨x, hx⟩, ⟨g, hg, rfl⟩, ⟨rt, hrt, rfl⟩, p, hp, ?_⟩
            rw [Dict.get?_set]; simp
        · intro q y hq
          rw [Dict.get?_set] at hq
          by_cases hqp : q = p
          · subst hqp
            simp only [if_true, Option.some.injEq] at hq
            subst hq
            exact ⟨pre, el, [], o, rfl, (hiff o).mpr rfl, hp, hx, by simp⟩
          · rw [if_neg hqp] at hq
            obtain ⟨pr, e, po, o', h1, h2, h3, h4, h5⟩ := hs.amp q y hq
            refine ⟨pr, e, po ++ [el], o', by simp [h1], h2, h3, h4, ?_⟩
            intro e' he' o'' ho''
            simp only [List.mem_append, List.mem_singleton] at he'
            rcases he' with he' | rfl
            · exact h5 e' he' o'' ho''
            · rw [(hiff o'').mp ho'', hp]
              intro hc
              exact hqp (Except.ok.inj hc).symm

theorem compLoop_total (cfg : Cfg P U C) (port : PortOf) (els : List String) :
    ∀ amps grid rate grid1 rate1 ,
      (∀ el ∈ els, ∀ o, OnElement cfg el "pulse_compensation" o → o.factory.isNone ∧
        (∃ x, IsNum (Dict.get? o.kwargs "max_compensation_amp") x) ∧
        (∃ g, IsNum (Dict.get? o.kwargs "time_grid") g ∧ grid = some g) ∧
        (∃ r, IsNum (Dict.get? o.kwargs "sampling_rate") r ∧ rate = some r) ∧
        (∃ p, port o.kwargs = .ok p)) →
      (grid1 = none ∨ grid1 = grid) → (rate1 = none ∨ rate1 = rate) →
      ∃ r, compLoop cfg port els amps grid1 rate1 = .ok r := by
  induction els with
  | nil => intro amps grid rate grid1 rate1 _ _ _; exact ⟨_, rfl⟩
  | cons el els ih =>
    intro amps grid rate grid1 rate1 hs hg hr
    have hs' := fun e (he : e ∈ els) => hs e (List.mem_cons_of_mem _ he)
    rcases comp_lookup cfg el with ⟨hn, hno⟩ | ⟨o, ho, hiff⟩
    · simp only [compLoop, hn]
      exact ih _ grid rate _ _ hs' hg hr
    · obtain ⟨a1, ⟨x, a2⟩, ⟨g', a3, a3'⟩, ⟨r', a4, a4'⟩, q, a5⟩ := hs el (by simp) o ((hiff o).mpr rfl)
      simp only [compLoop, ho]
      rw [if_neg (by simpa using a1)]
      obtain ⟨res, hres⟩ := ih (Dict.set amps q x) grid rate (some g') (some r') hs' (Or.inr a3'.symm) (Or.inr a4'.symm)
      refine ⟨res, bind_ok.mpr ⟨g', (number_ok _ _ _).mpr a3, ?_⟩⟩
      rw [if_neg (by rw [← a3']; rcases hg with h | h <;> simp [h])]
      refine bind_ok.mpr ⟨r', (number_ok _ _ _).mpr a4, ?_⟩
      rw [if_neg (by rw [← a4']; rcases hr with h | h <;> simp [h])]
      exact bind_ok.mpr ⟨q, a5, bind_ok.mpr ⟨x, (number_ok _ _ _).mpr a2, hres⟩⟩

theorem compSettings_nil (cfg : Cfg P U C) (port : PortOf) : CompSettings cfg port [] [] none none :=
  ⟨fun _ => ⟨rfl, rfl, rfl⟩, by simp, by simp [Dict.get?_nil]⟩

/-! ### Gates on one element or an edge -/

/-- What `compileGate` does before the result is finished. -/
theorem single_iff (cfg : Cfg P U C) (g : Gate) (ov : Kw) (d : Op P U C) :
    Single cfg g (Dict.get? ov) d ↔ ∃ o, deviceRepr g o ov = .ok d ∧
      ((∃ el, g.elements = [el] ∧ elementCfg cfg el g.type = .ok o) ∨
       (∃ a b, g.elements = [a, b] ∧ (∃ ops, Dict.get? cfg.elements a = some ops ∧ Dict.get? ops g.type = none) ∧
        edgeCfg cfg g a b = .ok o)) := by
  constructor
  · rintro ⟨o, f, args, h1, h2, h3, h4⟩
    refine ⟨o, (deviceRepr_ok _ _ _ _).mpr ⟨f, args, h1, h2, h3⟩, ?_⟩
    rcases h4 with ⟨el, he, h4⟩ | ⟨a, b, he, hops, h4⟩
    · exact Or.inl ⟨el, he, (elementCfg_ok _ _ _ _).mpr h4⟩
    · exact Or.inr ⟨a, b, he, hops, (edgeCfg_ok _ _ _ _ _).mpr h4⟩
  · rintro ⟨o, h1, h4⟩
    obtain ⟨f, args, a1, a2, a3⟩ := (deviceRepr_ok _ _ _ _).mp h1
    refine ⟨o, f, args, a1, a2, a3, ?_⟩
    rcases h4 with ⟨el, he, h4⟩ | ⟨a, b, he, hops, h4⟩
    · exact Or.inl ⟨el, he, (elementCfg_ok _ _ _ _).mp h4⟩
    · exact Or.inr ⟨a, b, he, hops, (edgeCfg_ok _ _ _ _ _).mp h4⟩

theorem compileGate_single {cfg : Cfg P U C} {rec : Kw → Op P U C → Except Err (Op P U C)} {g : Gate} {ov : Kw}
    {d : Op P U C} (h : Single cfg g (Dict.get? ov) d) : compileGate cfg rec g ov = finish rec g ov d := by
  obtain ⟨o, h1, h2⟩ := (single_iff _ _ _ _).mp h
  unfold compileGate
  rcases h2 with ⟨el, he, h2⟩ | ⟨a, b, he, ⟨ops, ho, ho'⟩, h2⟩
  · simp only [he, h2, h1, bind, Except.bind]
  · simp only [he, ho, ho', Option.isNone_none, if_true, h2, h1, bind, Except.bind]

theorem compileGate_mux {cfg : Cfg P U C} {rec : Kw → Op P U C → Except Err (Op P U C)} {g : Gate} {ov : Kw}
    (h : IsMux cfg g) : compileGate cfg rec g ov = compileMux cfg rec g ov := by
  unfold compileGate
  obtain ⟨h1, h2⟩ := h
  match he : g.elements with
  | [] => rfl
  | [el] => simp [he] at h1
  | [a, b] =>
    obtain ⟨ops, ho, ho'⟩ := h2 a b he
    simp only [ho]
    rw [if_neg (by cases hx : Dict.get? ops g.type <;> simp [hx] at ho' ⊢)]
  | a :: b :: c :: l => rfl

theorem compileGate_cases {cfg : Cfg P U C} {rec : Kw → Op P U C → Except Err (Op P U C)} {g : Gate} {ov : Kw}
    {out : Op P U C} (h : compileGate cfg rec g ov = .ok out) :
    (∃ d, Single cfg g (Dict.get? ov) d ∧ finish rec g ov d = .ok out) ∨
    (IsMux cfg g ∧ compileMux cfg rec g ov = .ok out) := by
  unfold compileGate at h
  match he : g.elements with
  | [] =>
    simp only [he] at h
    exact Or.inr ⟨⟨by simp [he], by simp [he]⟩, h⟩
  | [el] =>
    simp only [he] at h
    obtain ⟨o, h1, h⟩ := bind_ok.mp h
    obtain ⟨d, h2, h⟩ := bind_ok.mp h
    exact Or.inl ⟨d, (single_iff _ _ _ _).mpr ⟨o, h2, Or.inl ⟨el, he, h1⟩⟩, h⟩
  | [a, b] =>
    simp only [he] at h
    cases ho : Dict.get? cfg.elements a with
    | none => simp [ho] at h
    | some ops =>
      simp only [ho] at h
      by_cases hn : (Dict.get? ops g.type).isNone
      · rw [if_pos hn] at h
        obtain ⟨o, h1, h⟩ := bind_ok.mp h
        obtain ⟨d, h2, h⟩ := bind_ok.mp h
        exact Or.inl ⟨d, (single_iff _ _ _ _).mpr ⟨o, h2, Or.inr ⟨a, b, he, ⟨ops, ho, by simpa using hn⟩, h1⟩⟩, h⟩
      · rw [if_neg hn] at h
        refine Or.inr ⟨⟨by simp [he], ?_⟩, h⟩
        intro a' b' hab
        rw [he] at hab
        simp only [List.cons.injEq, and_true] at hab
        obtain ⟨rfl, rfl⟩ := hab
        exact ⟨ops, ho, by cases hx : Dict.get? ops g.type <;> simp [hx] at hn ⊢⟩
  | a :: b :: c :: l =>
    simp only [he] at h
    exact Or.inr ⟨⟨by simp [he], by simp [he]⟩, h⟩

/-! ### The recursion -/

theorem ov_merge (op : Op P U C) (ov : Kw) :
    Dict.get? (merge (ownOverrides op) ov) = Ov.over (Dict.get? ov) (own op) := by
  funext k; rw [get?_merge, own_eq]; rfl

theorem over_over (a b : Ov) : Ov.over (Ov.over a b) b = Ov.over a b := by
  funext k; unfold Ov.over; cases a k <;> cases b k <;> rfl

theorem own_ctrl (c : C) (body : Op P U C) : own (.ctrl c body) = fun _ => none := rfl

theorem own_comp (c : Comp) (body : Op P U C) : own (.comp c body) = fun _ => none := rfl

theorem over_none (a : Ov) : Ov.over a (fun _ => none) = a := by
  funext k; unfold Ov.over; cases a k <;> rfl

/-- Overrides of a schedule apply once, however often they are added. -/
theorem impl_over {cfg : Cfg P U C} {port : PortOf} {ov : Ov} {d out : Op P U C} (hd : IsSched d)
    (h : Impl cfg port (Ov.over ov (own d)) d out) : Impl cfg port ov d out := by
  cases h with
  | @sched _ _ _ items' h1 h2 h3 =>
    refine .sched h1 h2 ?_
    rw [over_over] at h3
    exact h3
  | _ => exact absurd hd (by simp [IsSched])

theorem impl_over' {cfg : Cfg P U C} {port : PortOf} {ov : Ov} {d out : Op P U C} (hd : IsSched d)
    (h : Impl cfg port ov d out) : Impl cfg port (Ov.over ov (own d)) d out := by
  cases h with
  | @sched _ _ _ items' h1 h2 h3 =>
    refine .sched h1 h2 ?_
    rw [over_over]
    exact h3
  | _ => exact absurd hd (by simp [IsSched])

theorem mapM_ok {α β : Type} (f : α → Except Err β) : ∀ (l : List α) (r : List β),
    l.mapM f = .ok r ↔ List.Forall₂ (fun a b => f a = .ok b) l r
  | [], r => by
    constructor
    · intro h
      have : r = [] := by simpa [pure, Except.pure] using h.symm
      subst this; exact .nil
    · intro h; cases h; rfl
  | a :: l, r => by
    rw [List.mapM_cons, bind_ok]
    constructor
    · rintro ⟨b, hb, h⟩
      rw [bind_ok] at h
      obtain ⟨bs, hbs, h⟩ := h
      have : r = b :: bs := by simpa [pure, Except.pure] using h.symm
      subst this
      exact .cons hb ((mapM_ok f l bs).mp hbs)
    · intro h
      cases h with
      | cons hb hbs => exact ⟨_, hb, bind_ok.mpr ⟨_, (mapM_ok f l _).mpr hbs, rfl⟩⟩

theorem forall₂_getElem {α β : Type} {R : α → β → Prop} {l : List α} {r : List β} (h : List.Forall₂ R l r) :
    r.length = l.length ∧ ∀ (i : Nat) (h : i < l.length) (h' : i < r.length), R l[i] r[i] := by
  rw [List.forall₂_iff_get] at h
  exact ⟨h.1.symm, fun i h1 h2 => h.2 i h1 h2⟩

theorem forall₂_of_getElem {α β : Type} {R : α → β → Prop} {l : List α} {r : List β} (hl : r.length = l.length)
    (h : ∀ (i : Nat) (h : i < l.length) (h' : i < r.length), R l[i] r[i]) : List.Forall₂ R l r := by
  rw [List.forall₂_iff_get]
  exact ⟨hl.symm, fun i h1 h2 => h i h1 h2⟩

theorem dec_parts (g : Gate) (ds outs : List (Op P U C)) :
    allParts g (partPulses ds) (partAcqs ds) (decide (∃ d ∈ ds, ¬ IsSched d)) outs =
      (if ∃ d ∈ ds, ¬ IsSched d then [.leaf (some g) (partPulses ds) (partAcqs ds)] else []) ++ outs := by
  unfold allParts
  by_cases h : ∃ d ∈ ds, ¬ IsSched d <;> simp [h]

theorem compileMux_cases {cfg : Cfg P U C} {rec : Kw → Op P U C → Except Err (Op P U C)} {g : Gate} {ov : Kw}
    {out : Op P U C} :
    compileMux cfg rec g ov = .ok out ↔ ∃ ds outs, ds.length = g.elements.length ∧
      (∀ (i : Nat) (h : i < g.elements.length) (h' : i < ds.length),
        Part cfg g (Dict.get? ov) i g.elements[i] ds[i]) ∧
      List.Forall₂ (fun d s => rec (merge (ownOverrides d) ov) d = .ok s) (ds.filter (fun d => IsSched d)) outs ∧
      (if ∃ d ∈ ds, IsSched d then
        out = muxSchedule g (partPulses ds) (partAcqs ds) (decide (∃ d ∈ ds, ¬ IsSched d)) outs
      else out = .leaf (some g) (partPulses ds) (partAcqs ds)) := by
  unfold compileMux
  constructor
  · intro h
    obtain ⟨⟨p, a, has, subs⟩, h1, h⟩ := bind_ok.mp h
    obtain ⟨ds, f⟩ := (muxLoop_found cfg rec g ov _ _ _).mp h1
    have fp := f.p
    have fa := f.a
    have fh := f.has
    have fs := f.subs
    simp only at fp fa fh fs
    subst fp fa fh
    refine ⟨ds, subs, f.len, fun i hi hi' => by simpa using f.part i hi hi', fs, ?_⟩
    have hlen := (forall₂_getElem fs).1
    by_cases hc : ∃ d ∈ ds, IsSched d
    · rw [if_pos hc]
      have hne : subs.isEmpty = false := by
        obtain ⟨d, hd, hs⟩ := hc
        have : d ∈ ds.filter (fun d => IsSched d) := by simp [hd, hs]
        have := List.length_pos_of_mem this
        cases subs with
        | nil => simp at hlen; omega
        | cons _ _ => rfl
      simp only [hne] at h
      exact (Except.ok.inj h).symm
    · rw [if_neg hc]
      have hne : subs.isEmpty = true := by
        have : ds.filter (fun d => IsSched d) = [] := by
          rw [List.filter_eq_nil_iff]
          intro d hd hs
          exact hc ⟨d, hd, by simpa using hs⟩
        rw [this] at hlen
        simpa using hlen
      simp only [hne, if_true] at h
      exact (Except.ok.inj h).symm
  · rintro ⟨ds, outs, h1, h2, h3, h4⟩
    refine bind_ok.mpr ⟨(partPulses ds, partAcqs ds, decide (∃ d ∈ ds, ¬ IsSched d), outs),
      (muxLoop_found cfg rec g ov _ _ _).mpr ⟨ds, h1, fun i hi hi' => by simpa using h2 i hi hi', rfl, rfl, rfl, h3⟩, ?_⟩
    have hlen := (forall₂_getElem h3).1
    by_cases hc : ∃ d ∈ ds, IsSched d
    · rw [if_pos hc] at h4
      have hne : outs.isEmpty = false := by
        obtain ⟨d, hd, hs⟩ := hc
        have : d ∈ ds.filter (fun d => IsSched d) := by simp [hd, hs]
        have := List.length_pos_of_mem this
        cases outs with
        | nil => simp at hlen; omega
        | cons _ _ => rfl
      simp only [hne, h4]
      rfl
    · rw [if_neg hc] at h4
      have hne : outs.isEmpty = true := by
        have : ds.filter (fun d => IsSched d) = [] := by
          rw [List.filter_eq_nil_iff]
          intro d hd hs
          exact hc ⟨d, hd, by simpa using hs⟩
        rw [this] at hlen
        simpa using hlen
      simp only [hne, if_true, h4]

/-- Soundness. -/
theorem compile_impl (cfg : Cfg P U C) (port : PortOf) : ∀ (n : Nat) (ov : Kw) (op out : Op P U C),
    compile cfg port n ov op = .ok out → Impl cfg port (Dict.get? ov) op out := by
  intro n
  induction n with
  | zero => intro ov op out h; cases h
  | succ n ih =>
    intro ov op out h
    cases op with
    | sched d items =>
      simp only [compile] at h
      obtain ⟨items', h1, h⟩ := bind_ok.mp h
      have h := Except.ok.inj h
      subst h
      rw [mapM_ok] at h1
      obtain ⟨hl, hi⟩ := forall₂_getElem h1
      refine .sched hl ?_ ?_
      · intro i h1 h2
        obtain ⟨o, ho, hp⟩ := bind_ok.mp (hi i h1 h2)
        rw [← Except.ok.inj hp]
      · intro i h1 h2
        obtain ⟨o, ho, hp⟩ := bind_ok.mp (hi i h1 h2)
        rw [← Except.ok.inj hp, ← ov_merge]
        exact ih _ _ _ ho
    | ctrl c body =>
      simp only [compile] at h
      obtain ⟨b, h1, h⟩ := bind_ok.mp h
      have h := Except.ok.inj h
      subst h
      have := ih _ _ _ h1
      rw [ov_merge, own_ctrl, over_none] at this
      exact .ctrl this
    | comp c body =>
      simp only [compile] at h
      obtain ⟨c', hc, h⟩ := bind_ok.mp h
      obtain ⟨b, h1, h⟩ := bind_ok.mp h
      have h := Except.ok.inj h
      subst h
      have hb : Impl cfg port (Dict.get? ov) body b := by
        have := ih _ _ _ h1
        rw [ov_merge, own_comp, over_none] at this
        exact this
      cases c with
      | gate els =>
        simp only [compileComp] at hc
        obtain ⟨r, hr, hc⟩ := bind_ok.mp hc
        have hc := Except.ok.inj hc
        subst hc
        have := compLoop_sound cfg port els [] [] none none r (compSettings_nil cfg port) hr
        exact .compGate (by simpa using this) hb
      | device amps grid rate =>
        have hc := Except.ok.inj hc
        subst hc
        exact .compDevice hb
    | asm clock c =>
      have h := Except.ok.inj h
      subst h
      exact .asm
    | leaf g p a =>
      simp only [compile] at h
      by_cases hpa : (p.isEmpty && a.isEmpty) = true
      · rw [if_pos hpa] at h
        simp only [Bool.and_eq_true, List.isEmpty_iff] at hpa
        obtain ⟨rfl, rfl⟩ := hpa
        cases g with
        | none => cases h
        | some g =>
          simp only at h
          rcases compileGate_cases h with ⟨d, hd, hf⟩ | ⟨hm, hf⟩
          · rw [ov_merge] at hd
            by_cases hsd : IsSched d
            · have hf' : compile cfg port n (merge (ownOverrides d)
                  (merge (ownOverrides (.leaf (some g) [] [] : Op P U C)) ov)) d = .ok out := by
                cases d <;> simp only [IsSched] at hsd
                exact hf
              refine .expand hd hsd ?_
              have := ih _ _ _ hf'
              rw [ov_merge, ov_merge] at this
              exact impl_over hsd this
            · have hf' : out = .leaf (some g) (infoOf d).1 (infoOf d).2 := by
                cases d <;> simp only [IsSched, not_true_eq_false] at hsd <;>
                  simpa [finish, addRepr] using (Except.ok.inj hf).symm
              subst hf'
              rw [infoOf_eq]
              exact .pulses hd hsd
          · obtain ⟨ds, outs, h1, h2, h3, h4⟩ := compileMux_cases.mp hf
            rw [ov_merge] at h2
            by_cases hc : ∃ d ∈ ds, IsSched d
            · rw [if_pos hc] at h4
              subst h4
              obtain ⟨hl, hi⟩ := forall₂_getElem h3
              refine .muxExpand hm h1 h2 hc hl ?_ (by rw [← dec_parts]; exact muxSchedule_atOnce _ _ _ _ _)
              intro i hi1 hi2
              have := ih _ _ _ (hi i hi1 hi2)
              rw [ov_merge, ov_merge] at this
              refine impl_over ?_ this
              have := List.getElem_mem hi1
              rw [List.mem_filter] at this
              simpa using this.2
            · rw [if_neg hc] at h4
              subst h4
              exact .muxPulses hm h1 h2 (fun d hd hs => hc ⟨d, hd, hs⟩)
      · rw [if_neg hpa] at h
        have h := Except.ok.inj h
        subst h
        exact .device (by simpa using hpa)

/-- More depth does not change a result. -/
theorem compile_mono (cfg : Cfg P U C) (port : PortOf) : ∀ (n : Nat) (ov : Kw) (op out : Op P U C),
    compile cfg port n ov op = .ok out → ∀ m, n ≤ m → compile cfg port m ov op = .ok out := by
  intro n
  induction n with
  | zero => intro ov op out h; cases h
  | succ n ih =>
    intro ov op out h m hm
    obtain ⟨m, rfl⟩ : ∃ k, m = k + 1 := ⟨m - 1, by omega⟩
    have hm : n ≤ m := by omega
    cases op with
    | sched d items =>
      simp only [compile] at h ⊢
      obtain ⟨items', h1, h⟩ := bind_ok.mp h
      refine bind_ok.mpr ⟨items', ?_, h⟩
      rw [mapM_ok] at h1 ⊢
      refine h1.imp ?_
      intro a b hab
      obtain ⟨o, ho, hp⟩ := bind_ok.mp hab
      exact bind_ok.mpr ⟨o, ih _ _ _ ho m hm, hp⟩
    | ctrl c body =>
      simp only [compile] at h ⊢
      obtain ⟨b, h1, h⟩ := bind_ok.mp h
      exact bind_ok.mpr ⟨b, ih _ _ _ h1 m hm, h⟩
    | comp c body =>
      simp only [compile] at h ⊢
      obtain ⟨c', hc, h⟩ := bind_ok.mp h
      obtain ⟨b, h1, h⟩ := bind_ok.mp h
      exact bind_ok.mpr ⟨c', hc, bind_ok.mpr ⟨b, ih _ _ _ h1 m hm, h⟩⟩
    | asm clock c => exact h
    | leaf g p a =>
      simp only [compile] at h ⊢
      by_cases hpa : (p.isEmpty && a.isEmpty) = true
      · rw [if_pos hpa] at h ⊢
        cases g with
        | none => cases h
        | some g =>
          simp only at h ⊢
          rcases compileGate_cases h with ⟨d, hd, hf⟩ | ⟨hmux, hf⟩
          · rw [compileGate_single hd]
            cases d with
            | sched dd items => exact ih _ _ _ hf m hm
            | _ => exact hf
          · rw [compileGate_mux hmux]
            obtain ⟨ds, outs, h1, h2, h3, h4⟩ := compileMux_cases.mp hf
            exact compileMux_cases.mpr ⟨ds, outs, h1, h2, h3.imp (fun a b hab => ih _ _ _ hab m hm), h4⟩
      · rw [if_neg hpa] at h ⊢; exact h

/-- The overrides matter only as a function. -/
theorem compile_congr (cfg : Cfg P U C) (port : PortOf) : ∀ (n : Nat) (kw kw' : Kw) (op : Op P U C),
    Dict.get? kw = Dict.get? kw' → compile cfg port n kw op = compile cfg port n kw' op := by
  intro n
  induction n with
  | zero => intros; rfl
  | succ n ih =>
    intro kw kw' op h
    have hm : ∀ o : Kw, Dict.get? (merge o kw) = Dict.get? (merge o kw') := by
      intro o; funext k; rw [get?_merge, get?_merge, h]
    cases op with
    | sched d items =>
      simp only [compile]
      have := fun i : Op P U C × Tc U => ih _ _ i.1 (hm (ownOverrides (.sched d items : Op P U C)))
      simp only [this]
    | ctrl c body => simp only [compile]; rw [ih _ _ body (hm _)]
    | comp c body => simp only [compile]; rw [ih _ _ body (hm _)]
    | asm clock c => rfl
    | leaf g p a =>
      simp only [compile]
      cases g with
      | none => rfl
      | some g =>
        have hm := hm (ownOverrides (.leaf (some g) p a : Op P U C))
        generalize merge (ownOverrides (.leaf (some g) p a : Op P U C)) kw = x at hm
        generalize merge (ownOverrides (.leaf (some g) p a : Op P U C)) kw' = y at hm
        have hrec : ∀ d : Op P U C, compile cfg port n (merge (ownOverrides d) x) d =
            compile cfg port n (merge (ownOverrides d) y) d := by
          intro d
          exact ih _ _ d (by funext k; rw [get?_merge, get?_merge, hm])
        have happ : ∀ kw : Kw, Dict.get? (applyOverrides x kw) = Dict.get? (applyOverrides y kw) := by
          intro kw; funext k; rw [get?_applyOverrides, get?_applyOverrides, hm]
        have hcall : ∀ (o : OpCfg P U C) (kw : Kw),
            callFactory o (applyOverrides x kw) = callFactory o (applyOverrides y kw) := by
          intro o kw; unfold callFactory; rw [happ]
        have hrepr : ∀ o : OpCfg P U C, deviceRepr g o x = deviceRepr g o y := by
          intro o; unfold deviceRepr; simp only [hcall]
        have hmux : ∀ (o : OpCfg P U C) i, deviceReprMux g o i x = deviceReprMux g o i y := by
          intro o i; unfold deviceReprMux; simp only [hcall]
        have hfin : ∀ d : Op P U C, finish (compile cfg port n) g x d = finish (compile cfg port n) g y d := by
          intro d; unfold finish
          cases d with
          | sched dd items => exact hrec _
          | _ => rfl
        have hloop : ∀ els i, muxLoop cfg (compile cfg port n) g x els i = muxLoop cfg (compile cfg port n) g y els i := by
          intro els
          induction els with
          | nil => intro i; rfl
          | cons el els ih2 =>
            intro i
            simp only [muxLoop, hmux, ih2]
            congr 1; funext o; congr 1; funext d
            cases d with
            | sched dd items => simp only [hrec]
            | _ => rfl
        have hg : compileGate cfg (compile cfg port n) g x = compileGate cfg (compile cfg port n) g y := by
          unfold compileGate compileMux
          simp only [hrepr, hfin, hloop]
        simp only [hg]

/-- The compiler adds the overrides of a schedule twice, which changes nothing. -/
theorem compile_merge_own (cfg : Cfg P U C) (port : PortOf) (n : Nat) (kw : Kw) (dd : SData)
    (items : List (Op P U C × Tc U)) (o : Op P U C)
    (h : compile cfg port (n + 1) kw (.sched dd items) = .ok o) :
    compile cfg port (n + 1) (merge (ownOverrides (.sched dd items : Op P U C)) kw) (.sched dd items) = .ok o := by
  rw [← h]
  simp only [compile]
  have : ∀ i : Op P U C × Tc U, compile cfg port n (merge (ownOverrides (.sched dd items : Op P U C))
      (merge (ownOverrides (.sched dd items : Op P U C)) kw)) i.1 =
      compile cfg port n (merge (ownOverrides (.sched dd items : Op P U C)) kw) i.1 := by
    intro i
    apply compile_congr
    rw [ov_merge, ov_merge, over_over]
  simp only [this]

theorem exists_bound {n : Nat} {p : Nat → Nat → Prop} (hmono : ∀ i a b, a ≤ b → p i a → p i b)
    (h : ∀ i < n, ∃ a, p i a) : ∃ a, ∀ i < n, p i a := by
  induction n with
  | zero => exact ⟨0, by omega⟩
  | succ n ih =>
    obtain ⟨a, ha⟩ := ih (fun i hi => h i (by omega))
    obtain ⟨b, hb⟩ := h n (by omega)
    refine ⟨max a b, fun i hi => ?_⟩
    by_cases hin : i = n
    · subst hin; exact hmono _ _ _ (le_max_right _ _) hb
    · exact hmono _ _ _ (le_max_left _ _) (ha i (by omega))

/-- Completeness: if there is an implementation, the compiler finds one, given enough depth. -/
theorem impl_compile {cfg : Cfg P U C} {port : PortOf} {ov : Ov} {op out : Op P U C} (h : Impl cfg port ov op out) :
    ∀ kw : Kw, Dict.get? kw = ov → ∃ n out', compile cfg port n kw op = .ok out' := by
  induction h with
  | @sched ov d items items' hl htc hitems ih =>
    intro kw hkw
    have hov : Dict.get? (merge (ownOverrides (.sched d items : Op P U C)) kw) = Ov.over ov (own (.sched d items)) := by
      rw [ov_merge, hkw]
    obtain ⟨n, hn⟩ := exists_bound (n := items.length)
      (p := fun i n => ∀ h : i < items.length, ∃ out',
        compile cfg port n (merge (ownOverrides (.sched d items : Op P U C)) kw) items[i].1 = .ok out')
      (fun i a b hab hp h => by
        obtain ⟨o, ho⟩ := hp h
        exact ⟨o, compile_mono _ _ _ _ _ _ ho b hab⟩)
      (fun i hi => by
        obtain ⟨n, o, ho⟩ := ih i hi (by omega) _ hov
        exact ⟨n, fun _ => ⟨o, ho⟩⟩)
    have : ∃ r, items.mapM (fun i => do
        let o ← compile cfg port n (merge (ownOverrides (.sched d items : Op P U C)) kw) i.1
        pure (o, i.2)) = Except.ok r := by
      have hall : ∀ x ∈ items, ∃ out', compile cfg port n
          (merge (ownOverrides (.sched d items : Op P U C)) kw) x.1 = .ok out' := by
        intro x hx
        obtain ⟨i, hi, rfl⟩ := List.getElem_of_mem hx
        exact hn i hi hi
      clear hn ih hitems htc hl hov
      generalize merge (ownOverrides (.sched d items : Op P U C)) kw = kw' at hall
      induction items with
      | nil => exact ⟨[], rfl⟩
      | cons x xs ih2 =>
        obtain ⟨o, ho⟩ := hall x (by simp)
        obtain ⟨r, hr⟩ := ih2 (fun y hy => hall y (by simp [hy]))
        refine ⟨(o, x.2) :: r, ?_⟩
        rw [mapM_ok] at hr ⊢
        exact .cons (bind_ok.mpr ⟨o, ho, rfl⟩) hr
    obtain ⟨r, hr⟩ := this
    exact ⟨n + 1, .sched d r, by simp only [compile]; exact bind_ok.mpr ⟨r, hr, rfl⟩⟩
  | @ctrl ov c body body' hb ih =>
    intro kw hkw
    obtain ⟨n, o, ho⟩ := ih (merge (ownOverrides (.ctrl c body : Op P U C)) kw)
      (by rw [ov_merge, hkw, own_ctrl, over_none])
    exact ⟨n + 1, .ctrl c o, by simp only [compile]; exact bind_ok.mpr ⟨o, ho, rfl⟩⟩
  | @compGate ov els amps grid rate body body' hc hb ih =>
    intro kw hkw
    obtain ⟨n, o, ho⟩ := ih (merge (ownOverrides (.comp (.gate els) body : Op P U C)) kw)
      (by rw [ov_merge, hkw, own_comp, over_none])
    obtain ⟨r, hr⟩ := compLoop_total cfg port els [] grid rate none none
      (fun el he o ho => by
        obtain ⟨a1, a2, a3, a4, p, a5, _⟩ := hc.agree el he o ho
        exact ⟨a1, a2, a3, a4, p, a5⟩) (Or.inl rfl) (Or.inl rfl)
    refine ⟨n + 1, .comp (.device r.1 r.2.1 r.2.2) o, ?_⟩
    simp only [compile]
    exact bind_ok.mpr ⟨.device r.1 r.2.1 r.2.2, bind_ok.mpr ⟨r, hr, rfl⟩, bind_ok.mpr ⟨o, ho, rfl⟩⟩
  | @compDevice ov amps grid rate body body' hb ih =>
    intro kw hkw
    obtain ⟨n, o, ho⟩ := ih (merge (ownOverrides (.comp (.device amps grid rate) body : Op P U C)) kw)
      (by rw [ov_merge, hkw, own_comp, over_none])
    refine ⟨n + 1, .comp (.device amps grid rate) o, ?_⟩
    simp only [compile]
    exact bind_ok.mpr ⟨_, rfl, bind_ok.mpr ⟨o, ho, rfl⟩⟩
  | @asm ov clock c => intro kw _; exact ⟨1, _, rfl⟩
  | @device ov g p a hpa =>
    intro kw _
    refine ⟨1, .leaf g p a, ?_⟩
    simp only [compile]
    rw [if_neg (by simpa using hpa)]
  | @pulses ov g d hs hd =>
    intro kw hkw
    have hs : Single cfg g (Dict.get? (merge (ownOverrides (.leaf (some g) [] [] : Op P U C)) kw)) d := by
      rw [ov_merge, hkw]; exact hs
    refine ⟨1, addRepr g [] [] d, ?_⟩
    simp only [compile, List.isEmpty_nil, Bool.and_self, if_true]
    rw [compileGate_single hs]
    cases d <;> simp only [IsSched, not_true_eq_false] at hd <;> rfl
  | @expand ov g d out hs hd hi ih =>
    intro kw hkw
    have hs : Single cfg g (Dict.get? (merge (ownOverrides (.leaf (some g) [] [] : Op P U C)) kw)) d := by
      rw [ov_merge, hkw]; exact hs
    obtain ⟨n, o, ho⟩ := ih (merge (ownOverrides (.leaf (some g) [] [] : Op P U C)) kw) (by rw [ov_merge, hkw])
    -- the compiler adds the overrides of the schedule once more
    have : Impl cfg port (Dict.get? (merge (ownOverrides (.leaf (some g) [] [] : Op P U C)) kw)) d o :=
      compile_impl _ _ _ _ _ _ ho
    cases d <;> simp only [IsSched] at hd
    cases n with
    | zero => cases ho
    | succ n =>
      refine ⟨n + 1 + 1, o, ?_⟩
      rw [compile]
      simp only [List.isEmpty_nil, Bool.and_self, if_true]
      rw [compileGate_single hs]
      simp only [finish]
      exact compile_merge_own cfg port n _ _ _ o ho
  | @muxPulses ov g ds hm hl hp hns =>
    intro kw hkw
    refine ⟨1, .leaf (some g) (partPulses ds) (partAcqs ds), ?_⟩
    simp only [compile, List.isEmpty_nil, Bool.and_self, if_true]
    rw [compileGate_mux hm]
    refine compileMux_cases.mpr ⟨ds, [], hl, by rw [ov_merge, hkw]; exact hp, ?_, ?_⟩
    · have : ds.filter (fun d => IsSched d) = [] := by
        rw [List.filter_eq_nil_iff]
        intro d hd hs
        exact hns d hd (by simpa using hs)
      rw [this]; exact .nil
    · rw [if_neg (by rintro ⟨d, hd, hs⟩; exact hns d hd hs)]
  | @muxExpand ov g ds outs out hm hl hp hex hlo hi hat ih =>
    intro kw hkw
    have hov : Dict.get? (merge (ownOverrides (.leaf (some g) [] [] : Op P U C)) kw) =
      Ov.over ov (own (.leaf (some g) [] [] : Op P U C)) := by rw [ov_merge, hkw]
    generalize hkw' : merge (ownOverrides (.leaf (some g) [] [] : Op P U C)) kw = kw' at hov
    obtain ⟨n, hn⟩ := exists_bound (n := (ds.filter (fun d => IsSched d)).length)
      (p := fun i n => ∀ h : i < (ds.filter (fun d => IsSched d)).length, ∃ out',
        compile cfg port n (merge (ownOverrides (ds.filter (fun d => IsSched d))[i]) kw')
          (ds.filter (fun d => IsSched d))[i] = .ok out')
      (fun i a b hab hp h => by
        obtain ⟨o, ho⟩ := hp h
        exact ⟨o, compile_mono _ _ _ _ _ _ ho b hab⟩)
      (fun i hi => by
        obtain ⟨n, o, ho⟩ := ih i hi (by omega) kw' hov
        have hs : IsSched (ds.filter (fun d => IsSched d))[i] := by
          have := List.getElem_mem hi
          rw [List.mem_filter] at this
          simpa using this.2
        refine ⟨n, fun _ => ⟨o, ?_⟩⟩
        generalize (ds.filter (fun d => IsSched d))[i] = d at ho hs
        cases d <;> simp only [IsSched] at hs
        cases n with
        | zero => cases ho
        | succ n => exact compile_merge_own cfg port n _ _ _ o ho)
    have : ∃ r, List.Forall₂ (fun d s => compile cfg port n (merge (ownOverrides d) kw') d = .ok s)
        (ds.filter (fun d => IsSched d)) r := by
      have hall : ∀ x ∈ ds.filter (fun d => IsSched d), ∃ out', compile cfg port n
          (merge (ownOverrides x) kw') x = .ok out' := by
        intro x hx
        obtain ⟨i, hi, rfl⟩ := List.getElem_of_mem hx
        exact hn i hi hi
      clear hn
      generalize ds.filter (fun d => IsSched d) = l at hall
      induction l with
      | nil => exact ⟨[], .nil⟩
      | cons x xs ih2 =>
        obtain ⟨o, ho⟩ := hall x (by simp)
        obtain ⟨r, hr⟩ := ih2 (fun y hy => hall y (by simp [hy]))
        exact ⟨o :: r, .cons ho hr⟩
    obtain ⟨r, hr⟩ := this
    refine ⟨n + 1, muxSchedule g (partPulses ds) (partAcqs ds) (decide (∃ d ∈ ds, ¬ IsSched d)) r, ?_⟩
    rw [compile]
    simp only [List.isEmpty_nil, Bool.and_self, if_true]
    rw [compileGate_mux hm, hkw']
    exact compileMux_cases.mpr ⟨ds, r, hl, by rw [hov]; exact hp, hr, by rw [if_pos hex]⟩

end Verif.Circuit
