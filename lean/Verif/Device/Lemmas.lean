/-
Lemmas on parameters and sessions.
-/
import Verif.Device.Spec
import Mathlib.Tactic.Choose

namespace Verif.Device

open Verif Verif.Device.Spec

set_option linter.unusedSimpArgs false
set_option linter.unusedVariables false

/-- Submodule and name of a parameter. -/
def Par.key (p : Par) : String × String := (p.sub, p.name)

theorem get?_mapKV {K V : Type} [DecidableEq K] (f : K → V → V) (d : List (K × V)) (k : K) :
    Dict.get? (d.map fun e => (e.1, f e.1 e.2)) k = (Dict.get? d k).map (f k) := by
  induction d with
  | nil => rfl
  | cons e d ih =>
    rw [List.map_cons, Dict.get?_cons, Dict.get?_cons]
    by_cases h : e.1 = k
    · simp [h]
    · simp only [h, if_false]; simpa using ih

theorem get?_append {K V : Type} [DecidableEq K] (d d' : List (K × V)) (k : K) :
    Dict.get? (d ++ d') k = (Dict.get? d k).or (Dict.get? d' k) := by
  induction d with
  | nil => simp [Dict.get?_nil]
  | cons e d ih =>
    rw [List.cons_append, Dict.get?_cons, Dict.get?_cons]
    by_cases h : e.1 = k
    · simp [h]
    · simp only [h, if_false]; simpa using ih

/-- What setting a parameter does to the value with this key. -/
def after (pars : List Par) (p : Par) (v : Val) (k : String × String) (w : Val) : Val :=
  if k = p.key then v
  else if p.nested && v != .nan && pars.any (fun r => r.nested && r.key == k && r.sub == p.sub) then .nan else w

theorem assign_eq (pars : List Par) (ps : Params) (p : Par) (v : Val) :
    assign pars ps p v = ps.map fun e => (e.1, after pars p v e.1 e.2) := by
  unfold assign
  apply List.map_congr_left
  intro e he
  unfold after Par.key
  split
  · rfl
  · split <;> rfl

theorem keys_assign (pars : List Par) (ps : Params) (p : Par) (v : Val) :
    Dict.keys (assign pars ps p v) = Dict.keys ps := by
  rw [assign_eq]
  simp [Dict.keys, Function.comp_def]

theorem get?_assign (pars : List Par) (ps : Params) (p : Par) (v : Val) (k : String × String) :
    Dict.get? (assign pars ps p v) k = (Dict.get? ps k).map (after pars p v k) := by
  rw [assign_eq, get?_mapKV]

/-- The values of the parameters of an instrument are what they can be. -/
structure WF (pars : List Par) (ps : Params) : Prop where
  keys : Dict.keys ps = pars.map Par.key
  ok : ∀ p ∈ pars, ∀ v, Dict.get? ps p.key = some v → p.vals.ok v = true
  refs : ∀ p ∈ pars, ∀ q ∈ pars, p.nested = true → q.nested = true → p.sub = q.sub → p.key ≠ q.key →
    ∀ v w, Dict.get? ps p.key = some v → Dict.get? ps q.key = some w → v = .nan ∨ w = .nan

/-- Parameters of a class: distinct, and the nested ones may be NaN. -/
structure Good (pars : List Par) : Prop where
  nodup : (pars.map Par.key).Nodup
  nan : ∀ p ∈ pars, p.nested = true → p.vals.ok .nan = true
  same : ∀ p ∈ pars, ∀ q ∈ pars, p.key = q.key → p = q

theorem Good.of {pars : List Par} (h : (pars.map Par.key).Nodup)
    (hn : ∀ p ∈ pars, p.nested = true → p.vals.ok .nan = true) : Good pars := by
  refine ⟨h, hn, ?_⟩
  intro p hp q hq e
  exact List.inj_on_of_nodup_map h hp hq e

theorem good_kind (k : Kind) : Good k.pars := by
  cases k <;> exact Good.of (by decide +kernel) (by decide +kernel)

theorem append_right_inj' {a b s : String} (h : a ++ s = b ++ s) : a = b := by
  have := congrArg String.toList h
  rw [String.toList_append, String.toList_append] at this
  exact String.toList_inj.mp (List.append_cancel_right this)

theorem suffix_char {a b : String} {s t : String} (h : a ++ s = b ++ t) (hs : s.toList ≠ []) (ht : t.toList ≠ []) :
    s.toList.getLast hs = t.toList.getLast ht := by
  have := congrArg String.toList h
  rw [String.toList_append, String.toList_append] at this
  have e1 : (a.toList ++ s.toList).getLast (by simp [hs]) = s.toList.getLast hs := List.getLast_append_of_ne_nil _ hs
  have e2 : (b.toList ++ t.toList).getLast (by simp [ht]) = t.toList.getLast ht := List.getLast_append_of_ne_nil _ ht
  rw [← e1, ← e2]
  congr 1

theorem pc_ne (a : String) : a ++ "_phase_correction" ≠ "square_amp" ∧ a ++ "_phase_correction" ≠ "square_duration" := by
  constructor
  · intro h
    have := congrArg String.toList h
    rw [String.toList_append] at this
    have h2 := congrArg (fun l => l.getLast?) this
    simp at h2
  · intro h
    have := congrArg String.toList h
    rw [String.toList_append] at this
    have h2 := congrArg List.length this
    have h3 := congrArg (fun l => (l.reverse.take 12)) this
    simp only [List.reverse_append] at h3
    rw [List.take_append_of_le_length (by decide +kernel)] at h3
    revert h3; decide +kernel

theorem good_edge (k : EKind) {p c : String} (h : p ≠ c) : Good (k.pars p c) := by
  obtain ⟨a1, a2⟩ := pc_ne p
  obtain ⟨b1, b2⟩ := pc_ne c
  have h3 : p ++ "_phase_correction" ≠ c ++ "_phase_correction" := fun e => h (append_right_inj' e)
  cases k
  · refine Good.of ?_ ?_
    · simp [EKind.pars, czPars, Par.key, a1, a2, b1, b2, h3, a1.symm, a2.symm, b1.symm, b2.symm]
    · simp [EKind.pars, czPars]
  · refine Good.of ?_ ?_
    · simp [EKind.pars, czPars, Par.key, a1, a2, b1, b2, h3, a1.symm, a2.symm, b1.symm, b2.symm]
    · simp [EKind.pars, czPars]

/-- Setting a parameter keeps the values what they can be. -/
theorem WF.assign {pars : List Par} (g : Good pars) {ps : Params} (h : WF pars ps) {p : Par} (hp : p ∈ pars) {v : Val}
    (hv : p.vals.ok v = true) : WF pars (assign pars ps p v) := by
  refine ⟨by rw [keys_assign, h.keys], ?_, ?_⟩
  · intro q hq w hw
    rw [get?_assign] at hw
    cases hg : Dict.get? ps q.key with
    | none => rw [hg] at hw; cases hw
    | some w0 =>
      rw [hg] at hw
      simp only [Option.map_some, Option.some.injEq] at hw
      unfold after at hw
      by_cases e : q.key = p.key
      · rw [if_pos e] at hw
        rw [g.same q hq p hp e, ← hw]; exact hv
      · rw [if_neg e] at hw
        split at hw
        · rename_i hc
          simp only [Bool.and_eq_true, List.any_eq_true] at hc
          obtain ⟨_, r, hr, ⟨hn, hk⟩, _⟩ := hc
          have : r.key = q.key := by simpa using hk
          rw [g.same q hq r hr this.symm, ← hw]
          exact g.nan r hr hn
        · rw [← hw]; exact h.ok q hq w0 hg
  · intro q hq r hr hqn hrn hs hk v1 v2 h1 h2
    rw [get?_assign] at h1 h2
    cases hg1 : Dict.get? ps q.key with
    | none => rw [hg1] at h1; cases h1
    | some w1 =>
      cases hg2 : Dict.get? ps r.key with
      | none => rw [hg2] at h2; cases h2
      | some w2 =>
        rw [hg1] at h1; rw [hg2] at h2
        simp only [Option.map_some, Option.some.injEq] at h1 h2
        unfold after at h1 h2
        have old := h.refs q hq r hr hqn hrn hs hk w1 w2 hg1 hg2
        -- nested siblings of a set unit become NaN
        by_cases e1 : q.key = p.key
        · have e2 : r.key ≠ p.key := fun e => hk (e1.trans e.symm)
          rw [if_pos e1] at h1
          rw [if_neg e2] at h2
          by_cases hvn : v = .nan
          · left; rw [← h1, hvn]
          · right
            have hqp := g.same q hq p hp e1
            have : (p.nested && v != .nan && pars.any (fun x => x.nested && x.key == r.key && x.sub == p.sub)) = true := by
              simp only [Bool.and_eq_true, List.any_eq_true]
              refine ⟨⟨hqp ▸ hqn, by simpa using hvn⟩, r, hr, ⟨hrn, by simp⟩, ?_⟩
              simp [← hs, hqp]
            rw [if_pos this] at h2
            exact h2.symm
        · rw [if_neg e1] at h1
          by_cases e2 : r.key = p.key
          · rw [if_pos e2] at h2
            by_cases hvn : v = .nan
            · right; rw [← h2, hvn]
            · left
              have hrp := g.same r hr p hp e2
              have : (p.nested && v != .nan && pars.any (fun x => x.nested && x.key == q.key && x.sub == p.sub)) = true := by
                simp only [Bool.and_eq_true, List.any_eq_true]
                refine ⟨⟨hrp ▸ hrn, by simpa using hvn⟩, q, hq, ⟨hqn, by simp⟩, ?_⟩
                simp [hs, hrp]
              rw [if_pos this] at h1
              exact h1.symm
          · rw [if_neg e2] at h2
            rcases old with o | o
            · left; rw [← h1, o]; split <;> rfl
            · right; rw [← h2, o]; split <;> rfl

/-- Construction, with the invariant of the parameters made so far. -/
theorem build_wf {all : List Par} (g : Good all) {name : String} {kw : Params} :
    ∀ (rest done : List Par) (ps : Params), all = done ++ rest →
      WF done ps → ∀ ps', build all name kw rest ps = .ok ps' → WF all ps' := by
  intro rest
  induction rest with
  | nil =>
    intro done ps hall hwf ps' hb
    simp only [build, Except.ok.injEq] at hb
    subst hb
    rw [hall, List.append_nil]; exact hwf
  | cons p rest ih =>
    intro done ps hall hwf ps' hb
    simp only [build] at hb
    split at hb
    · rename_i hok
      refine ih (done ++ [p]) _ (by simp [hall]) ?_ ps' hb
      -- the parameters made so far are distinct
      have hpall : p ∈ all := by rw [hall]; simp
      have sub : ∀ q, q ∈ done ++ [p] → q ∈ all := by
        intro q hq; rw [hall]
        simp only [List.mem_append, List.mem_cons, List.not_mem_nil, or_false] at hq ⊢
        tauto
      have g' : Good (done ++ [p]) := by
        refine ⟨?_, fun q hq => g.nan q (sub q hq), fun q hq r hr => g.same q (sub q hq) r (sub r hr)⟩
        have := g.nodup
        rw [hall, show done ++ p :: rest = (done ++ [p]) ++ rest by simp, List.map_append] at this
        exact (List.nodup_append.mp this).1
      have hpd : p.key ∉ done.map Par.key := by
        have := g'.nodup
        rw [List.map_append] at this
        intro hm
        exact (List.nodup_append.mp this).2.2 _ hm _ (by simp) rfl
      have hnone : Dict.get? ps p.key = none := (Dict.get?_eq_none_iff _ _).mpr (by rw [hwf.keys]; exact hpd)
      refine ⟨?_, ?_, ?_⟩
      · rw [keys_assign]
        simp only [Dict.keys, List.map_append, List.map_cons, List.map_nil]
        have := hwf.keys
        simp only [Dict.keys] at this
        rw [this]; rfl
      · intro q hq w hw
        rw [get?_assign, get?_append] at hw
        by_cases e : q.key = p.key
        · have hqp := g'.same q hq p (by simp) e
          subst hqp
          rw [hnone] at hw
          simp [Dict.get?_cons, Par.key, after] at hw
          rw [← hw]; exact hok
        · have hqd : q ∈ done := by
            simp only [List.mem_append, List.mem_cons, List.not_mem_nil, or_false] at hq
            rcases hq with hq | hq
            · exact hq
            · exact absurd (by rw [hq]) e
          have : Dict.get? [((p.sub, p.name), Val.none)] q.key = none := by
            rw [Dict.get?_eq_none_iff]; simp [Dict.keys]; intro h; exact e h
          rw [this, Option.or_none] at hw
          cases hg : Dict.get? ps q.key with
          | none => rw [hg] at hw; cases hw
          | some w0 =>
            rw [hg] at hw
            simp only [Option.map_some, Option.some.injEq] at hw
            unfold after at hw
            rw [if_neg e] at hw
            split at hw
            · rename_i hc
              simp only [Bool.and_eq_true, List.any_eq_true] at hc
              obtain ⟨_, r, hr, ⟨hn, hk⟩, _⟩ := hc
              have : r.key = q.key := by simpa using hk
              rw [g.same q (sub q hq) r hr this.symm, ← hw]
              exact g.nan r hr hn
            · rw [← hw]; exact hwf.ok q hqd w0 hg
      · intro q hq r hr hqn hrn hs hk v1 v2 h1 h2
        rw [get?_assign, get?_append] at h1 h2
        have single : ∀ x : Par, x.key ≠ p.key → Dict.get? [((p.sub, p.name), Val.none)] x.key = none := by
          intro x hx; rw [Dict.get?_eq_none_iff]; simp [Dict.keys]; intro h; exact hx h
        have indone : ∀ x ∈ done ++ [p], x.key ≠ p.key → x ∈ done := by
          intro x hx e
          simp only [List.mem_append, List.mem_cons, List.not_mem_nil, or_false] at hx
          rcases hx with hx | hx
          · exact hx
          · exact absurd (by rw [hx]) e
        by_cases hvn : initial name p.dflt (Dict.get? kw (p.sub, p.name)) = .nan
        · -- NaN: nothing else changes
          by_cases e1 : q.key = p.key
          · left
            rw [e1, hnone] at h1
            simp [Dict.get?_cons, Par.key, after] at h1
            rw [← h1]; exact hvn
          · by_cases e2 : r.key = p.key
            · right
              rw [e2, hnone] at h2
              simp [Dict.get?_cons, Par.key, after] at h2
              rw [← h2]; exact hvn
            · rw [single q e1, Option.or_none] at h1
              rw [single r e2, Option.or_none] at h2
              cases hg1 : Dict.get? ps q.key with
              | none => rw [hg1] at h1; cases h1
              | some w1 =>
                cases hg2 : Dict.get? ps r.key with
                | none => rw [hg2] at h2; cases h2
                | some w2 =>
                  rw [hg1] at h1; rw [hg2] at h2
                  simp [after, e1, e2, hvn] at h1 h2
                  rw [← h1, ← h2]
                  exact hwf.refs q (indone q hq e1) r (indone r hr e2) hqn hrn hs hk w1 w2 hg1 hg2
        · have nanned : ∀ x ∈ done ++ [p], x.nested = true → x.sub = p.sub → p.nested = true → x.key ≠ p.key →
              ∀ w w', after all p (initial name p.dflt (Dict.get? kw (p.sub, p.name))) x.key w = w' → w' = .nan := by
            intro x hx hxn hxs hpn hxk w w' hw
            unfold after at hw
            rw [if_neg hxk, if_pos] at hw
            · exact hw.symm
            · simp only [Bool.and_eq_true, List.any_eq_true]
              exact ⟨⟨hpn, by simpa using hvn⟩, x, sub x hx, ⟨hxn, by simp⟩, by simpa using hxs⟩
          by_cases e1 : q.key = p.key
          · have e2 : r.key ≠ p.key := fun e => hk (e1.trans e.symm)
            right
            have hqp := g'.same q hq p (by simp) e1
            rw [single r e2, Option.or_none] at h2
            cases hg2 : Dict.get? ps r.key with
            | none => rw [hg2] at h2; cases h2
            | some w2 =>
              rw [hg2] at h2
              simp only [Option.map_some, Option.some.injEq] at h2
              exact nanned r hr hrn (by rw [← hs, hqp]) (hqp ▸ hqn) e2 _ _ h2
          · by_cases e2 : r.key = p.key
            · left
              have hrp := g'.same r hr p (by simp) e2
              rw [single q e1, Option.or_none] at h1
              cases hg1 : Dict.get? ps q.key with
              | none => rw [hg1] at h1; cases h1
              | some w1 =>
                rw [hg1] at h1
                simp only [Option.map_some, Option.some.injEq] at h1
                exact nanned q hq hqn (by rw [hs, hrp]) (hrp ▸ hrn) e1 _ _ h1
            · rw [single q e1, Option.or_none] at h1
              rw [single r e2, Option.or_none] at h2
              cases hg1 : Dict.get? ps q.key with
              | none => rw [hg1] at h1; cases h1
              | some w1 =>
                cases hg2 : Dict.get? ps r.key with
                | none => rw [hg2] at h2; cases h2
                | some w2 =>
                  rw [hg1] at h1; rw [hg2] at h2
                  simp only [Option.map_some, Option.some.injEq] at h1 h2
                  unfold after at h1 h2
                  rw [if_neg e1] at h1
                  rw [if_neg e2] at h2
                  rcases hwf.refs q (indone q hq e1) r (indone r hr e2) hqn hrn hs hk w1 w2 hg1 hg2 with o | o
                  · left; rw [← h1, o]; split <;> rfl
                  · right; rw [← h2, o]; split <;> rfl
    · cases hb

/-- What holds of every registered instrument. -/
structure Instr.Fine (i : Instr) : Prop where
  wf : WF i.pars i.params
  possible : i.possible = true
  good : Good i.pars

/-- What holds in every session. -/
structure Inv (s : St) : Prop where
  keys : (Dict.keys s.reg).Nodup
  name : ∀ n i, (n, i) ∈ s.reg → i.name = n ∧ i.Fine
  elements : s.dev.elements.Nodup
  edges : s.dev.edges.Nodup
  plain : ∀ n ∈ s.dev.elements, '_' ∉ n.toList

theorem makeElem_ok {k : Kind} {n : String} {kw : Params} {i : Instr} (h : makeElem k n kw = .ok i) :
    ∃ ps, i = .elem k n ps ∧ build k.pars n kw k.pars [] = .ok ps ∧ i.Fine := by
  unfold makeElem at h
  split at h
  · cases h
  · rename_i hn
    split at h
    · cases hb : build k.pars n kw k.pars [] with
      | error e => rw [hb] at h; cases h
      | ok ps =>
        rw [hb] at h
        have : i = .elem k n ps := by
          simp only [Except.map, Except.ok.injEq] at h; exact h.symm
        subst this
        refine ⟨ps, rfl, rfl, ?_, ?_, good_kind k⟩
        · exact build_wf (good_kind k) k.pars [] [] rfl ⟨rfl, by simp, by simp⟩ ps hb
        · simp only [not_or] at hn
          simp [Instr.possible, hn.1, hn.2]
    · cases h

theorem makeEdge_ok {k : EKind} {p c : String} {kw : Params} {i : Instr} (h : makeEdge k p c kw = .ok i) :
    ∃ ps, i = .edge k p c ps ∧ build (k.pars p c) (p ++ "_" ++ c) kw (k.pars p c) [] = .ok ps ∧ p ≠ c ∧ i.Fine := by
  unfold makeEdge at h
  split at h
  · cases h
  · rename_i hn
    split at h
    · cases hb : build (k.pars p c) (p ++ "_" ++ c) kw (k.pars p c) [] with
      | error e => rw [hb] at h; cases h
      | ok ps =>
        rw [hb] at h
        have : i = .edge k p c ps := by
          simp only [Except.map, Except.ok.injEq] at h; exact h.symm
        subst this
        refine ⟨ps, rfl, rfl, hn, ?_, rfl, good_edge k hn⟩
        exact build_wf (good_edge k hn) (k.pars p c) [] [] rfl ⟨rfl, by simp, by simp⟩ ps hb
    · cases h

theorem register_ok {reg : Registry} {i : Instr} {reg' : Registry} (h : register reg i = .ok reg') :
    i.name ∉ Dict.keys reg ∧ reg' = reg ++ [(i.name, i)] := by
  unfold register at h
  split at h
  · cases h
  · rename_i hn
    simp only [Except.ok.injEq] at h
    exact ⟨hn, h.symm⟩

theorem Inv.register {s : St} (h : Inv s) {i : Instr} {reg' : Registry} (hr : register s.reg i = .ok reg') (hf : i.Fine) :
    Inv { s with reg := reg' } := by
  obtain ⟨hn, rfl⟩ := register_ok hr
  refine ⟨?_, ?_, h.elements, h.edges, h.plain⟩
  · simp only [Dict.keys, List.map_append, List.map_cons, List.map_nil]
    exact List.nodup_append.mpr ⟨h.keys, by simp, by
      intro a ha b hb e
      simp only [List.mem_cons, List.not_mem_nil, or_false] at hb
      rw [e, hb] at ha
      exact hn ha⟩
  · intro n j hj
    simp only [List.mem_append, List.mem_cons, List.not_mem_nil, or_false, Prod.mk.injEq] at hj
    rcases hj with hj | ⟨rfl, rfl⟩
    · exact h.name n j hj
    · exact ⟨rfl, hf⟩

theorem withParams_facts (i : Instr) (ps : Params) (h : i.pars ≠ []) :
    (i.withParams ps).name = i.name ∧ (i.withParams ps).pars = i.pars ∧ (i.withParams ps).params = ps ∧
      (i.withParams ps).possible = i.possible := by
  cases i with
  | elem => exact ⟨rfl, rfl, rfl, rfl⟩
  | edge => exact ⟨rfl, rfl, rfl, rfl⟩
  | other => exact absurd rfl h

theorem setParam_ok {i : Instr} {sub par : String} {v : Val} {i' : Instr} (h : setParam i sub par v = .ok i') :
    ∃ p ∈ i.pars, p.key = (sub, par) ∧ p.vals.ok v = true ∧ i'.name = i.name ∧ i'.pars = i.pars ∧
      i'.params = assign i.pars i.params p v ∧ i'.possible = i.possible := by
  unfold setParam at h
  split at h
  · cases h
  · rename_i p hp
    split at h
    · rename_i hv
      simp only [Except.ok.injEq] at h
      have hm := List.mem_of_find?_eq_some hp
      have hk := List.find?_some hp
      simp only [Bool.and_eq_true, beq_iff_eq] at hk
      obtain ⟨a, b, c, d⟩ := withParams_facts i (Device.assign i.pars i.params p v) (List.ne_nil_of_mem hm)
      subst h
      exact ⟨p, hm, by simp [Par.key, hk], hv, a, b, c, d⟩
    · cases h

theorem Inv.step {s : St} (h : Inv s) {c : Cmd} {s' : St} (hs : step s c = .ok s') : Inv s' := by
  cases c with
  | newElem k n kw =>
    simp only [Device.step, bind, Except.bind] at hs
    cases hm : makeElem k n kw with
    | error e => rw [hm] at hs; cases hs
    | ok i =>
      rw [hm] at hs
      simp only at hs
      cases hr : Device.register s.reg i with
      | error e => rw [hr] at hs; cases hs
      | ok reg' =>
        rw [hr] at hs
        simp only [pure, Except.pure, Except.ok.injEq] at hs
        subst hs
        obtain ⟨ps, _, _, hf⟩ := makeElem_ok hm
        exact h.register hr hf
  | newEdge k p c kw =>
    simp only [Device.step, bind, Except.bind] at hs
    cases hm : makeEdge k p c kw with
    | error e => rw [hm] at hs; cases hs
    | ok i =>
      rw [hm] at hs
      simp only at hs
      cases hr : Device.register s.reg i with
      | error e => rw [hr] at hs; cases hs
      | ok reg' =>
        rw [hr] at hs
        simp only [pure, Except.pure, Except.ok.injEq] at hs
        subst hs
        obtain ⟨ps, _, _, _, hf⟩ := makeEdge_ok hm
        exact h.register hr hf
  | newOther n =>
    simp only [Device.step, bind, Except.bind] at hs
    cases hr : Device.register s.reg (.other n) with
    | error e => rw [hr] at hs; cases hs
    | ok reg' =>
      rw [hr] at hs
      simp only [pure, Except.pure, Except.ok.injEq] at hs
      subst hs
      exact h.register hr ⟨⟨rfl, by simp [Instr.pars], by simp [Instr.pars]⟩, rfl, ⟨by simp [Instr.pars], by simp [Instr.pars], by simp [Instr.pars]⟩⟩
  | close n =>
    simp only [Device.step, Except.ok.injEq] at hs
    subst hs
    refine ⟨?_, ?_, h.elements, h.edges, h.plain⟩
    · exact List.Nodup.sublist (List.Sublist.map _ List.filter_sublist) h.keys
    · intro m i hm
      exact h.name m i (List.mem_filter.mp hm).1
  | setPar n sub par v =>
    simp only [Device.step] at hs
    split at hs
    · cases hs
    · rename_i i hi
      simp only [bind, Except.bind] at hs
      cases hp : setParam i sub par v with
      | error e => rw [hp] at hs; cases hs
      | ok i' =>
        rw [hp] at hs
        simp only [pure, Except.pure, Except.ok.injEq] at hs
        subst hs
        obtain ⟨p, hpm, hk, hv, hname, hpars, hparams, hposs⟩ := setParam_ok hp
        obtain ⟨hin, hif⟩ := h.name n i (Dict.mem_of_get? hi)
        refine ⟨Dict.keys_set_nodup h.keys n i', ?_, h.elements, h.edges, h.plain⟩
        intro m j hj
        have hg := Dict.get?_of_mem (Dict.keys_set_nodup h.keys n i') hj
        rw [Dict.get?_set] at hg
        split at hg
        · rename_i e
          simp only [Option.some.injEq] at hg
          subst hg
          refine ⟨by rw [hname, hin]; exact e.symm, ?_, ?_, ?_⟩
          · rw [hpars, hparams]; exact hif.wf.assign hif.good hpm hv
          · rw [hposs]; exact hif.possible
          · rw [hpars]; exact hif.good
        · exact h.name m j (Dict.mem_of_get? hg)
  | addElement i =>
    simp only [Device.step] at hs
    split at hs
    · cases hs
    · rename_i hposs
      split at hs
      · cases hs
      · rename_i hn
        cases i with
        | elem k n ps =>
          simp only [Except.ok.injEq] at hs
          subst hs
          refine ⟨h.keys, h.name, ?_, h.edges, ?_⟩
          · exact List.nodup_append.mpr ⟨h.elements, by simp, by
              intro a ha b hb e
              simp only [List.mem_cons, List.not_mem_nil, or_false] at hb
              rw [e, hb] at ha
              exact hn ha⟩
          · intro m hm
            simp only [List.mem_append, List.mem_cons, List.not_mem_nil, or_false] at hm
            rcases hm with hm | rfl
            · exact h.plain m hm
            · simp only [Instr.possible, Bool.not_eq_true', Bool.not_eq_false, Bool.and_eq_true] at hposs
              have := hposs.2
              simpa [Instr.name] using this
        | edge => cases hs
        | other => cases hs
  | addEdge i =>
    simp only [Device.step] at hs
    split at hs
    · cases hs
    · rename_i hn
      cases i with
      | edge k p c ps =>
        simp only [Except.ok.injEq] at hs
        subst hs
        refine ⟨h.keys, h.name, h.elements, ?_, h.plain⟩
        exact List.nodup_append.mpr ⟨h.edges, by simp, by
            intro a ha b hb e
            simp only [List.mem_cons, List.not_mem_nil, or_false] at hb
            rw [e, hb] at ha
            exact hn ha⟩
      | elem => cases hs
      | other => cases hs
  | removeElement n =>
    simp only [Device.step] at hs
    split at hs
    · simp only [Except.ok.injEq] at hs
      subst hs
      exact ⟨h.keys, h.name, h.elements.erase n, h.edges, fun m hm => h.plain m (List.mem_of_mem_erase hm)⟩
    · cases hs
  | removeEdge n =>
    simp only [Device.step] at hs
    split at hs
    · simp only [Except.ok.injEq] at hs
      subst hs
      exact ⟨h.keys, h.name, h.elements, h.edges.erase n, h.plain⟩
    · cases hs
  | setStrategy x =>
    simp only [Device.step] at hs
    split at hs
    · simp only [Except.ok.injEq] at hs
      subst hs
      exact ⟨h.keys, h.name, h.elements, h.edges, h.plain⟩
    · cases hs
  | setReps x =>
    simp only [Device.step] at hs
    split at hs
    · simp only [Except.ok.injEq] at hs
      subst hs
      exact ⟨h.keys, h.name, h.elements, h.edges, h.plain⟩
    · cases hs
  | setKeep x =>
    simp only [Device.step, Except.ok.injEq] at hs
    subst hs
    exact ⟨h.keys, h.name, h.elements, h.edges, h.plain⟩
  | setHardware x =>
    simp only [Device.step, Except.ok.injEq] at hs
    subst hs
    exact ⟨h.keys, h.name, h.elements, h.edges, h.plain⟩

theorem Inv.run {s : St} (h : Inv s) (cs : List Cmd) : Inv (run s cs) := by
  induction cs generalizing s with
  | nil => exact h
  | cons c cs ih =>
    simp only [Device.run]
    cases hs : Device.step s c with
    | ok s' => exact ih (h.step hs)
    | error e => exact ih h

theorem inv_fresh (n : String) : Inv (fresh n) :=
  ⟨List.nodup_nil, by simp [fresh], List.nodup_nil, List.nodup_nil, by simp [fresh]⟩

/-- What holds after every session. -/
theorem inv (n : String) (cs : List Cmd) : Inv (run (fresh n) cs) := (inv_fresh n).run cs

end Verif.Device
