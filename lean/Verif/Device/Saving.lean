/-
Lemmas on writing a device to JSON and reading it.
-/
import Verif.Device.Props3

namespace Verif.Device

open Verif Verif.Device.Spec

set_option linter.unusedSimpArgs false
set_option linter.unusedVariables false

/-- Setting a new parameter to what does not change the others. -/
theorem assign_new {all : List Par} {cur : Params} {p : Par} {v : Val} (hk : p.key ∉ Dict.keys cur)
    (hn : p.nested = true → v = .nan) :
    assign all (cur ++ [((p.sub, p.name), .none)]) p v = cur ++ [(p.key, v)] := by
  rw [assign_eq, List.map_append]
  congr 1
  · conv_rhs => rw [← List.map_id cur]
    apply List.map_congr_left
    intro e he
    have h1 : e.1 ≠ p.key := by
      intro h; exact hk (h ▸ List.mem_map_of_mem he)
    have h2 : ¬ (p.nested && v != .nan && all.any (fun r => r.nested && r.key == e.1 && r.sub == p.sub)) = true := by
      intro hc
      simp only [Bool.and_eq_true, bne_iff_ne, ne_eq] at hc
      exact hc.1.2 (hn hc.1.1)
    simp only [after, if_neg h1, if_neg h2, id]
  · simp [after, Par.key]

/-- Construction with given values. -/
theorem build_eq {all : List Par} {name : String} {kw : Params} (val : Par → Val) :
    ∀ (rest : List Par) (cur : Params),
      (∀ p ∈ rest, initial name p.dflt (Dict.get? kw p.key) = val p ∧ p.vals.ok (val p) = true ∧
        (p.nested = true → val p = .nan)) →
      (Dict.keys cur ++ rest.map Par.key).Nodup →
      build all name kw rest cur = .ok (cur ++ rest.map fun p => (p.key, val p)) := by
  intro rest
  induction rest with
  | nil => intro cur _ _; simp [build]
  | cons p rest ih =>
    intro cur h hnd
    obtain ⟨h1, h2, h3⟩ := h p (by simp)
    have hk : p.key ∉ Dict.keys cur := by
      intro hm
      exact (List.nodup_append.mp hnd).2.2 _ hm _ (by simp) rfl
    simp only [build]
    have e : initial name p.dflt (Dict.get? kw (p.sub, p.name)) = val p := h1
    rw [e, if_pos h2, assign_new hk h3, ih _ (fun q hq => h q (by simp [hq]))]
    · simp
    · have : Dict.keys (cur ++ [(p.key, val p)]) ++ rest.map Par.key = Dict.keys cur ++ (p :: rest).map Par.key := by
        simp [Dict.keys]
      rw [this]; exact hnd

/-- Parameters with NaN for the nested ones. -/
def forget (pars : List Par) (ps : Params) : Params :=
  ps.map fun e => (e.1, if pars.any (fun p => p.nested && p.key == e.1) then .nan else e.2)

theorem get?_forget (pars : List Par) (ps : Params) (k : String × String) :
    Dict.get? (forget pars ps) k =
      (Dict.get? ps k).map fun v => if pars.any (fun p => p.nested && p.key == k) then .nan else v := by
  unfold forget
  exact get?_mapKV (fun k v => if pars.any (fun p => p.nested && p.key == k) then Val.nan else v) ps k

theorem params_eq {pars : List Par} (g : Good pars) {ps : Params} (h : Dict.keys ps = pars.map Par.key) :
    ps = pars.map fun p => (p.key, (Dict.get? ps p.key).getD .none) := by
  have hnd : (Dict.keys ps).Nodup := by rw [h]; exact g.nodup
  have e1 : ps = (Dict.keys ps).map fun k => (k, (Dict.get? ps k).getD .none) := by
    simp only [Dict.keys, List.map_map]
    conv_lhs => rw [← List.map_id ps]
    apply List.map_congr_left
    intro e he
    have : Dict.get? ps e.1 = some e.2 := Dict.get?_of_mem hnd he
    simp [this]
  conv_lhs => rw [e1, h, List.map_map]
  rfl

theorem get?_savedData {pars : List Par} (g : Good pars) {ps : Params} (k : String × String) :
    Dict.get? (savedData pars ps) k =
      if pars.any (fun p => !p.nested && p.key == k) then (Dict.get? ps k).map jsonVal else none := by
  unfold savedData
  rw [get?_mapKV (fun _ v => jsonVal v)]
  induction ps with
  | nil => simp [Dict.get?_nil]
  | cons e ps ih =>
    rw [List.filter_cons, Dict.get?_cons]
    by_cases he : e.1 = k
    · subst he
      by_cases hc : pars.any (fun p => !p.nested && p.key == e.1) = true
      · have hc' : pars.any (fun p => !p.nested && (p.sub, p.name) == e.1) = true := hc
        rw [if_pos hc', if_pos hc, Dict.get?_cons]; simp
      · have hc' : ¬ pars.any (fun p => !p.nested && (p.sub, p.name) == e.1) = true := hc
        rw [if_neg hc'] at *
        rw [if_neg hc] at ih ⊢
        exact ih
    · rw [if_neg he]
      split
      · rw [Dict.get?_cons, if_neg he]; exact ih
      · exact ih

/-- What the classes are like. -/
structure Table (pars : List Par) : Prop where
  nested : ∀ p ∈ pars, p.nested = true → p.dflt = .val .nan
  port : ∀ p ∈ pars, ∀ x, p.dflt = .port x → p.sub = "ports" ∧ p.vals.ok .none = false
  none : ∀ p ∈ pars, ∀ x, p.dflt = .unlessNone x → p.vals.ok .none = false

theorem Table.of {pars : List Par}
    (h : (pars.all fun p => match p.dflt with
      | .val v => !p.nested || v == .nan
      | .port _ => !p.nested && (p.sub == "ports" && !p.vals.ok .none)
      | .unlessNone _ => !p.nested && !p.vals.ok .none) = true) : Table pars := by
  rw [List.all_eq_true] at h
  refine ⟨?_, ?_, ?_⟩
  · intro p hp hn
    have := h p hp
    cases hd : p.dflt with
    | val v => rw [hd] at this; simp [hn] at this; rw [this]
    | port x => rw [hd] at this; simp [hn] at this
    | unlessNone x => rw [hd] at this; simp [hn] at this
  · intro p hp x hd
    have := h p hp
    rw [hd] at this; simp at this; exact this.2
  · intro p hp x hd
    have := h p hp
    rw [hd] at this; simp at this; exact this.2

theorem table_kind (k : Kind) : Table k.pars := by
  cases k <;> exact Table.of (by decide +kernel)

theorem table_edge (k : EKind) (p c : String) : Table (k.pars p c) := by
  cases k <;> exact Table.of (by simp [EKind.pars, czPars, Vals.ok])

/-- Values that JSON can hold. -/
def Holds (ps : Params) : Prop :=
  ∀ sub par v, Dict.get? ps (sub, par) = some v → (∀ xs, v ≠ .tuple xs) ∧ (sub = "ports" → v ≠ .str "")

theorem jsonVal_eq {v : Val} (h : ∀ xs, v ≠ .tuple xs) : jsonVal v = v := by
  cases v with
  | tuple xs => exact absurd rfl (h xs)
  | _ => rfl

/-- Construction from the saved data. -/
theorem build_saved {pars : List Par} (g : Good pars) (t : Table pars) {ps : Params} (h : WF pars ps) (hh : Holds ps)
    (name : String) : build pars name (savedData pars ps) pars [] = .ok (forget pars ps) := by
  rw [build_eq (fun p => (Dict.get? (forget pars ps) p.key).getD .none) pars []]
  · congr 1
    rw [List.nil_append]
    have hk : Dict.keys (forget pars ps) = pars.map Par.key := by
      rw [← h.keys]; simp [forget, Dict.keys, Function.comp_def]
    exact (params_eq g hk).symm
  · intro p hp
    have hm : p.key ∈ Dict.keys ps := by rw [h.keys]; exact List.mem_map_of_mem hp
    obtain ⟨v, hv⟩ := Option.isSome_iff_exists.mp ((Dict.get?_isSome_iff _ _).mpr hm)
    rw [get?_savedData g, get?_forget, hv]
    cases hn : p.nested with
    | true =>
      have h1 : pars.any (fun q => !q.nested && q.key == p.key) = false := by
        rw [List.any_eq_false]
        intro q hq hc
        simp only [Bool.and_eq_true, Bool.not_eq_true', beq_iff_eq] at hc
        rw [g.same q hq p hp hc.2, hn] at hc
        cases hc.1
      have h2 : pars.any (fun q => q.nested && q.key == p.key) = true := by
        rw [List.any_eq_true]; exact ⟨p, hp, by simp [hn]⟩
      rw [h1, h2, t.nested p hp hn]
      simp [initial, g.nan p hp hn]
    | false =>
      have h1 : pars.any (fun q => !q.nested && q.key == p.key) = true := by
        rw [List.any_eq_true]; exact ⟨p, hp, by simp [hn]⟩
      have h2 : pars.any (fun q => q.nested && q.key == p.key) = false := by
        rw [List.any_eq_false]
        intro q hq hc
        simp only [Bool.and_eq_true, beq_iff_eq] at hc
        rw [g.same q hq p hp hc.2, hn] at hc
        cases hc.1
      rw [h1, h2]
      obtain ⟨ht, hport⟩ := hh p.sub p.name v hv
      have hok := h.ok p hp v hv
      simp only [if_true, Option.map_some, Bool.false_eq_true, if_false, Option.getD_some, jsonVal_eq ht]
      refine ⟨?_, hok, by simp⟩
      cases hd : p.dflt with
      | val w => rfl
      | port x =>
        have hs := hport (t.port p hp x hd).1
        simp only [initial]
        split
        · rfl
        · rename_i hf
          cases v with
          | str y => simp [truthy] at hf; exact absurd (by rw [hf]) hs
          | none =>
            rw [(t.port p hp x hd).2] at hok; cases hok
          | _ => simp [truthy] at hf
      | unlessNone x =>
        have := t.none p hp x hd
        simp only [initial]
        split
        · rename_i e; simp only [Option.some.injEq] at e; rw [e, this] at hok; cases hok
        · rename_i hne e; exact Option.some.inj e.symm
        · rename_i e; cases e
  · simp [Dict.keys]; exact g.nodup

/-- The instrument that is read back. -/
def reborn (i : Instr) : Instr := i.withParams (forget i.pars i.params)

theorem reborn_name (i : Instr) : (reborn i).name = i.name := by cases i <;> rfl

theorem saved_known {pars : List Par} {ign : List String} {ps : Params} :
    (savedData pars ps).all (fun e => knownKwarg pars ign e.1) = true := by
  rw [List.all_eq_true]
  intro e he
  simp only [savedData, List.mem_map, List.mem_filter, List.any_eq_true] at he
  obtain ⟨a, ⟨_, p, hp, hk⟩, rfl⟩ := he
  simp only [Bool.and_eq_true] at hk
  simp only [knownKwarg, Bool.or_eq_true, List.any_eq_true]
  exact .inl ⟨p, hp, hk.2⟩

theorem edge_ne {k : EKind} {p c : String} (g : Good (k.pars p c)) : p ≠ c := by
  rintro rfl
  have := g.nodup
  cases k <;> simp [EKind.pars, czPars, Par.key] at this

/-- Reading what was written. -/
theorem loadInstr_save {i : Instr} (hf : i.Fine) (hh : Holds i.params) {d : Saved} (hs : saveInstr i = .ok d) :
    loadInstr d = .ok (reborn i) := by
  cases i with
  | elem k n ps =>
    simp only [saveInstr, Except.ok.injEq] at hs
    subst hs
    have hp := hf.possible
    simp only [Instr.possible, Bool.and_eq_true, Bool.not_eq_true', List.contains_eq_mem, decide_eq_false_iff_not] at hp
    have hwf : WF k.pars ps := hf.wf
    simp only [loadInstr, makeElem]
    rw [if_neg (not_or.mpr ⟨hp.1, hp.2⟩), if_pos saved_known, build_saved (good_kind k) (table_kind k) hwf hh n]
    rfl
  | edge k p c ps =>
    simp only [saveInstr, Except.ok.injEq] at hs
    subst hs
    have hwf : WF (k.pars p c) ps := hf.wf
    have hg : Good (k.pars p c) := hf.good
    simp only [loadInstr, makeEdge]
    rw [if_neg (edge_ne hg), if_pos saved_known, build_saved hg (table_edge k p c) hwf hh]
    rfl
  | other n => cases hs

/-- The instrument with this name, read back. -/
def back (reg : Registry) (n : String) : Instr := reborn ((Dict.get? reg n).getD (.other n))

theorem load_all {reg : Registry} {members : List String}
    (hreg : ∀ n i, Dict.get? reg n = some i → i.name = n ∧ i.Fine) :
    ∀ {ns : List String} {ds : List (String × Saved)} (reg0 : Registry), saveAll reg members ns = .ok ds →
      (∀ n ∈ ns, ∀ i, Dict.get? reg n = some i → Holds i.params) → (Dict.keys reg0 ++ ns).Nodup →
      loadInstrs ds reg0 = .ok (ns.map (fun n => (n, back reg n)), reg0 ++ ns.map fun n => (n, back reg n)) := by
  intro ns
  induction ns with
  | nil =>
    intro ds reg0 hs _ _
    simp only [saveAll, Except.ok.injEq] at hs
    subst hs
    simp [loadInstrs]
  | cons n ns ih =>
    intro ds reg0 hs hh hnd
    simp only [saveAll, bind, Except.bind] at hs
    cases hg : getMember reg members n with
    | error e => rw [hg] at hs; cases hs
    | ok i =>
      rw [hg] at hs; simp only at hs
      cases hd : saveInstr i with
      | error e => rw [hd] at hs; cases hs
      | ok d =>
        rw [hd] at hs; simp only at hs
        cases hr : saveAll reg members ns with
        | error e => rw [hr] at hs; cases hs
        | ok ds' =>
          rw [hr] at hs
          simp only [pure, Except.pure, Except.ok.injEq] at hs
          subst hs
          have hi : Dict.get? reg n = some i := by
            unfold getMember at hg
            split at hg
            · split at hg
              · rename_i j hj; simp only [Except.ok.injEq] at hg; rw [hj, hg]
              · cases hg
            · cases hg
          obtain ⟨hname, hfine⟩ := hreg n i hi
          have hb : back reg n = reborn i := by simp [back, hi]
          have hbn : (back reg n).name = n := by rw [hb, reborn_name, hname]
          have hfree : n ∉ Dict.keys reg0 := by
            intro hm
            exact (List.nodup_append.mp hnd).2.2 _ hm _ (by simp) rfl
          have hreg' : register reg0 (reborn i) = .ok (reg0 ++ [(n, back reg n)]) := by
            unfold register
            rw [← hb, hbn, if_neg hfree]
          have hnd' : (Dict.keys (reg0 ++ [(n, back reg n)]) ++ ns).Nodup := by
            have : Dict.keys (reg0 ++ [(n, back reg n)]) ++ ns = Dict.keys reg0 ++ n :: ns := by simp [Dict.keys]
            rw [this]; exact hnd
          have := ih (reg0 ++ [(n, back reg n)]) hr (fun m hm => hh m (by simp [hm])) hnd'
          simp only [loadInstrs, loadInstr_save hfine (hh n (by simp) i hi) hd, hreg', this, bind, Except.bind, pure,
            Except.pure]
          simp [hb]

theorem saveAll_open {reg : Registry} {members : List String} :
    ∀ {ns : List String} {ds : List (String × Saved)}, saveAll reg members ns = .ok ds →
      ∀ n ∈ ns, ∃ i d, Dict.get? reg n = some i ∧ saveInstr i = .ok d := by
  intro ns
  induction ns with
  | nil => intro ds _ n hn; cases hn
  | cons m ns ih =>
    intro ds hs n hn
    simp only [saveAll, bind, Except.bind] at hs
    cases hg : getMember reg members m with
    | error e => rw [hg] at hs; cases hs
    | ok i =>
      rw [hg] at hs; simp only at hs
      cases hd : saveInstr i with
      | error e => rw [hd] at hs; cases hs
      | ok d =>
        rw [hd] at hs; simp only at hs
        cases hr : saveAll reg members ns with
        | error e => rw [hr] at hs; cases hs
        | ok ds' =>
          simp only [List.mem_cons] at hn
          rcases hn with rfl | hn
          · refine ⟨i, d, ?_, hd⟩
            unfold getMember at hg
            split at hg
            · split at hg
              · rename_i j hj; simp only [Except.ok.injEq] at hg; rw [hj, hg]
              · cases hg
            · cases hg
          · exact ih hr n hn

theorem saveAll_ok {reg : Registry} {members : List String} :
    ∀ {ns : List String}, (∀ n ∈ ns, n ∈ members) → (∀ n ∈ ns, ∃ i d, Dict.get? reg n = some i ∧ saveInstr i = .ok d) →
      ∃ ds, saveAll reg members ns = .ok ds := by
  intro ns
  induction ns with
  | nil => intro _ _; exact ⟨_, rfl⟩
  | cons m ns ih =>
    intro hm ho
    obtain ⟨i, d, hi, hd⟩ := ho m (by simp)
    obtain ⟨ds, hds⟩ := ih (fun n hn => hm n (by simp [hn])) fun n hn => ho n (by simp [hn])
    apply Exists.intro
    simp only [saveAll, getMember, hm m (by simp), if_true, hi, hd, hds, bind, Except.bind, pure, Except.pure]
    rfl

/-- An edge has an underscore in its name. -/
theorem edge_name (p c : String) : '_' ∈ (p ++ "_" ++ c).toList := by
  simp [String.toList_append]

theorem elem_of {s : St} (h : Inv s) {n : String} (hn : n ∈ s.dev.elements) {i : Instr} {d : Saved}
    (hi : Dict.get? s.reg n = some i) (hd : saveInstr i = .ok d) : ∃ k ps, i = .elem k n ps := by
  obtain ⟨hname, _⟩ := h.name n i (Dict.mem_of_get? hi)
  cases i with
  | elem k m ps => simp only [Instr.name] at hname; subst hname; exact ⟨k, ps, rfl⟩
  | edge k p c ps =>
    simp only [Instr.name] at hname
    exact absurd (hname ▸ edge_name p c) (h.plain n hn)
  | other m => cases hd

theorem addAll_elements {f : String → Instr} : ∀ (ns : List String) (s : St), (s.dev.elements ++ ns).Nodup →
    (∀ n ∈ ns, (f n).possible = true ∧ ∃ k ps, f n = .elem k n ps) →
    addAll .addElement (ns.map fun n => (n, f n)) s =
      .ok { s with dev := { s.dev with elements := s.dev.elements ++ ns } } := by
  intro ns
  induction ns with
  | nil => intro s _ _; simp [addAll]
  | cons n ns ih =>
    intro s hnd hf
    obtain ⟨hp, k, ps, he⟩ := hf n (by simp)
    have hfree : n ∉ s.dev.elements := by
      intro hm
      exact (List.nodup_append.mp hnd).2.2 _ hm _ (by simp) rfl
    have hst : step s (.addElement (f n)) = .ok { s with dev := { s.dev with elements := s.dev.elements ++ [n] } } := by
      have e1 : (!(f n).possible) = false := by rw [hp]; rfl
      rw [he] at e1
      rw [he]
      simp only [step, Instr.name, e1, hfree, Bool.false_eq_true, if_false]
    simp only [List.map_cons, addAll, hst, bind, Except.bind]
    rw [ih _ (by simpa using hnd) fun m hm => hf m (by simp [hm])]
    simp

theorem addAll_edges {f : String → Instr} : ∀ (ns : List String) (s : St), (s.dev.edges ++ ns).Nodup →
    (∀ n ∈ ns, (f n).name = n ∧ ∃ k p c ps, f n = .edge k p c ps) →
    addAll .addEdge (ns.map fun n => (n, f n)) s =
      .ok { s with dev := { s.dev with edges := s.dev.edges ++ ns } } := by
  intro ns
  induction ns with
  | nil => intro s _ _; simp [addAll]
  | cons n ns ih =>
    intro s hnd hf
    obtain ⟨hp, k, p, c, ps, he⟩ := hf n (by simp)
    have hfree : n ∉ s.dev.edges := by
      intro hm
      exact (List.nodup_append.mp hnd).2.2 _ hm _ (by simp) rfl
    have hst : step s (.addEdge (f n)) = .ok { s with dev := { s.dev with edges := s.dev.edges ++ [n] } } := by
      have e1 : (f n).name ∉ s.dev.edges := by rw [hp]; exact hfree
      have e2 := hp
      rw [he] at e1 e2
      rw [he]
      simp only [step, if_neg e1]
      rw [e2]
    simp only [List.map_cons, addAll, hst, bind, Except.bind]
    rw [ih _ (by simpa using hnd) fun m hm => hf m (by simp [hm])]
    simp

/-- The number of repetitions is positive; edges have an underscore in their names. -/
structure More (s : St) : Prop where
  reps : 1 ≤ s.dev.reps
  under : ∀ n ∈ s.dev.edges, '_' ∈ n.toList

theorem more (d : String) (cs : List Cmd) : More (run (fresh d) cs) := by
  have key : ∀ (cs : List Cmd) (s : St), More s → More (run s cs) := by
    intro cs
    induction cs with
    | nil => intro s h; exact h
    | cons c cs ih =>
      intro s h
      simp only [run]
      cases hs : step s c with
      | error e => exact ih s h
      | ok s' =>
        apply ih
        cases c with
        | newElem k m kw =>
          simp only [step, bind, Except.bind] at hs
          cases hm : makeElem k m kw with
          | error e => rw [hm] at hs; cases hs
          | ok j =>
            rw [hm] at hs; simp only at hs
            cases hr : register s.reg j with
            | error e => rw [hr] at hs; cases hs
            | ok r => rw [hr] at hs; simp only [pure, Except.pure, Except.ok.injEq] at hs; subst hs; exact ⟨h.reps, h.under⟩
        | newEdge k p q kw =>
          simp only [step, bind, Except.bind] at hs
          cases hm : makeEdge k p q kw with
          | error e => rw [hm] at hs; cases hs
          | ok j =>
            rw [hm] at hs; simp only at hs
            cases hr : register s.reg j with
            | error e => rw [hr] at hs; cases hs
            | ok r => rw [hr] at hs; simp only [pure, Except.pure, Except.ok.injEq] at hs; subst hs; exact ⟨h.reps, h.under⟩
        | newOther x =>
          simp only [step, bind, Except.bind] at hs
          cases hr : register s.reg (.other x) with
          | error e => rw [hr] at hs; cases hs
          | ok r => rw [hr] at hs; simp only [pure, Except.pure, Except.ok.injEq] at hs; subst hs; exact ⟨h.reps, h.under⟩
        | close m => simp only [step, Except.ok.injEq] at hs; subst hs; exact ⟨h.reps, h.under⟩
        | setPar m sub' par' w =>
          simp only [step] at hs
          split at hs
          · cases hs
          · simp only [bind, Except.bind] at hs
            split at hs
            · cases hs
            · simp only [pure, Except.pure, Except.ok.injEq] at hs; subst hs; exact ⟨h.reps, h.under⟩
        | addElement j =>
          simp only [step] at hs
          split at hs
          · cases hs
          · split at hs
            · cases hs
            · cases j with
              | elem => simp only [Except.ok.injEq] at hs; subst hs; exact ⟨h.reps, h.under⟩
              | edge => cases hs
              | other => cases hs
        | addEdge j =>
          simp only [step] at hs
          split at hs
          · cases hs
          · cases j with
            | edge k p c ps =>
              simp only [Except.ok.injEq] at hs; subst hs
              refine ⟨h.reps, ?_⟩
              intro n hn
              simp only [List.mem_append, List.mem_cons, List.not_mem_nil, or_false] at hn
              rcases hn with hn | rfl
              · exact h.under n hn
              · exact edge_name p c
            | elem => cases hs
            | other => cases hs
        | removeElement x =>
          simp only [step] at hs
          split at hs
          · simp only [Except.ok.injEq] at hs; subst hs; exact ⟨h.reps, h.under⟩
          · cases hs
        | removeEdge x =>
          simp only [step] at hs
          split at hs
          · simp only [Except.ok.injEq] at hs; subst hs
            exact ⟨h.reps, fun n hn => h.under n (List.mem_of_mem_erase hn)⟩
          · cases hs
        | setStrategy x =>
          simp only [step] at hs
          split at hs
          · simp only [Except.ok.injEq] at hs; subst hs; exact ⟨h.reps, h.under⟩
          · cases hs
        | setReps x =>
          simp only [step] at hs
          split at hs
          · rename_i hx; simp only [Except.ok.injEq] at hs; subst hs; exact ⟨hx, h.under⟩
          · cases hs
        | setKeep x => simp only [step, Except.ok.injEq] at hs; subst hs; exact ⟨h.reps, h.under⟩
        | setHardware x => simp only [step, Except.ok.injEq] at hs; subst hs; exact ⟨h.reps, h.under⟩
  exact key cs (fresh d) ⟨by simp [fresh], by simp [fresh]⟩

end Verif.Device
