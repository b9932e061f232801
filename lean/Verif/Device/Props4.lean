/-
C75: a device that is written to JSON and read in a new session.
-/
import Verif.Device.Saving

namespace Verif.Device

open Verif Verif.Device.Spec

set_option linter.unusedSimpArgs false
set_option linter.unusedVariables false

theorem edge_of {s : St} (h : Inv s) (m : More s) {n : String} (hn : n ∈ s.dev.edges) {i : Instr} {d : Saved}
    (hi : Dict.get? s.reg n = some i) (hd : saveInstr i = .ok d) : ∃ k p c ps, i = .edge k p c ps := by
  obtain ⟨hname, hf⟩ := h.name n i (Dict.mem_of_get? hi)
  cases i with
  | edge k p c ps => exact ⟨k, p, c, ps, rfl⟩
  | elem k x ps =>
    have hp := hf.possible
    simp only [Instr.possible, Bool.and_eq_true, Bool.not_eq_true', List.contains_eq_mem, decide_eq_false_iff_not] at hp
    simp only [Instr.name] at hname
    exact absurd (hname ▸ m.under n hn) hp.2
  | other m => cases hd

/-- A device can be written exactly if it has an element or an edge, and all of them are open. -/
theorem saved_iff (d : String) (cs : List Cmd) :
    (∃ doc, save (run (fresh d) cs) = .ok doc) ↔
      ((run (fresh d) cs).dev.elements ≠ [] ∨ (run (fresh d) cs).dev.edges ≠ []) ∧
      (∀ n ∈ (run (fresh d) cs).dev.elements, ∃ k ps, Open (run (fresh d) cs) n (.elem k n ps)) ∧
      ∀ n ∈ (run (fresh d) cs).dev.edges, ∃ k p c ps, Open (run (fresh d) cs) n (.edge k p c ps) := by
  have h := inv d cs
  have m := more d cs
  revert h m
  generalize run (fresh d) cs = s
  intro h m
  constructor
  · rintro ⟨doc, hs⟩
    unfold save at hs
    split at hs
    · cases hs
    · rename_i hne
      split at hs
      · simp only [bind, Except.bind] at hs
        cases h1 : saveAll s.reg s.dev.elements s.dev.elements with
        | error e => rw [h1] at hs; cases hs
        | ok els =>
          rw [h1] at hs; simp only at hs
          cases h2 : saveAll s.reg s.dev.edges s.dev.edges with
          | error e => rw [h2] at hs; cases hs
          | ok es =>
            refine ⟨?_, ?_, ?_⟩
            · by_contra hc
              simp only [ne_eq, not_or, not_not] at hc
              exact hne (by rw [hc.1, hc.2]; rfl)
            · intro n hn
              obtain ⟨i, dd, hi, hd⟩ := saveAll_open h1 n hn
              obtain ⟨k, ps, rfl⟩ := elem_of h hn hi hd
              exact ⟨k, ps, hi⟩
            · intro n hn
              obtain ⟨i, dd, hi, hd⟩ := saveAll_open h2 n hn
              obtain ⟨k, p, c, ps, rfl⟩ := edge_of h m hn hi hd
              exact ⟨k, p, c, ps, hi⟩
      · cases hs
  · rintro ⟨hne, h1, h2⟩
    obtain ⟨els, he1⟩ := saveAll_ok (reg := s.reg) (members := s.dev.elements) (ns := s.dev.elements) (fun n hn => hn)
      fun n hn => by obtain ⟨k, ps, ho⟩ := h1 n hn; exact ⟨_, _, ho, rfl⟩
    obtain ⟨es, he2⟩ := saveAll_ok (reg := s.reg) (members := s.dev.edges) (ns := s.dev.edges) (fun n hn => hn)
      fun n hn => by obtain ⟨k, p, c, ps, ho⟩ := h2 n hn; exact ⟨_, _, ho, rfl⟩
    have hx : s.dev.elements ++ s.dev.edges ≠ [] := by
      intro e
      have := List.append_eq_nil_iff.mp e
      rcases hne with x | x
      · exact x this.1
      · exact x this.2
    have hy : (s.dev.elements ++ s.dev.edges).all (fun n => decide (n ∈ Dict.keys s.reg)) = true := by
      rw [List.all_eq_true]
      intro n hn
      simp only [decide_eq_true_eq]
      rw [List.mem_append] at hn
      rcases hn with hn | hn
      · obtain ⟨k, ps, ho⟩ := h1 n hn
        exact (Dict.get?_isSome_iff _ _).mp (by rw [show Dict.get? s.reg n = _ from ho]; rfl)
      · obtain ⟨k, p, c, ps, ho⟩ := h2 n hn
        exact (Dict.get?_isSome_iff _ _).mp (by rw [show Dict.get? s.reg n = _ from ho]; rfl)
    apply Exists.intro
    simp only [save, if_neg hx, if_pos hy, he1, he2, bind, Except.bind, pure, Except.pure]
    rfl

/-- The state after reading. -/
def readBack (s : St) : St :=
  ⟨(s.dev.elements ++ s.dev.edges).map fun n => (n, back s.reg n),
    { name := s.dev.name, elements := s.dev.elements, edges := s.dev.edges, reps := s.dev.reps }⟩

theorem load_eq {s : St} (h : Inv s) (m : More s) {doc : Doc} (hs : save s = .ok doc)
    (hw : ∀ n, n ∈ s.dev.elements ∨ n ∈ s.dev.edges → Writable s n) : load [] doc = .ok (readBack s) := by
  have hreg : ∀ n i, Dict.get? s.reg n = some i → i.name = n ∧ i.Fine := fun n i hi => h.name n i (Dict.mem_of_get? hi)
  have hh : ∀ n, n ∈ s.dev.elements ∨ n ∈ s.dev.edges → ∀ i, Dict.get? s.reg n = some i → Holds i.params := by
    intro n hn i hi sub par v hv
    exact hw n hn sub par v ⟨i, hi, hv⟩
  unfold save at hs
  split at hs
  · cases hs
  · split at hs
    · simp only [bind, Except.bind] at hs
      cases h1 : saveAll s.reg s.dev.elements s.dev.elements with
      | error e => rw [h1] at hs; cases hs
      | ok els =>
        rw [h1] at hs; simp only at hs
        cases h2 : saveAll s.reg s.dev.edges s.dev.edges with
        | error e => rw [h2] at hs; cases hs
        | ok es =>
          rw [h2] at hs
          simp only [pure, Except.pure, Except.ok.injEq] at hs
          subst hs
          have l1 := load_all hreg (ns := s.dev.elements) [] h1 (fun n hn => hh n (.inl hn)) (by
            simpa [Dict.keys] using h.elements)
          have hkeys : Dict.keys ([] ++ s.dev.elements.map fun n => (n, back s.reg n)) = s.dev.elements := by
            simp [Dict.keys, Function.comp_def]
          have l2 := load_all hreg (ns := s.dev.edges) ([] ++ s.dev.elements.map fun n => (n, back s.reg n)) h2
            (fun n hn => hh n (.inr hn)) (by
              rw [hkeys]
              refine List.nodup_append.mpr ⟨h.elements, h.edges, ?_⟩
              intro a ha b hb e
              subst e
              exact h.plain a ha (m.under a hb))
          simp only [load, l1, l2, bind, Except.bind]
          rw [addAll_elements]
          · simp only
            rw [addAll_edges]
            · simp only [step, if_pos m.reps]
              simp [readBack]
            · simpa using h.edges
            · intro n hn
              obtain ⟨i, dd, hi, hd⟩ := saveAll_open h2 n hn
              obtain ⟨k, p, c, ps, rfl⟩ := edge_of h m hn hi hd
              refine ⟨?_, k, p, c, forget (k.pars p c) ps, by simp [back, hi, reborn, Instr.withParams, Instr.pars, Instr.params]⟩
              simp only [back, hi, Option.getD_some, reborn_name]
              exact (hreg n _ hi).1
          · simpa using h.elements
          · intro n hn
            obtain ⟨i, dd, hi, hd⟩ := saveAll_open h1 n hn
            obtain ⟨k, ps, rfl⟩ := elem_of h hn hi hd
            have hb : back s.reg n = .elem k n (forget k.pars ps) := by
              simp [back, hi, reborn, Instr.withParams, Instr.pars, Instr.params]
            refine ⟨?_, k, forget k.pars ps, hb⟩
            rw [hb]; exact (hreg n _ hi).2.possible
    · cases hs

theorem readBack_get {s : St} {n : String} (hn : n ∈ s.dev.elements ∨ n ∈ s.dev.edges) :
    Dict.get? (readBack s).reg n = some (back s.reg n) :=
  get?_map_mem _ (List.mem_append.mpr hn)

theorem not_reference {i : Instr} {sub par : String} (h : ¬ IsReference par) :
    i.pars.any (fun p => p.nested && p.key == (sub, par)) = false := by
  rw [List.any_eq_false]
  intro p hp hc
  simp only [Bool.and_eq_true, beq_iff_eq] at hc
  obtain ⟨u, hu, e⟩ := nested_name hp hc.1
  have : p.name = par := congrArg Prod.snd hc.2
  exact h ⟨u, hu, this ▸ e⟩

theorem nested_all (k : Kind) : ∀ p ∈ k.pars,
    (p.nested || !(p.name == "reference_magnitude_dBm" || p.name == "reference_magnitude_V" ||
      p.name == "reference_magnitude_A")) = true := by
  cases k <;> decide +kernel

/-- A device that is written to JSON can be read in a new session, and has then the same name, elements, edges and number of
repetitions; these are of the same classes and have the same values of their parameters. Missing: amplitude references
(they become undefined), values that JSON cannot hold, and other parameters of the device (`Examples2`). -/
theorem restored_partial (d : String) (cs : List Cmd) {doc : Doc} (hs : save (run (fresh d) cs) = .ok doc)
    (hw : ∀ n, n ∈ (run (fresh d) cs).dev.elements ∨ n ∈ (run (fresh d) cs).dev.edges → Writable (run (fresh d) cs) n) :
    ∃ s', load [] doc = .ok s' ∧ s'.dev.name = (run (fresh d) cs).dev.name ∧
      s'.dev.elements = (run (fresh d) cs).dev.elements ∧ s'.dev.edges = (run (fresh d) cs).dev.edges ∧
      s'.dev.reps = (run (fresh d) cs).dev.reps ∧
      (∀ n, (∃ i, Open s' n i) ↔ n ∈ (run (fresh d) cs).dev.elements ∨ n ∈ (run (fresh d) cs).dev.edges) ∧
      (∀ n ∈ (run (fresh d) cs).dev.elements, ∃ k ps ps', Open (run (fresh d) cs) n (.elem k n ps) ∧
        Open s' n (.elem k n ps')) ∧
      (∀ n ∈ (run (fresh d) cs).dev.edges, ∃ k p c ps ps', Open (run (fresh d) cs) n (.edge k p c ps) ∧
        Open s' n (.edge k p c ps')) ∧
      ∀ n, n ∈ (run (fresh d) cs).dev.elements ∨ n ∈ (run (fresh d) cs).dev.edges → ∀ sub par, ¬ IsReference par →
        ∀ v, Value s' n sub par v ↔ Value (run (fresh d) cs) n sub par v := by
  obtain ⟨_, o1, o2⟩ := (saved_iff d cs).mp ⟨doc, hs⟩
  have h := inv d cs
  have m := more d cs
  revert h m hs hw o1 o2
  generalize run (fresh d) cs = s
  intro hs hw o1 o2 h m
  refine ⟨readBack s, load_eq h m hs hw, rfl, rfl, rfl, rfl, ?_, ?_, ?_, ?_⟩
  · intro n
    constructor
    · rintro ⟨i, hi⟩
      have := Dict.mem_of_get? hi
      simp only [readBack, List.mem_map, Prod.mk.injEq] at this
      obtain ⟨x, hx, rfl, _⟩ := this
      exact List.mem_append.mp hx
    · intro hn
      exact ⟨_, readBack_get hn⟩
  · intro n hn
    obtain ⟨k, ps, ho⟩ := o1 n hn
    refine ⟨k, ps, forget k.pars ps, ho, ?_⟩
    unfold Open
    rw [readBack_get (.inl hn)]
    simp [back, show Dict.get? s.reg n = _ from ho, reborn, Instr.withParams, Instr.pars, Instr.params]
  · intro n hn
    obtain ⟨k, p, c, ps, ho⟩ := o2 n hn
    refine ⟨k, p, c, ps, forget (k.pars p c) ps, ho, ?_⟩
    unfold Open
    rw [readBack_get (.inr hn)]
    simp [back, show Dict.get? s.reg n = _ from ho, reborn, Instr.withParams, Instr.pars, Instr.params]
  · intro n hn sub par hpar v
    have ho : ∃ i, Dict.get? s.reg n = some i ∧ (reborn i).params = forget i.pars i.params := by
      rcases hn with hn | hn
      · obtain ⟨k, ps, ho⟩ := o1 n hn; exact ⟨_, ho, rfl⟩
      · obtain ⟨k, p, c, ps, ho⟩ := o2 n hn; exact ⟨_, ho, rfl⟩
    obtain ⟨i, hi, hp⟩ := ho
    have hb : Dict.get? (readBack s).reg n = some (reborn i) := by rw [readBack_get hn]; simp [back, hi]
    have hv : Dict.get? (reborn i).params (sub, par) = Dict.get? i.params (sub, par) := by
      rw [hp, get?_forget, not_reference hpar]; simp
    constructor
    · rintro ⟨j, hj, hjv⟩
      have : j = reborn i := Option.some.inj ((show Dict.get? (readBack s).reg n = some j from hj).symm.trans hb)
      subst this
      exact ⟨i, hi, hv ▸ hjv⟩
    · rintro ⟨j, hj, hjv⟩
      have : j = i := Option.some.inj ((show Dict.get? s.reg n = some j from hj).symm.trans hi)
      subst this
      exact ⟨_, hb, hv.symm ▸ hjv⟩

/-- Amplitude references are undefined after reading. -/
theorem references_lost (d : String) (cs : List Cmd) {doc : Doc} (hs : save (run (fresh d) cs) = .ok doc)
    (hw : ∀ n, n ∈ (run (fresh d) cs).dev.elements ∨ n ∈ (run (fresh d) cs).dev.edges → Writable (run (fresh d) cs) n)
    {s' : St} (hl : load [] doc = .ok s') {n : String} (hn : n ∈ s'.dev.elements) {sub par : String}
    (hpar : IsReference par) {v : Val} (hv : Value s' n sub par v) : v = .nan := by
  obtain ⟨_, o1, o2⟩ := (saved_iff d cs).mp ⟨doc, hs⟩
  have h := inv d cs
  have m := more d cs
  revert h m hs hw o1 o2
  generalize run (fresh d) cs = s
  intro hs hw o1 o2 h m
  rw [load_eq h m hs hw] at hl
  simp only [Except.ok.injEq] at hl
  subst hl
  have hn' : n ∈ s.dev.elements := hn
  obtain ⟨k, ps, ho⟩ := o1 n hn'
  obtain ⟨i, hi, hiv⟩ := hv
  have hb : Dict.get? (readBack s).reg n = some (.elem k n (forget k.pars ps)) := by
    rw [readBack_get (.inl hn')]
    simp [back, show Dict.get? s.reg n = _ from ho, reborn, Instr.withParams, Instr.pars, Instr.params]
  have : i = .elem k n (forget k.pars ps) := Option.some.inj ((show Dict.get? (readBack s).reg n = some i from hi).symm.trans hb)
  subst this
  simp only [Instr.params, get?_forget] at hiv
  cases hg : Dict.get? ps (sub, par) with
  | none => rw [hg] at hiv; cases hiv
  | some w =>
    rw [hg] at hiv
    simp only [Option.map_some, Option.some.injEq] at hiv
    have hwf : WF k.pars ps := (h.name n _ (Dict.mem_of_get? ho)).2.wf
    have hm : (sub, par) ∈ Dict.keys ps := (Dict.get?_isSome_iff _ _).mp (by rw [hg]; rfl)
    rw [hwf.keys, List.mem_map] at hm
    obtain ⟨p, hp, hk⟩ := hm
    have hpn := nested_all k p hp
    obtain ⟨u, hu, rfl⟩ := hpar
    have hname : p.name = "reference_magnitude_" ++ u := congrArg Prod.snd hk
    have : p.nested = true := by
      rw [hname] at hpn
      simp only [units, List.mem_cons, List.not_mem_nil, or_false] at hu
      rcases hu with rfl | rfl | rfl <;> simpa using hpn
    rw [if_pos (List.any_eq_true.mpr ⟨p, hp, by simp [this, hk]⟩)] at hiv
    exact hiv.symm

theorem forget_id {pars : List Par} (g : Good pars) {ps : Params} (hw : WF pars ps)
    (h : ∀ p ∈ pars, p.nested = true → Dict.get? ps p.key = some .nan) : forget pars ps = ps := by
  unfold forget
  conv_rhs => rw [← List.map_id ps]
  apply List.map_congr_left
  intro e he
  have hnd : (Dict.keys ps).Nodup := by rw [hw.keys]; exact g.nodup
  split
  · rename_i hc
    simp only [List.any_eq_true, Bool.and_eq_true, beq_iff_eq] at hc
    obtain ⟨p, hp, hn, hk⟩ := hc
    have h1 := h p hp hn
    rw [hk, Dict.get?_of_mem hnd he] at h1
    simp only [Option.some.injEq] at h1
    simp [← h1]
  · rfl

theorem genElements_congr {reg reg' : Registry} {members : List String} :
    ∀ {ns : List String} {cl : List (String × Val)} {els : List (String × Ops)},
      (∀ n ∈ ns, Dict.get? reg' n = Dict.get? reg n) →
      genElements reg' members ns cl els = genElements reg members ns cl els := by
  intro ns
  induction ns with
  | nil => intros; rfl
  | cons n ns ih =>
    intro cl els h
    have hm : getMember reg' members n = getMember reg members n := by
      unfold getMember; rw [h n (by simp)]
    simp only [genElements, hm]
    congr 1; funext i; congr 1; funext c
    exact ih fun m hm => h m (by simp [hm])

theorem genEdges_congr {reg reg' : Registry} {members : List String} :
    ∀ {ns : List String} {es : List (String × Ops)},
      (∀ n ∈ ns, Dict.get? reg' n = Dict.get? reg n ∧
        ∀ k p c ps, Dict.get? reg n = some (.edge k p c ps) → Dict.get? reg' p = Dict.get? reg p ∧
          Dict.get? reg' c = Dict.get? reg c) →
      genEdges reg' members ns es = genEdges reg members ns es := by
  intro ns
  induction ns with
  | nil => intros; rfl
  | cons n ns ih =>
    intro es h
    obtain ⟨h1, h2⟩ := h n (by simp)
    have hm : getMember reg' members n = getMember reg members n := by
      unfold getMember; rw [h1]
    simp only [genEdges, hm]
    cases hg : getMember reg members n with
    | error e => rfl
    | ok i =>
      have hi : Dict.get? reg n = some i := by
        unfold getMember at hg
        split at hg
        · split at hg
          · rename_i j hj; simp only [Except.ok.injEq] at hg; rw [hj, hg]
          · cases hg
        · cases hg
      have he : edgeConfig reg' i = edgeConfig reg i := by
        cases i with
        | edge k p c ps =>
          obtain ⟨a, b⟩ := h2 k p c ps hi
          cases k <;> simp only [edgeConfig, findElement, a, b]
        | elem => rfl
        | other => rfl
      simp only [bind, Except.bind, he]
      cases edgeConfig reg i with
      | error e => rfl
      | ok c => exact ih fun m hm => h m (by simp [hm])

/-- The device that is read generates the same configuration, if no amplitude reference is defined, the edges connect elements
of the device, and the scheduling strategy is the default. -/
theorem regenerated_partial (d : String) (cs : List Cmd) {doc : Doc} (hs : save (run (fresh d) cs) = .ok doc)
    (hw : ∀ n, n ∈ (run (fresh d) cs).dev.elements ∨ n ∈ (run (fresh d) cs).dev.edges → Writable (run (fresh d) cs) n)
    (href : ∀ n ∈ (run (fresh d) cs).dev.elements, ∀ sub par v, IsReference par →
      Value (run (fresh d) cs) n sub par v → v = .nan)
    (hends : ∀ n ∈ (run (fresh d) cs).dev.edges, ∀ k p c ps, Open (run (fresh d) cs) n (.edge k p c ps) →
      p ∈ (run (fresh d) cs).dev.elements ∧ c ∈ (run (fresh d) cs).dev.elements)
    (hasap : (run (fresh d) cs).dev.strategy = "asap") :
    ∃ s', load [] doc = .ok s' ∧ generate s' = generate (run (fresh d) cs) := by
  obtain ⟨_, o1, o2⟩ := (saved_iff d cs).mp ⟨doc, hs⟩
  have h := inv d cs
  have m := more d cs
  revert h m hs hw o1 o2 href hends hasap
  generalize run (fresh d) cs = s
  intro hs hw href hends hasap o1 o2 h m
  refine ⟨readBack s, load_eq h m hs hw, ?_⟩
  have e1 : ∀ n ∈ s.dev.elements, Dict.get? (readBack s).reg n = Dict.get? s.reg n := by
    intro n hn
    obtain ⟨k, ps, ho⟩ := o1 n hn
    have hwf : WF k.pars ps := (h.name n _ (Dict.mem_of_get? ho)).2.wf
    have hf : forget k.pars ps = ps := by
      refine forget_id (good_kind k) hwf ?_
      intro p hp hpn
      have hm : p.key ∈ Dict.keys ps := by rw [hwf.keys]; exact List.mem_map_of_mem hp
      obtain ⟨v, hv⟩ := Option.isSome_iff_exists.mp ((Dict.get?_isSome_iff _ _).mpr hm)
      have := href n hn p.sub p.name v (nested_name (i := .elem k n ps) hp hpn) ⟨_, ho, hv⟩
      rw [hv, this]
    rw [readBack_get (.inl hn), show Dict.get? s.reg n = _ from ho]
    simp [back, show Dict.get? s.reg n = _ from ho, reborn, Instr.withParams, Instr.pars, Instr.params, hf]
  have e2 : ∀ n ∈ s.dev.edges, Dict.get? (readBack s).reg n = Dict.get? s.reg n := by
    intro n hn
    obtain ⟨k, p, c, ps, ho⟩ := o2 n hn
    have hfine := (h.name n _ (Dict.mem_of_get? ho)).2
    have hwf : WF (k.pars p c) ps := hfine.wf
    have hg : Good (k.pars p c) := hfine.good
    have hf : forget (k.pars p c) ps = ps := by
      refine forget_id hg hwf ?_
      intro q hq hqn
      exfalso
      cases k <;> simp [EKind.pars, czPars] at hq
      · rcases hq with rfl | rfl | rfl | rfl <;> cases hqn
      · rcases hq with rfl | rfl | rfl | rfl | rfl <;> cases hqn
    rw [readBack_get (.inr hn), show Dict.get? s.reg n = _ from ho]
    simp [back, show Dict.get? s.reg n = _ from ho, reborn, Instr.withParams, Instr.pars, Instr.params, hf]
  unfold generate
  have g1 : genElements (readBack s).reg (readBack s).dev.elements (readBack s).dev.elements [] [] =
      genElements s.reg s.dev.elements s.dev.elements [] [] := genElements_congr e1
  have g2 : genEdges (readBack s).reg (readBack s).dev.edges (readBack s).dev.edges [] =
      genEdges s.reg s.dev.edges s.dev.edges [] := genEdges_congr (by
    intro n hn
    refine ⟨e2 n hn, ?_⟩
    intro k p c ps hi
    obtain ⟨a, b⟩ := hends n hn k p c ps hi
    exact ⟨e1 p a, e1 c b⟩)
  rw [g1, g2, hasap]
  rfl

end Verif.Device
