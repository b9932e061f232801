/-
C74: a parameter has the value that it was last set to.
-/
import Verif.Device.Props2

namespace Verif.Device

open Verif Verif.Device.Spec

set_option linter.unusedSimpArgs false
set_option linter.unusedVariables false

theorem run_append (s : St) (h1 h2 : List Cmd) : run s (h1 ++ h2) = run (run s h1) h2 := by
  induction h1 generalizing s with
  | nil => rfl
  | cons c h1 ih =>
    simp only [List.cons_append, run]
    cases step s c with
    | ok s' => exact ih s'
    | error e => exact ih s

theorem nested_kind (k : Kind) : ∀ p ∈ k.pars, p.nested = true →
    (p.name == "reference_magnitude_dBm" || p.name == "reference_magnitude_V" || p.name == "reference_magnitude_A") = true := by
  cases k <;> decide +kernel

theorem nested_name {i : Instr} {p : Par} (hp : p ∈ i.pars) (hn : p.nested = true) :
    ∃ u ∈ units, p.name = "reference_magnitude_" ++ u := by
  cases i with
  | elem k n ps =>
    have := nested_kind k p hp hn
    simp only [Bool.or_eq_true, beq_iff_eq] at this
    rcases this with (h | h) | h
    · exact ⟨"dBm", by simp [units], h⟩
    · exact ⟨"V", by simp [units], h⟩
    · exact ⟨"A", by simp [units], h⟩
  | edge k a b ps =>
    cases k <;> simp [Instr.pars, EKind.pars, czPars] at hp
    · rcases hp with rfl | rfl | rfl | rfl <;> cases hn
    · rcases hp with rfl | rfl | rfl | rfl | rfl <;> cases hn
  | other n => simp [Instr.pars] at hp

theorem open_register {s : St} {n : String} {i j : Instr} {reg' : Registry} (ho : Open s n i)
    (hr : register s.reg j = .ok reg') : Dict.get? reg' n = some i := by
  obtain ⟨_, rfl⟩ := register_ok hr
  rw [get?_append, show Dict.get? s.reg n = some i from ho]
  rfl

theorem get?_close {reg : Registry} {n m : String} (h : m ≠ n) :
    Dict.get? (reg.filter fun e => e.1 != m) n = Dict.get? reg n := by
  induction reg with
  | nil => rfl
  | cons e reg ih =>
    rw [List.filter_cons, Dict.get?_cons]
    by_cases he : e.1 = m
    · have h1 : e.1 ≠ n := fun x => h (he.symm.trans x)
      simp [he, h, ih]
    · simp only [bne_iff_ne, ne_eq, he, not_false_eq_true, if_true]
      rw [Dict.get?_cons]
      by_cases h1 : e.1 = n
      · simp [h1]
      · simp only [h1, if_false]; exact ih

/-- A command that does not touch the parameter leaves its value. -/
theorem frame {s s' : St} {c : Cmd} {n sub par : String} {v : Val} (hv : Value s n sub par v)
    (hs : step s c = .ok s') (ht : ¬ Touches n sub par c) : Value s' n sub par v := by
  obtain ⟨i, ho, hp⟩ := hv
  cases c with
  | newElem k m kw =>
    simp only [step, bind, Except.bind] at hs
    cases hm : makeElem k m kw with
    | error e => rw [hm] at hs; cases hs
    | ok j =>
      rw [hm] at hs; simp only at hs
      cases hr : register s.reg j with
      | error e => rw [hr] at hs; cases hs
      | ok r =>
        rw [hr] at hs; simp only [pure, Except.pure, Except.ok.injEq] at hs; subst hs
        exact ⟨i, open_register ho hr, hp⟩
  | newEdge k p q kw =>
    simp only [step, bind, Except.bind] at hs
    cases hm : makeEdge k p q kw with
    | error e => rw [hm] at hs; cases hs
    | ok j =>
      rw [hm] at hs; simp only at hs
      cases hr : register s.reg j with
      | error e => rw [hr] at hs; cases hs
      | ok r =>
        rw [hr] at hs; simp only [pure, Except.pure, Except.ok.injEq] at hs; subst hs
        exact ⟨i, open_register ho hr, hp⟩
  | newOther x =>
    simp only [step, bind, Except.bind] at hs
    cases hr : register s.reg (.other x) with
    | error e => rw [hr] at hs; cases hs
    | ok r =>
      rw [hr] at hs; simp only [pure, Except.pure, Except.ok.injEq] at hs; subst hs
      exact ⟨i, open_register ho hr, hp⟩
  | close m =>
    simp only [step, Except.ok.injEq] at hs; subst hs
    exact ⟨i, (get?_close (fun e => ht e)).trans ho, hp⟩
  | setPar m sub' par' w =>
    simp only [step] at hs
    split at hs
    · cases hs
    · rename_i j hj
      simp only [bind, Except.bind] at hs
      cases hps : setParam j sub' par' w with
      | error e => rw [hps] at hs; cases hs
      | ok j' =>
        rw [hps] at hs
        simp only [pure, Except.pure, Except.ok.injEq] at hs
        subst hs
        by_cases hmn : m = n
        · subst hmn
          have hji : j = i := by
            rw [show Dict.get? s.reg m = some i from ho] at hj; exact (Option.some.inj hj).symm
          subst hji
          obtain ⟨p, hpm, hk, hok, hname, hpars, hparams, hposs⟩ := setParam_ok hps
          refine ⟨j', by simp [Open, Dict.get?_set], ?_⟩
          rw [hparams, get?_assign, hp]
          simp only [Option.map_some, Option.some.injEq]
          unfold after
          have hne : (sub, par) ≠ p.key := by
            rw [hk]; intro e
            simp only [Prod.mk.injEq] at e
            exact ht ⟨rfl, e.1.symm, .inl e.2.symm⟩
          rw [if_neg hne, if_neg]
          intro hc
          simp only [Bool.and_eq_true, List.any_eq_true, beq_iff_eq] at hc
          obtain ⟨⟨hpn, _⟩, r, hr, ⟨hrn, hrk⟩, hrs⟩ := hc
          obtain ⟨u, hu, e1⟩ := nested_name hpm hpn
          obtain ⟨u', hu', e2⟩ := nested_name hr hrn
          simp only [Par.key, Prod.mk.injEq] at hk hrk
          refine ht ⟨rfl, ?_, .inr ⟨u, hu, u', hu', hk.2 ▸ e1, hrk.2 ▸ e2⟩⟩
          rw [← hk.1, ← hrs, hrk.1]
        · exact ⟨i, by simp only [Open, Dict.get?_set]; rw [if_neg (fun e => hmn e.symm)]; exact ho, hp⟩
  | addElement j =>
    simp only [step] at hs
    split at hs
    · cases hs
    · split at hs
      · cases hs
      · cases j with
        | elem => simp only [Except.ok.injEq] at hs; subst hs; exact ⟨i, ho, hp⟩
        | edge => cases hs
        | other => cases hs
  | addEdge j =>
    simp only [step] at hs
    split at hs
    · cases hs
    · cases j with
      | edge => simp only [Except.ok.injEq] at hs; subst hs; exact ⟨i, ho, hp⟩
      | elem => cases hs
      | other => cases hs
  | removeElement x =>
    simp only [step] at hs
    split at hs
    · simp only [Except.ok.injEq] at hs; subst hs; exact ⟨i, ho, hp⟩
    · cases hs
  | removeEdge x =>
    simp only [step] at hs
    split at hs
    · simp only [Except.ok.injEq] at hs; subst hs; exact ⟨i, ho, hp⟩
    · cases hs
  | setStrategy x =>
    simp only [step] at hs
    split at hs
    · simp only [Except.ok.injEq] at hs; subst hs; exact ⟨i, ho, hp⟩
    · cases hs
  | setReps x =>
    simp only [step] at hs
    split at hs
    · simp only [Except.ok.injEq] at hs; subst hs; exact ⟨i, ho, hp⟩
    · cases hs
  | setKeep x => simp only [step, Except.ok.injEq] at hs; subst hs; exact ⟨i, ho, hp⟩
  | setHardware x => simp only [step, Except.ok.injEq] at hs; subst hs; exact ⟨i, ho, hp⟩

theorem frame_run {s : St} {cs : List Cmd} {n sub par : String} {v : Val} (hv : Value s n sub par v)
    (ht : ∀ c ∈ cs, ¬ Touches n sub par c) : Value (run s cs) n sub par v := by
  induction cs generalizing s with
  | nil => exact hv
  | cons c cs ih =>
    simp only [run]
    cases hs : step s c with
    | ok s' => exact ih (frame hv hs (ht c (by simp))) fun c hc => ht c (by simp [hc])
    | error e => exact ih hv fun c hc => ht c (by simp [hc])

/-- A parameter has the value that it was last set to, whatever else was done in the session. -/
theorem last_set (d : String) (h1 h2 : List Cmd) {n sub par : String} {v : Val} {s1 : St}
    (hok : step (run (fresh d) h1) (.setPar n sub par v) = .ok s1) (ht : ∀ c ∈ h2, ¬ Touches n sub par c) :
    Value (run (fresh d) (h1 ++ .setPar n sub par v :: h2)) n sub par v := by
  rw [run_append]
  simp only [run, hok]
  refine frame_run ?_ ht
  have hi := inv d h1
  revert hok hi
  generalize run (fresh d) h1 = s
  intro hok hi
  simp only [step] at hok
  split at hok
  · cases hok
  · rename_i i hj
    simp only [bind, Except.bind] at hok
    cases hps : setParam i sub par v with
    | error e => rw [hps] at hok; cases hok
    | ok j =>
      rw [hps] at hok
      simp only [pure, Except.pure, Except.ok.injEq] at hok
      subst hok
      obtain ⟨p, hpm, hk, _, _, _, hparams, _⟩ := setParam_ok hps
      refine ⟨j, by simp [Open, Dict.get?_set], ?_⟩
      have hw := (hi.name n i (Dict.mem_of_get? hj)).2.wf
      have hmem : p.key ∈ Dict.keys i.params := by rw [hw.keys]; exact List.mem_map_of_mem hpm
      obtain ⟨w, hwv⟩ := Option.isSome_iff_exists.mp ((Dict.get?_isSome_iff _ _).mpr hmem)
      rw [hparams, get?_assign, ← hk, hwv]
      simp [after]

/-- What is in the parameters made so far stays there, unless it is nested. -/
theorem build_keeps {all : List Par} {name : String} {kw : Params} {k : String × String} {v : Val}
    (hk : ∀ p ∈ all, p.key = k → p.nested = false) :
    ∀ (rest : List Par) (ps ps' : Params), build all name kw rest ps = .ok ps' → k ∉ rest.map Par.key →
      Dict.get? ps k = some v → Dict.get? ps' k = some v := by
  intro rest
  induction rest with
  | nil => intro ps ps' h _ hv; simp only [build, Except.ok.injEq] at h; subst h; exact hv
  | cons p rest ih =>
    intro ps ps' h hn hv
    simp only [build] at h
    split at h
    · simp only [List.map_cons, List.mem_cons, not_or] at hn
      refine ih _ _ h hn.2 ?_
      rw [get?_assign, get?_append, hv]
      show some (after _ _ _ _ _) = _
      simp only [Option.some.injEq]
      unfold after
      rw [if_neg hn.1, if_neg]
      intro hc
      simp only [Bool.and_eq_true, List.any_eq_true, beq_iff_eq] at hc
      obtain ⟨_, r, hr, ⟨hrn, hrk⟩, _⟩ := hc
      rw [hk r hr hrk] at hrn
      cases hrn
    · cases h

theorem build_value {all : List Par} (g : Good all) {name : String} {kw : Params} {p : Par} (hn : p.nested = false) :
    ∀ (rest done : List Par) (ps ps' : Params), all = done ++ rest → build all name kw rest ps = .ok ps' → p ∈ rest →
      Dict.keys ps = done.map Par.key →
      Dict.get? ps' p.key = some (initial name p.dflt (Dict.get? kw p.key)) := by
  intro rest
  induction rest with
  | nil => intro _ _ _ _ _ h; cases h
  | cons q rest ih =>
    intro done ps ps' hall h hp hkeys
    simp only [build] at h
    split at h
    · have hkeys' : Dict.keys (assign all (ps ++ [((q.sub, q.name), Val.none)]) q
          (initial name q.dflt (Dict.get? kw (q.sub, q.name)))) = (done ++ [q]).map Par.key := by
        rw [keys_assign]
        simp only [Dict.keys, List.map_append, List.map_cons, List.map_nil] at hkeys ⊢
        rw [hkeys]; rfl
      by_cases e : p = q
      · subst e
        have hnd := g.nodup
        rw [hall, List.map_append, List.map_cons] at hnd
        have hnd2 := List.nodup_append.mp hnd
        refine build_keeps ?_ rest _ _ h (List.nodup_cons.mp hnd2.2.1).1 ?_
        · intro r hr hrk
          rw [g.same r hr p (by rw [hall]; simp) hrk]; exact hn
        · have hnone : Dict.get? ps p.key = none := by
            rw [Dict.get?_eq_none_iff, hkeys]
            intro hm
            exact hnd2.2.2 _ hm _ (by simp) rfl
          rw [get?_assign, get?_append, hnone]
          simp [Dict.get?_cons, Par.key, after]
      · have : p ∈ rest := by
          simp only [List.mem_cons] at hp
          exact hp.resolve_left e
        exact ih (done ++ [q]) _ _ (by simp [hall]) h this hkeys'
    · cases h

/-- A new element has the values that are given to its constructor. -/
theorem constructed (d : String) (h : List Cmd) {k : Kind} {n sub par : String} {kw : Params} {v : Val} {s1 : St}
    (hok : step (run (fresh d) h) (.newElem k n kw) = .ok s1) (hv : Dict.get? kw (sub, par) = some v)
    (hnone : v ≠ .none) (hempty : v ≠ .str "") (href : ∀ u ∈ units, par ≠ "reference_magnitude_" ++ u) :
    Value s1 n sub par v := by
  revert hok
  generalize run (fresh d) h = s
  intro hok
  simp only [step, bind, Except.bind] at hok
  cases hm : makeElem k n kw with
  | error e => rw [hm] at hok; cases hok
  | ok i =>
    rw [hm] at hok; simp only at hok
    cases hr : register s.reg i with
    | error e => rw [hr] at hok; cases hok
    | ok r =>
      rw [hr] at hok; simp only [pure, Except.pure, Except.ok.injEq] at hok; subst hok
      obtain ⟨ps, rfl, hb, _⟩ := makeElem_ok hm
      obtain ⟨hfree, rfl⟩ := register_ok hr
      have hknown : ∃ p ∈ k.pars, p.key = (sub, par) := by
        unfold makeElem at hm
        split at hm
        · cases hm
        · split at hm
          · rename_i hall
            rw [List.all_eq_true] at hall
            have := hall _ (Dict.mem_of_get? hv)
            simp only [knownKwarg, List.contains_nil, Bool.or_false, List.any_eq_true, beq_iff_eq] at this
            exact this
          · cases hm
      obtain ⟨p, hp, hpk⟩ := hknown
      have hpn : p.nested = false := by
        cases hx : p.nested with
        | false => rfl
        | true =>
          obtain ⟨u, hu, e⟩ := nested_name (i := .elem k n ps) hp hx
          simp only [Par.key, Prod.mk.injEq] at hpk
          exact absurd (hpk.2 ▸ e) (href u hu)
      have hval := build_value (good_kind k) hpn k.pars [] [] ps rfl hb hp rfl
      refine ⟨.elem k n ps, ?_, ?_⟩
      · simp only [Open]
        rw [get?_append, (Dict.get?_eq_none_iff s.reg n).mpr hfree]
        simp [Dict.get?_cons, Instr.name]
      · simp only [Instr.params]
        rw [← hpk, hval, hpk, hv]
        have ht : truthy v = true := by
          cases v with
          | none => exact absurd rfl hnone
          | str x =>
            simp only [truthy, bne_iff_ne, ne_eq]
            intro e; exact hempty (by rw [e])
          | _ => rfl
        cases hd : p.dflt with
        | val w => rfl
        | port x => simp [initial, ht]
        | unlessNone w =>
          cases v with
          | none => exact absurd rfl hnone
          | _ => rfl

/-- The two together: the argument of an operation is the value that the parameter was last set to. -/
theorem argument_last_set (d : String) (h1 h2 : List Cmd) {n sub par : String} {v : Val} {s1 : St}
    (hok : step (run (fresh d) h1) (.setPar n sub par v) = .ok s1) (ht : ∀ c ∈ h2, ¬ Touches n sub par c) {cfg : Config}
    (hg : generate (run (fresh d) (h1 ++ .setPar n sub par v :: h2)) = .ok cfg)
    (hn : n ∈ (run (fresh d) (h1 ++ .setPar n sub par v :: h2)).dev.elements) {k : Kind} {ps : Params}
    (ho : Open (run (fresh d) (h1 ++ .setPar n sub par v :: h2)) n (.elem k n ps)) {op a : String}
    (hd : (op, a, sub, par) ∈ documented k) : argument cfg n op a = some (.val v) := by
  obtain ⟨w, ⟨i, hi, hw⟩, ha⟩ := arguments d _ hg hn ho hd
  obtain ⟨j, hj, hv⟩ := last_set d h1 h2 hok ht
  have : i = j := Option.some.inj (hi.symm.trans hj)
  subst this
  rw [ha, Option.some.inj (hw.symm.trans hv)]

end Verif.Device
